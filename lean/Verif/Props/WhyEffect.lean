import Verif.Model.WhyEffect
import Verif.Props.WhyArms
import Verif.Props.MetaLearner
import Mathlib.Data.List.Nodup
import Mathlib.Tactic.Ring
import Mathlib.Tactic.Linarith
import Mathlib.Tactic.NormNum
import Mathlib.Tactic.Positivity
import Mathlib.Tactic.FieldSimp

/-!
# C118 - C120: the effects `Why` reports for single rows, for continuous treatments and with a cost function; C63 continued
-/

set_option linter.unusedSectionVars false

namespace YL.Props

open YL Why WhyE

/-! ### specification -/

section
variable {C V I R K : Type} [DecidableEq C] [DecidableEq V] [DecidableEq I]

/-- the effect of moving one row from the value `c` to the value `v` of treatment `x`: zero if they are equal, otherwise what the
treatment's estimator says about the codes (positions among the classes) of the two values -/
def moveEffect [Zero K] (est : C → R → Nat → Nat → K) (classes : C → List V) (x : C) (r : R) (v c : V) : K :=
  if v = c then 0 else est x r ((classes x).findIdx (fun u => decide (u = v))) ((classes x).findIdx (fun u => decide (u = c)))

theorem locRows_unique : ∀ {rows : List (Row C V I R)} (_ : (rows.map Row.label).Nodup) {r : Row C V I R} (_ : r ∈ rows),
    locRows rows r.label = .ok [r]
  | [], _, r, h => by simp at h
  | a :: rows, hn, r, h => by
    rw [List.map_cons, List.nodup_cons] at hn
    have hfil : ∀ {l : List (Row C V I R)} {i : I}, i ∉ l.map Row.label → l.filter (fun r => decide (r.label = i)) = [] := by
      intro l i hi
      rw [List.filter_eq_nil_iff]
      intro b hb
      have : b.label ∈ l.map Row.label := List.mem_map_of_mem hb
      simp only [decide_eq_true_eq]
      rintro rfl
      exact hi this
    rcases List.mem_cons.1 h with rfl | h
    · have h0 := hfil hn.1
      have h1 : rows.takeWhile (fun b => decide (b.label = r.label)) = [] := by
        cases rows with
        | nil => rfl
        | cons b l =>
          simp only [List.filter_cons] at h0
          by_cases hb : b.label = r.label
          · simp [hb] at h0
          · simp [hb]
      simp [locRows, h0, h1]
    · have ih := locRows_unique hn.2 h
      have hne : a.label ≠ r.label := by
        intro he
        exact hn.1 (he ▸ List.mem_map_of_mem h)
      unfold locRows at ih ⊢
      simpa [hne] using ih

theorem flatten_ne_nil {α β : Type} {l : List α} {g : α → List β} (hl : l ≠ []) (hg : ∀ a, g a ≠ []) : (l.map g).flatten.isEmpty = false := by
  obtain ⟨a, l, rfl⟩ := List.exists_cons_of_ne_nil hl
  simp [hg a]

theorem individual_ok [Zero K] (est : C → R → Nat → Nat → K) (classes : C → List V) {treatment : List C} {control : Option (List V)}
    {cs : List V} (hc : controls classes treatment control = .ok cs) (hlen : cs.length = treatment.length) (ht : treatment ≠ [])
    {rows : List (Row C V I R)} (hr : rows ≠ []) (head : Row C V I R → Row C V I R)
    (hhead : ∀ r ∈ rows, ∃ tl, locRows rows r.label = .ok (head r :: tl) ∧ ∀ q ∈ head r :: tl, q ∈ rows)
    (hv : ∀ r ∈ rows, ∀ x ∈ treatment, r.value x ∈ classes x) (hcs : ∀ p ∈ treatment.zip cs, p.2 ∈ classes p.1) :
    individual est classes treatment control rows = .ok (rows.flatMap (fun r => (treatment.zip cs).map (fun p =>
      ((r.label, p.1, (head r).value p.1, p.2), moveEffect est classes p.1 (head r).rest ((head r).value p.1) p.2)))) := by
  have hz : treatment.zip cs ≠ [] := by
    obtain ⟨x, t, rfl⟩ := List.exists_cons_of_ne_nil ht
    cases cs with
    | nil => simp at hlen
    | cons c cs => simp
  have hone : ∀ r ∈ rows, rowEntries est classes (treatment.zip cs) rows r =
      .ok ((treatment.zip cs).map (fun p => ((r.label, p.1, (head r).value p.1, p.2),
        moveEffect est classes p.1 (head r).rest ((head r).value p.1) p.2))) := by
    intro r hr'
    obtain ⟨tl, hloc, hmem⟩ := hhead r hr'
    simp only [rowEntries, hloc]
    refine mapE_eq (fun p hp => ?_)
    have hx : p.1 ∈ treatment := (List.of_mem_zip hp).1
    simp only [entry, indivOne, moveEffect]
    by_cases h : (head r).value p.1 = p.2
    · simp only [h, if_true]
    · have h2 : Meta.mapE (fun r : Row C V I R => Why.code (classes p.1) (r.value p.1)) (head r :: tl) =
          .ok ((head r :: tl).map (fun r => (classes p.1).findIdx (fun u => decide (u = r.value p.1)))) :=
        mapE_eq (fun q hq => code_findIdx (hv q (hmem q hq) _ hx))
      simp only [h, if_false, h2, code_findIdx (hv (head r) (hmem _ (by simp)) _ hx), code_findIdx (hcs p hp)]
  have hz' : ∀ r : Row C V I R, (treatment.zip cs).map (fun p => ((r.label, p.1, (head r).value p.1, p.2),
        moveEffect est classes p.1 (head r).rest ((head r).value p.1) p.2)) ≠ [] := by
    intro r h
    exact hz (List.map_eq_nil_iff.1 h)
  simp only [individual, hc, mapE_eq hone, flatten_ne_nil hr hz', List.flatMap, Bool.false_eq_true, if_false]

/-- **C118**, the answers: with distinct index labels, `individual_causal_effect` reports for every row in order and every treatment the
value of the row, the control and the effect of moving that row from the control to its own value, computed by the treatment's
estimator from that row alone; zero where the row has the control value. `cs` are the given controls. -/
theorem C118_individual [Zero K] (est : C → R → Nat → Nat → K) (classes : C → List V) {treatment : List C} {cs : List V}
    (hlen : cs.length = treatment.length) (ht : treatment ≠ []) {rows : List (Row C V I R)} (hr : rows ≠ [])
    (hn : (rows.map Row.label).Nodup) (hv : ∀ r ∈ rows, ∀ x ∈ treatment, r.value x ∈ classes x)
    (hcs : ∀ p ∈ treatment.zip cs, p.2 ∈ classes p.1) :
    individual est classes treatment (some cs) rows = .ok (rows.flatMap (fun r => (treatment.zip cs).map (fun p =>
      ((r.label, p.1, r.value p.1, p.2), moveEffect est classes p.1 r.rest (r.value p.1) p.2)))) :=
  individual_ok est classes (by simp [controls, hlen]) hlen ht hr id
    (fun r h => ⟨[], locRows_unique hn h, by simpa using h⟩) hv hcs

/-- **C118**, the default control is the first class of each treatment. -/
theorem C118_default_control [Zero K] (est : C → R → Nat → Nat → K) (classes : C → List V) {treatment : List C}
    (first : C → V) (hf : ∀ x ∈ treatment, (classes x).head? = some (first x)) (rows : List (Row C V I R)) :
    individual est classes treatment none rows = individual est classes treatment (some (treatment.map first)) rows := by
  have : controls classes treatment none = .ok (treatment.map first) := by
    refine mapE_eq (fun x hx => ?_)
    have := hf x hx
    cases hc : classes x with
    | nil => rw [hc] at this; simp at this
    | cons a l => rw [hc] at this; simp only [List.head?_cons, Option.some.injEq] at this; subst this; rfl
  have h' : controls classes treatment (some (treatment.map first)) = .ok (treatment.map first) := by simp [controls]
  rw [individual, individual, this, h']

/-- **C118**: a control with too few or too many values raises `AssertionError`. -/
theorem C118_wrong_length [Zero K] (est : C → R → Nat → Nat → K) (classes : C → List V) {treatment : List C} {cs : List V}
    (hlen : cs.length ≠ treatment.length) (rows : List (Row C V I R)) :
    individual est classes treatment (some cs) rows = .error .assertion := by
  simp [individual, controls, hlen]

/-- **C118**, agreement with `causal_effect`: asked for one treatment with these two values, `causal_effect` (without a cost function)
returns one column with the same numbers, row by row. -/
theorem C118_agrees [Zero K] (est : C → R → Nat → Nat → K) (classes : C → List V) (hn : ∀ x, (classes x).Nodup) (given : Bool)
    {x : C} {v c : V} (hv : v ∈ classes x) (hc : c ∈ classes x) (hne : v ≠ c) (rows : List (Row C V I R)) :
    causalEffect est classes none given [x] (some [v]) (some [c]) rows =
      .ok [((x, v, c), rows.map (fun r => moveEffect est classes x r.rest v c))] := by
  have h1 := findIdx_spec hv
  have h2 := findIdx_spec hc
  have := C62_sequential_given classes hn (xs := [x]) (ts := [v]) (cs := [c])
    (is := [(classes x).findIdx (fun u => decide (u = v))]) (js := [(classes x).findIdx (fun u => decide (u = c))])
    (by simpa using h1) (by simpa using h2)
  simp [causalEffect, this, Meta.mapE, iteColumn, rowEffects, uncode, h1, h2, moveEffect, hne]

/-- an estimator for examples: the effect is the row times the difference of the codes -/
def sampleEst : Nat → Int → Nat → Nat → Int := fun x r t c => (x + 1) * r * (t - c)

/-- classes for examples -/
def sampleClasses : Nat → List Nat := fun x => if x = 0 then [3, 7, 9] else [1, 2]

/-- rows for examples: label, value of treatment 0, value of treatment 1, rest -/
def sampleRow (i a b : Nat) (r : Int) : Row Nat Nat Nat Int := ⟨i, fun x => if x = 0 then a else b, r⟩

/-- the theorems apply: two treatments, three rows -/
example : individual sampleEst sampleClasses [0, 1] none [sampleRow 10 7 1 5, sampleRow 11 3 2 6, sampleRow 4 9 2 1] =
    .ok [((10, 0, 7, 3), 5), ((10, 1, 1, 1), 0), ((11, 0, 3, 3), 0), ((11, 1, 2, 1), 12), ((4, 0, 9, 3), 2), ((4, 1, 2, 1), 2)] := by
  decide

example : causalEffect sampleEst sampleClasses none true [0] (some [9]) (some [3]) [sampleRow 10 7 1 5, sampleRow 11 3 2 6, sampleRow 4 9 2 1] =
    .ok [((0, 9, 3), [10, 12, 2])] := by decide

/-- **C118, refuted** for repeated index labels: of two adjacent rows with the same label, the second gets the value and the effect of the
first one (7 instead of 9, 5 instead of 12); if the rows are not adjacent the call raises `KeyError`. -/
theorem C118_repeated_labels_refuted :
    individual sampleEst sampleClasses [0] none [sampleRow 10 7 1 5, sampleRow 10 9 2 6] =
      .ok [((10, 0, 7, 3), 5), ((10, 0, 7, 3), 5)] ∧
    moveEffect sampleEst sampleClasses 0 (sampleRow 10 9 2 6).rest 9 3 = 12 ∧
    individual sampleEst sampleClasses [0] none [sampleRow 10 7 1 5, sampleRow 11 3 1 5, sampleRow 10 9 2 6] = .error .key :=
  ⟨by decide, by decide, by decide⟩

end

/-! ### continuous treatments: C63, C118, C119 -/

section
variable {K R ι : Type} [CommRing K]

theorem einsum_map (l : List ι) (f d : ι → K) : einsum (l.map f) (l.map d) = .ok (l.map (fun i => f i * d i)) := by
  simp [einsum, List.zipWith_map]

theorem einsum_one (l : List ι) (f : ι → K) (b : K) : einsum (l.map f) [b] = .ok (l.map (fun i => f i * b)) := by
  unfold einsum
  match l with
  | [] => simp
  | [a] => simp
  | a :: b :: l => simp

theorem bsub_map (l : List ι) (t c : ι → K) : bsub (l.map t) (l.map c) = .ok (l.map (fun i => t i - c i)) := by
  simp [bsub, List.zipWith_map]

/-- **C63**, continuous treatment: `whatif` returns for every row the observed outcome plus the slope at the row times the change of the
treatment, whatever was asked before. `l` lists the rows; `f`, `x`, `y`, `new` are the slope, the observed treatment, the observed
outcome and the new treatment of a row. -/
theorem C63_continuous (l : List ι) (f x y new : ι → K) (data : List R) (st : Option (Num K)) :
    (whatifCont (l.map f) (l.map x) (l.map y) none data st (.array (l.map new))).1 = .ok (l.map (fun i => y i + f i * (new i - x i))) := by
  simp [whatifCont, dmlEstimate, contrast, theTreat, bsub_map, einsum_map, withCost, List.zipWith_map]

/-- **C63**, continuous treatment, the same new value for all rows -/
theorem C63_continuous_scalar (l : List ι) (f x y : ι → K) (a : K) (data : List R) (st : Option (Num K)) :
    (whatifCont (l.map f) (l.map x) (l.map y) none data st (.scalar a)).1 = .ok (l.map (fun i => y i + f i * (a - x i))) := by
  have := einsum_map l f (fun i => a - x i)
  simp [whatifCont, dmlEstimate, contrast, theTreat, withCost, List.zipWith_map, Function.comp_def, this]

/-- **C63**, continuous treatment: new values equal to the observed ones give the observed outcomes. -/
theorem C63_continuous_same (l : List ι) (f x y : ι → K) (data : List R) (st : Option (Num K)) :
    (whatifCont (l.map f) (l.map x) (l.map y) none data st (.array (l.map x))).1 = .ok (l.map y) := by
  rw [C63_continuous]
  simp

theorem costEffect_map (l : List ι) (d : ι → R) (e : ι → K) (cost : Option R → K → Except Err K) (g : R → K → K)
    (hg : ∀ r k, cost (some r) k = .ok (g r k)) : costEffect cost (some (l.map d)) (l.map e) = .ok (l.map (fun i => g (d i) (e i))) := by
  have : (l.map d).zip (l.map e) = l.map (fun i => (d i, e i)) := by simp [List.zip_map']
  simp only [costEffect, List.length_map, if_true, this]
  rw [show Meta.mapE (fun p : R × K => cost (some p.1) p.2) (l.map (fun i => (d i, e i))) =
    .ok ((l.map (fun i => (d i, e i))).map (fun p => g p.1 p.2)) from mapE_eq (fun p _ => hg p.1 p.2)]
  simp

/-- **C63**, continuous treatment with a cost function: the effect of every row is replaced by its cost-adjusted value. -/
theorem C63_continuous_cost (l : List ι) (f x y new : ι → K) (d : ι → R) (cost : Option R → K → Except Err K) (g : R → K → K)
    (hg : ∀ r k, cost (some r) k = .ok (g r k)) (st : Option (Num K)) :
    (whatifCont (l.map f) (l.map x) (l.map y) (some cost) (l.map d) st (.array (l.map new))).1 =
      .ok (l.map (fun i => y i + g (d i) (f i * (new i - x i)))) := by
  simp [whatifCont, dmlEstimate, contrast, theTreat, bsub_map, einsum_map, withCost, costEffect_map l d _ cost g hg, List.zipWith_map]

example : (whatifCont (R := Unit) [2, 3] [1, 5] [10, 20] none [] none (.array [4, (5 : Int)])).1 = .ok [16, 20] := by decide

/-- **C119**, both arms given: one number per row, the slope at the row times the difference of the arms, whatever was asked before. -/
theorem C119_both (l : List ι) (f : ι → K) (t c : K) (data : Option (List R)) (st : Option (Num K)) :
    (effectCont (l.map f) none data st (some (.scalar t)) (some (.scalar c))).1 = .ok (l.map (fun i => f i * (t - c))) := by
  simp [effectCont, contArms, dmlEstimate, contrast, theTreat, withCost, Function.comp_def]

/-- **C119**, both arms given row by row -/
theorem C119_rowwise (l : List ι) (f t c : ι → K) (data : Option (List R)) (st : Option (Num K)) :
    (effectCont (l.map f) none data st (some (.array (l.map t))) (some (.array (l.map c)))).1 =
      .ok (l.map (fun i => f i * (t i - c i))) := by
  simp [effectCont, contArms, dmlEstimate, contrast, theTreat, withCost, bsub_map, einsum_map]

/-- **C119**, one arm given row by row, the other as an array of one number -/
theorem C119_one_array (l : List ι) (f t : ι → K) (c : K) (data : Option (List R)) (st : Option (Num K)) :
    (effectCont (l.map f) none data st (some (.array (l.map t))) (some (.array [c]))).1 = .ok (l.map (fun i => f i * (t i - c))) ∧
    (effectCont (l.map f) none data st (some (.array [c])) (some (.array (l.map t)))).1 = .ok (l.map (fun i => f i * (c - t i))) := by
  have hb1 : bsub (l.map t) [c] = .ok (l.map (fun i => t i - c)) := by
    rcases l with _ | ⟨a, _ | ⟨b, l⟩⟩ <;> simp [bsub, Function.comp_def]
  have hb2 : bsub [c] (l.map t) = .ok (l.map (fun i => c - t i)) := by
    rcases l with _ | ⟨a, _ | ⟨b, l⟩⟩ <;> simp [bsub, Function.comp_def]
  constructor
  · simp only [effectCont, contArms, dmlEstimate, contrast, theTreat, withCost, Option.getD_some, hb1, einsum_map]
  · simp only [effectCont, contArms, dmlEstimate, contrast, theTreat, withCost, Option.getD_some, hb2, einsum_map]

/-- **C119**, only the treated value given: compared with zero -/
theorem C119_treat_only (l : List ι) (f : ι → K) (t : K) (data : Option (List R)) (st : Option (Num K)) :
    (effectCont (l.map f) none data st (some (.scalar t)) none).1 = .ok (l.map (fun i => f i * t)) := by
  have := einsum_one l f (t - 0)
  simp only [sub_zero] at this
  simp [effectCont, contArms, dmlEstimate, contrast, theTreat, withCost, likeArm, this]

/-- **C119**, only the control given: one is compared with it -/
theorem C119_control_only (l : List ι) (f : ι → K) (c : K) (data : Option (List R)) (st : Option (Num K)) :
    (effectCont (l.map f) none data st none (some (.scalar c))).1 = .ok (l.map (fun i => f i * (1 - c))) := by
  simp [effectCont, contArms, dmlEstimate, contrast, theTreat, withCost, likeArm, outer, List.flatMap_map]
  rw [List.map_eq_flatMap]

/-- **C119**, no arms given and nothing asked before: the slope at each row, the effect of one unit -/
theorem C119_default (l : List ι) (f : ι → K) (data : Option (List R)) :
    (effectCont (l.map f) none data none none none).1 = .ok (l.map f) := by
  simp [effectCont, contArms, dmlEstimate, contrast, theTreat, withCost, Function.comp_def]

/-- **C119**, history: the answer to every call except `causal_effect` without arms does not depend on earlier calls. -/
theorem C119_history (q : Call K) (hq : ∀ f, q ≠ .effect f none none) (st st' : Option (Num K)) : (answer st q).1 = (answer st' q).1 := by
  cases q with
  | effect f t c =>
    cases t with
    | none => cases c with
      | none => exact absurd rfl (hq f)
      | some c => simp [answer, effectCont, contArms, dmlEstimate, theTreat]
    | some t => cases c <;> simp [answer, effectCont, contArms, dmlEstimate, theTreat]
  | individual f xs c => simp [answer, individualCont, dmlEstimate, theTreat]
  | whatif f xs ys new => simp [answer, whatifCont, dmlEstimate, theTreat]

/-- **C119, refuted**: `causal_effect` without arms uses the treated value of the last call. After `causal_effect(treat=5)` it answers for
5 units; after `whatif` or `individual_causal_effect` on `m` rows it returns `n * m` numbers for `n` rows. -/
theorem C119_history_refuted (l : List ι) (f : ι → K) (q : Call K) (new : List K)
    (hq : (∃ g c, q = .individual g new c) ∨ ∃ g xs ys, q = .whatif g xs ys (.array new)) (st : Option (Num K)) :
    (answer (answer st q).2 (.effect (l.map f) none none)).1 = .ok (l.flatMap (fun i => new.map (fun b => f i * b))) ∧
    (l.flatMap (fun i => new.map (fun b => f i * b))).length = l.length * new.length := by
  refine ⟨?_, ?_⟩
  · rcases hq with ⟨g, c, rfl⟩ | ⟨g, xs, ys, rfl⟩ <;>
      simp [answer, individualCont, whatifCont, effectCont, contArms, dmlEstimate, theTreat, contrast, outer, withCost, List.flatMap_map]
  · induction l with
    | nil => simp
    | cons a l ih => rw [List.flatMap_cons, List.length_append, ih, List.length_map, List.length_cons]; ring

theorem C119_history_example_refuted :
    answers none [.effect [2, 3] none none, .effect [2, 3] (some (.scalar 5)) none, .effect [2, 3] none none,
      .whatif [2, 3] [1, 1] [10, 20] (.array [4, 6]), .effect [2, (3 : Int)] none none] =
    [.ok [2, 3], .ok [10, 15], .ok [10, 15], .ok [16, 35], .ok [8, 12, 12, 18]] := by decide

/-- **C118**, continuous treatment with the controls given row by row: the effect of the observed value of each row against its control -/
theorem C118_continuous_rowwise (l : List ι) (f x c : ι → K) (st : Option (Num K)) :
    (individualCont (l.map f) (l.map x) st (some (.array (l.map c)))).1 = .ok (l.map (fun i => f i * (x i - c i))) := by
  simp [individualCont, dmlEstimate, contrast, theTreat, bsub_map, einsum_map]

/-- **C118, refuted** for continuous treatments: with the default control or a number as control, `individual_causal_effect` returns for
`n` rows the `n * n` products of every slope with every observed value instead of one number per row. -/
theorem C118_continuous_refuted (l : List ι) (f x : ι → K) (c : K) (st : Option (Num K)) :
    (individualCont (l.map f) (l.map x) st (some (.scalar c))).1 = .ok (l.flatMap (fun i => l.map (fun j => f i * (x j - c)))) ∧
    (individualCont (l.map f) (l.map x) st none).1 = .ok (l.flatMap (fun i => l.map (fun j => f i * x j))) ∧
    (l.flatMap (fun i => l.map (fun j => f i * x j))).length = l.length * l.length := by
  refine ⟨?_, ?_, ?_⟩
  · simp [individualCont, dmlEstimate, contrast, theTreat, outer, List.flatMap_map, Function.comp_def]
  · simp [individualCont, dmlEstimate, contrast, theTreat, outer, List.flatMap_map, Function.comp_def]
  · rw [List.length_flatMap]
    simp

example : (individualCont [2, 3] [10, 100] none (none : Option (Num Int))).1 = .ok [20, 200, 30, 300] := by decide

end

/-! ### C120: the summary of `causal_effect` -/

theorem foldl_min_le (l : List ℝ) : ∀ a : ℝ, (l.foldl (fun x y => if y < x then y else x) a ≤ a ∧ ∀ b ∈ l, l.foldl (fun x y => if y < x then y else x) a ≤ b) ∧
    (l.foldl (fun x y => if y < x then y else x) a = a ∨ l.foldl (fun x y => if y < x then y else x) a ∈ l) := by
  induction l with
  | nil => intro a; simp
  | cons b l ih =>
    intro a
    simp only [List.foldl_cons]
    obtain ⟨⟨h1, h2⟩, h3⟩ := ih (if b < a then b else a)
    refine ⟨⟨?_, ?_⟩, ?_⟩
    · refine h1.trans ?_
      split <;> linarith
    · intro c hc
      rcases List.mem_cons.1 hc with rfl | hc
      · refine h1.trans ?_
        split <;> linarith
      · exact h2 c hc
    · rcases h3 with h3 | h3
      · rw [h3]
        by_cases h : b < a
        · simp [h]
        · simp [h]
      · exact .inr (List.mem_cons_of_mem _ h3)

theorem foldl_max_le (l : List ℝ) : ∀ a : ℝ, (a ≤ l.foldl (fun x y => if x < y then y else x) a ∧ ∀ b ∈ l, b ≤ l.foldl (fun x y => if x < y then y else x) a) ∧
    (l.foldl (fun x y => if x < y then y else x) a = a ∨ l.foldl (fun x y => if x < y then y else x) a ∈ l) := by
  induction l with
  | nil => intro a; simp
  | cons b l ih =>
    intro a
    simp only [List.foldl_cons]
    obtain ⟨⟨h1, h2⟩, h3⟩ := ih (if a < b then b else a)
    refine ⟨⟨?_, ?_⟩, ?_⟩
    · refine le_trans ?_ h1
      split <;> linarith
    · intro c hc
      rcases List.mem_cons.1 hc with rfl | hc
      · refine le_trans ?_ h1
        split <;> linarith
      · exact h2 c hc
    · rcases h3 with h3 | h3
      · rw [h3]
        by_cases h : a < b
        · simp [h]
        · simp [h]
      · exact .inr (List.mem_cons_of_mem _ h3)

theorem sum_le_card (l : List ℝ) (m : ℝ) (h : ∀ b ∈ l, b ≤ m) : l.sum ≤ l.length * m := by
  induction l with
  | nil => simp
  | cons a l ih =>
    have := ih (fun b hb => h b (List.mem_cons_of_mem _ hb))
    have ha := h a (by simp)
    rw [List.sum_cons, List.length_cons]
    push_cast
    nlinarith

theorem card_le_sum (l : List ℝ) (m : ℝ) (h : ∀ b ∈ l, m ≤ b) : l.length * m ≤ l.sum := by
  induction l with
  | nil => simp
  | cons a l ih =>
    have := ih (fun b hb => h b (List.mem_cons_of_mem _ hb))
    have ha := h a (by simp)
    rw [List.sum_cons, List.length_cons]
    push_cast
    nlinarith

theorem sum_sq_dev_zero (l : List ℝ) (m : ℝ) (h : (l.map (fun x => (x - m) ^ 2)).sum = 0) : ∀ x ∈ l, x = m := by
  induction l with
  | nil => simp
  | cons a l ih =>
    rw [List.map_cons, List.sum_cons] at h
    have h1 : 0 ≤ (l.map (fun x => (x - m) ^ 2)).sum := List.sum_nonneg (by simp only [List.mem_map]; rintro _ ⟨x, _, rfl⟩; positivity)
    have h2 : 0 ≤ (a - m) ^ 2 := sq_nonneg _
    have h3 : (a - m) ^ 2 = 0 := by linarith
    intro x hx
    rcases List.mem_cons.1 hx with rfl | hx
    · have := pow_eq_zero_iff (two_ne_zero) |>.1 h3
      linarith
    · exact ih (by linarith) x hx

/-- **C120**: the reported numbers describe the effects of the rows: the mean is their average and lies between the smallest and the
largest effect, which are effects of some rows and bound all of them; the deviation is not negative, and zero exactly if all rows
have the same effect. Without rows the call raises `ValueError`. -/
theorem C120_summary (e : List ℝ) (he : e ≠ []) : ∃ s, summary e = .ok s ∧
    s.mean = e.sum / e.length ∧ s.min ∈ e ∧ s.max ∈ e ∧ (∀ x ∈ e, s.min ≤ x ∧ x ≤ s.max) ∧ s.min ≤ s.mean ∧ s.mean ≤ s.max ∧
    0 ≤ s.std ∧ s.std ^ 2 = (e.map (fun x => (x - s.mean) ^ 2)).sum / e.length ∧ (s.std = 0 ↔ ∀ x ∈ e, x = s.mean) := by
  obtain ⟨a, l, rfl⟩ := List.exists_cons_of_ne_nil he
  obtain ⟨⟨m1, m2⟩, m3⟩ := foldl_min_le l a
  obtain ⟨⟨M1, M2⟩, M3⟩ := foldl_max_le l a
  have hpos : (0 : ℝ) < ((a :: l).length : ℝ) := by simp only [List.length_cons]; push_cast; positivity
  have hmin : ∀ x ∈ a :: l, l.foldl (fun x y => if y < x then y else x) a ≤ x := by
    intro x hx
    rcases List.mem_cons.1 hx with rfl | hx
    · exact m1
    · exact m2 x hx
  have hmax : ∀ x ∈ a :: l, x ≤ l.foldl (fun x y => if x < y then y else x) a := by
    intro x hx
    rcases List.mem_cons.1 hx with rfl | hx
    · exact M1
    · exact M2 x hx
  have hvar : 0 ≤ mean ((a :: l).map (fun x => (x - mean (a :: l)) ^ 2)) := by
    unfold mean
    exact div_nonneg (List.sum_nonneg (by simp only [List.mem_map]; rintro _ ⟨x, _, rfl⟩; positivity)) (by positivity)
  refine ⟨_, rfl, rfl, ?_, ?_, fun x hx => ⟨hmin x hx, hmax x hx⟩, ?_, ?_, Real.sqrt_nonneg _, ?_, ?_⟩
  · rcases m3 with h | h
    · simp only [h]; simp
    · exact List.mem_cons_of_mem _ h
  · rcases M3 with h | h
    · simp only [h]; simp
    · exact List.mem_cons_of_mem _ h
  · simp only [mean]
    rw [le_div_iff₀ hpos, mul_comm]
    exact card_le_sum _ _ hmin
  · simp only [mean]
    rw [div_le_iff₀ hpos, mul_comm]
    exact sum_le_card _ _ hmax
  · simp only
    rw [Real.sq_sqrt hvar]
    simp [mean]
  · simp only
    rw [Real.sqrt_eq_zero hvar]
    constructor
    · intro h
      unfold mean at h
      rw [List.length_map, div_eq_zero_iff] at h
      rcases h with h | h
      · exact sum_sq_dev_zero _ _ h
      · exact absurd h hpos.ne'
    · intro h
      have : (a :: l).map (fun x => (x - mean (a :: l)) ^ 2) = (a :: l).map (fun _ => (0 : ℝ)) :=
        List.map_congr_left (fun x hx => by rw [h x hx]; ring)
      rw [this]
      simp [mean]

theorem C120_empty : summary [] = .error .value := rfl

/-- **C120**: the average of a sum of two lists of effects, row by row, is the sum of the averages; scaling likewise. -/
theorem C120_linear {ι : Type} (l : List ι) (e g : ι → ℝ) (a : ℝ) :
    mean (l.map (fun i => e i + a * g i)) = mean (l.map e) + a * mean (l.map g) := by
  simp only [mean, List.length_map]
  have : (l.map (fun i => e i + a * g i)).sum = (l.map e).sum + a * (l.map g).sum := by
    induction l with
    | nil => simp
    | cons b l ih => simp only [List.map_cons, List.sum_cons, ih]; ring
  rw [this, add_div, mul_div_assoc]

/-! ### C121: cost functions -/

section
variable {C V I R K : Type} [DecidableEq C] [DecidableEq V] [DecidableEq I] [CommRing K]

/-- **C121**, `causal_effect` for a discrete treatment on given data: the effect of every row is replaced by the cost function of the
row and its effect. -/
theorem C121_discrete (est : C → R → Nat → Nat → K) (classes : C → List V) (hn : ∀ x, (classes x).Nodup)
    (cost : Option R → K → Except Err K) (g : R → K → K) (hg : ∀ r k, cost (some r) k = .ok (g r k))
    {x : C} {v c : V} (hv : v ∈ classes x) (hc : c ∈ classes x) (hne : v ≠ c) (rows : List (Row C V I R)) :
    causalEffect est classes (some cost) true [x] (some [v]) (some [c]) rows =
      .ok [((x, v, c), rows.map (fun r => g r.rest (moveEffect est classes x r.rest v c)))] := by
  have h1 := findIdx_spec hv
  have h2 := findIdx_spec hc
  have := C62_sequential_given classes hn (xs := [x]) (ts := [v]) (cs := [c])
    (is := [(classes x).findIdx (fun u => decide (u = v))]) (js := [(classes x).findIdx (fun u => decide (u = c))])
    (by simpa using h1) (by simpa using h2)
  simp [causalEffect, this, Meta.mapE, iteColumn, rowEffects, uncode, h1, h2, moveEffect, hne,
    costEffect_map rows Row.rest _ cost g hg]

/-- **C121**, `causal_effect` for a continuous treatment on given data with both arms -/
theorem C121_continuous {ι : Type} (l : List ι) (f : ι → K) (d : ι → R) (cost : Option R → K → Except Err K) (g : R → K → K)
    (hg : ∀ r k, cost (some r) k = .ok (g r k)) (t c : K) (st : Option (Num K)) :
    (effectCont (l.map f) (some cost) (some (l.map d)) st (some (.scalar t)) (some (.scalar c))).1 =
      .ok (l.map (fun i => g (d i) (f i * (t - c)))) := by
  simp [effectCont, contArms, dmlEstimate, contrast, theTreat, withCost, Function.comp_def, costEffect_map l d _ cost g hg]

/-- **C121, refuted** without data: `causal_effect()` on the training data ignores the cost function for discrete treatments, and for
continuous ones calls it with the effect alone, so that a cost function that reads a column raises. -/
theorem C121_no_data_refuted (est : C → R → Nat → Nat → K) (classes : C → List V) (cost : Option R → K → Except Err K)
    (treatment : List C) (treat control : Option (List V)) (rows : List (Row C V I R))
    (e : Err) (he : ∀ k, cost none k = .error e) (a : K) (f : List K) (st : Option (Num K)) (t c : K) :
    causalEffect est classes (some cost) false treatment treat control rows = causalEffect est classes none false treatment treat control rows ∧
    (effectCont (a :: f) (some cost) none st (some (.scalar t)) (some (.scalar c))).1 = .error e := by
  refine ⟨rfl, ?_⟩
  simp [effectCont, contArms, dmlEstimate, contrast, theTreat, withCost, costEffect, Meta.mapE, he]

/-- **C121, refuted** for `individual_causal_effect`: it never uses the cost function. With a cost of 1 per row `causal_effect` reports 4 for
the row, `individual_causal_effect` 5. (`whatif` with a cost function: C63_cost_refuted.) -/
theorem C121_individual_refuted :
    causalEffect sampleEst sampleClasses (some (fun _ k => .ok (k - 1))) true [0] (some [7]) (some [3]) [sampleRow 10 7 1 5] =
      .ok [((0, 7, 3), [4])] ∧
    individual sampleEst sampleClasses [0] (some [3]) [sampleRow 10 7 1 5] = .ok [((10, 0, 7, 3), 5)] := by decide

/-- **C119, refuted** for one name: `causal_effect(treatment='ab')` looks for treatments named by the single characters. -/
theorem C119_name_refuted (fitted : List String) (c : Char) (s : String) (hs : s.toList.head? = some c) (hc : String.singleton c ∉ fitted) :
    contKeys fitted (.name s) = .error .key := by
  obtain ⟨l, hl⟩ : ∃ l, s.toList = c :: l := by
    cases h : s.toList with
    | nil => rw [h] at hs; simp at hs
    | cons a l => rw [h] at hs; simp only [List.head?_cons, Option.some.injEq] at hs; exact ⟨l, by rw [hs]⟩
  simp [contKeys, hl, Meta.mapE, hc]

/-- **C119**: a list of fitted names, and no name at all, select those treatments. -/
theorem C119_names (fitted : List String) (l : List String) (hl : l ≠ []) (h : ∀ x ∈ l, x ∈ fitted) :
    contKeys fitted (.names l) = .ok l ∧ (fitted ≠ [] → contKeys fitted .none = .ok fitted) := by
  refine ⟨?_, fun hf => ?_⟩
  · have := mapE_eq (f := fun x => if x ∈ fitted then Except.ok x else Except.error Err.key) (g := fun x => x) (l := l)
      (fun x hx => by simp [h x hx])
    simp [contKeys, hl, this]
  · have := mapE_eq (f := fun x => if x ∈ fitted then Except.ok x else Except.error Err.key) (g := fun x => x) (l := fitted)
      (fun x hx => by simp [hx])
    simp [contKeys, hf, this]

example : contKeys ["ab", "b"] (.name "ab") = .error .key := by decide +kernel

end

/-- **C121**: a cost function is not applied to effects that do not match the rows. -/
theorem C121_length {R K : Type} (cost : Option R → K → Except Err K) {rows : List R} {e : List K} (h : rows.length ≠ e.length) :
    costEffect cost (some rows) e = .error .assertion := by
  simp [costEffect, h]

end YL.Props
