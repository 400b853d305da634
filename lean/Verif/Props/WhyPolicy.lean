import Verif.Model.WhyPolicy
import Verif.Props.WhyEffect
import Verif.Props.Permuted
import Verif.Props.UpliftArea

/-!
# C122 - C124: the effect table behind `policy_interpreter`, the uplift model of `Why` and the choice of the estimator
-/

set_option linter.unusedSectionVars false

namespace YL.Props

open YL Why WhyP

section
variable {V L K : Type} [DecidableEq V]

/-- positions of values among the classes of their treatments -/
def codesOf (classes : List (List V)) (vs : List V) : List Nat := List.zipWith (fun c v => c.findIdx (fun u => decide (u = v))) classes vs

theorem map_findIdx_range {l : List V} (hn : l.Nodup) : l.map (fun v => l.findIdx (fun u => decide (u = v))) = List.range l.length := by
  apply List.ext_getElem (by simp)
  intro i h1 h2
  simp only [List.getElem_map, List.getElem_range]
  have hi : i < l.length := by simpa using h1
  have := findIdx_spec (List.getElem_mem hi)
  obtain ⟨h3, h4⟩ := List.getElem?_eq_some_iff.1 this
  exact hn.getElem_inj_iff.1 h4

theorem product_codes : ∀ {classes : List (List V)} (_ : ∀ c ∈ classes, c.Nodup),
    Permuted.product (classes.map (fun c => List.range c.length)) = (prod classes).map (codesOf classes)
  | [], _ => rfl
  | c :: cs, hn => by
    have ih := product_codes (classes := cs) (fun d hd => hn d (List.mem_cons_of_mem _ hd))
    simp only [List.map_cons, Permuted.product, prod, ih]
    rw [← map_findIdx_range (hn c (by simp)), List.flatMap_map, List.map_flatMap]
    congr 1
    funext v
    simp only [List.map_map]
    rfl

theorem encodeAll_codes : ∀ {classes : List (List V)} {vs : List V} (_ : vs ∈ prod classes), encodeAll classes vs = .ok (codesOf classes vs)
  | [], vs, h => by
    simp only [prod, List.mem_singleton] at h
    subst h
    rfl
  | c :: cs, vs, h => by
    rw [mem_prod] at h
    cases h with
    | cons h1 h2 =>
      have := encodeAll_codes (mem_prod.2 h2)
      simp only [encodeAll, code_findIdx h1, this]
      rfl

theorem codesOf_inj {classes : List (List V)} (hn : ∀ c ∈ classes, c.Nodup) {a b : List V} (ha : a ∈ prod classes) (hb : b ∈ prod classes)
    (h : codesOf classes a = codesOf classes b) : a = b := by
  have h1 := (encodeAll_ok hn).1 (encodeAll_codes ha)
  have h2 := (encodeAll_ok hn).1 (encodeAll_codes hb)
  rw [h, h2] at h1
  simpa using h1.symm

theorem decode_codes {classes : List (List V)} (hn : ∀ c ∈ classes, c.Nodup) {vs : List V} {is : List Nat} (h : decodeAll classes is = some vs) :
    is = codesOf classes vs := by
  have h1 := (encodeAll_ok hn).2 h
  rw [encodeAll_codes (mem_prod.2 (decodeAll_mem h))] at h1
  simpa using h1.symm

variable [Ring K] [DecidableEq K]

/-- **C122**, the columns: for one or two discrete treatments, the effect table has one column per combination of classes, labelled by
that combination; the column of the control is zero, and the column of any other combination holds the effects the fitted estimator
reports for exactly that combination against the control (`ti`, `ci` are the codes of the two combinations). -/
theorem C122_columns {fit : L → List Nat → List Nat → L} {proto : L} {classes : List (List V)} {est : L → List K}
    {nji : L → List K × List K} {n : Nat} (htc : TwoColumns n est nji) (hn : ∀ c ∈ classes, c.Nodup) (hlen : classes.length ≤ 2)
    (str : V → List Char) {cs : List V} (hcs : cs ∈ prod classes) :
    let treats := classes.map (fun c => List.range c.length)
    let learners := Permuted.fitSeq fit proto (Permuted.product treats)
    ∃ col : List V → List K,
      effectArray nji n classes str learners none (some cs) = .ok ((prod classes).map (fun vs => (joinLabel (vs.map str), col vs))) ∧
      col cs = List.replicate n 0 ∧
      ∀ vs ∈ prod classes, vs ≠ cs → ∀ ti ci, decodeAll classes ti = some vs → decodeAll classes ci = some cs →
        Permuted.estimate est treats learners (some (.many ti)) (some (.many ci)) = .ok (col vs) := by
  intro treats learners
  have hnt : ∀ l ∈ treats, l.Nodup := by
    intro l hl
    obtain ⟨c, _, rfl⟩ := List.mem_map.1 hl
    exact List.nodup_range
  have hp : Permuted.product treats = (prod classes).map (codesOf classes) := product_codes hn
  have hcm : codesOf classes cs ∈ Permuted.product treats := by rw [hp]; exact List.mem_map_of_mem hcs
  have harg : ∃ arg, controlArg classes (some cs) = .ok arg ∧ ArgFor (codesOf classes cs) arg := by
    simp only [controlArg, encodeAll_codes hcs]
    match classes, codesOf classes cs with
    | [_], [i] => exact ⟨_, rfl, .inr ⟨i, rfl, rfl⟩⟩
    | [_], [] => exact ⟨_, rfl, .inl rfl⟩
    | [_], _ :: _ :: _ => exact ⟨_, rfl, .inl rfl⟩
    | [], _ => exact ⟨_, rfl, .inl rfl⟩
    | _ :: _ :: _, _ => exact ⟨_, rfl, .inl rfl⟩
  obtain ⟨arg, ha, hfor⟩ := harg
  obtain ⟨cols, h1, h2, h3⟩ := C37_columns (fit := fit) (proto := proto) htc hnt hcm hfor
  refine ⟨fun vs => cols (codesOf classes vs), ?_, h2, ?_⟩
  · have h1' : Permuted.effectNji nji (some n) 1 (classes.map (fun c => List.range c.length)) learners arg =
        .ok ((prod classes).map (fun vs => cols (codesOf classes vs))) := by
      have := h1
      rw [hp, List.map_map, Function.comp_def] at this
      rw [← this, ← hp]
    simp only [effectArray, show ¬ 2 < classes.length from by omega, if_false, ha, h1', List.length_map, if_true]
    simp [List.zip_map']
  · intro vs hvs hne ti ci hti hci
    rw [decode_codes hn hti, decode_codes hn hci]
    have := h3 (codesOf classes vs) (by rw [hp]; exact List.mem_map_of_mem hvs) (fun he => hne (codesOf_inj hn hvs hcs he))
    rw [← this]
    simp only [Permuted.estimate, resolve_argFor hcm hfor, resolve_argFor hcm (.inl rfl)]
    rfl

/-- the hypotheses of `C122_columns` are met by a toy learner over two treatments -/
example : prod [["a", "b"], ["x", "y"]] = [["a", "x"], ["a", "y"], ["b", "x"], ["b", "y"]] ∧
    effectArray (K := Int) (fun (l : List Nat × List Nat) => ([0], [(l.1.sum : Int) * 2 - l.2.sum])) 1 [["a", "b"], ["x", "y"]] String.toList
      (Permuted.fitSeq (fun _ t c => (t, c)) ([], []) (Permuted.product [[0, 1], [0, 1]])) none (some ["a", "y"]) =
    .ok [("a_x".toList, [-2]), ("a_y".toList, [0]), ("b_x".toList, [1]), ("b_y".toList, [3])] := by decide +kernel

/-- **C122**, the default control is the first class of every treatment. -/
theorem C122_default_control {classes : List (List V)} (nji : L → List K × List K) (n : Nat) (hne : classes ≠ [])
    (str : V → List Char) (learners : Permuted.Dict (List Nat × List Nat) L) (cost : Option (List K → Except Err (List K)))
    {first : List V} (hf : List.Forall₂ (fun c v => c.head? = some v) classes first) :
    effectArray nji n classes str learners cost none = effectArray nji n classes str learners cost (some first) := by
  have henc : ∀ {cl : List (List V)} {f : List V}, List.Forall₂ (fun c v => c.head? = some v) cl f →
      encodeAll cl f = .ok (List.replicate cl.length 0) ∧
      (cl.map (fun c => List.range c.length)).mapM (fun l => l.head?) = some (List.replicate cl.length 0) := by
    intro cl f h
    induction h with
    | nil => exact ⟨rfl, rfl⟩
    | @cons c v cs vs h1 h2 ih =>
      cases c with
      | nil => simp at h1
      | cons a c =>
        simp only [List.head?_cons, Option.some.injEq] at h1
        subst h1
        refine ⟨?_, ?_⟩
        · have : Why.code (a :: c) a = .ok 0 := by simp [Why.code, List.findIdx?_cons]
          simp only [encodeAll, this, ih.1, List.length_cons, List.replicate_succ]
        · rw [List.map_cons, List.mapM_cons, ih.2]
          simp [List.replicate_succ, List.head?_range]
  obtain ⟨e1, e2⟩ := henc hf
  have hr : ∀ arg, controlArg classes (some first) = .ok arg →
      Permuted.effectNji nji (some n) 1 (classes.map (fun c => List.range c.length)) learners none =
      Permuted.effectNji nji (some n) 1 (classes.map (fun c => List.range c.length)) learners arg := by
    intro arg harg
    have h0 : Permuted.resolve (classes.map (fun c => List.range c.length)) false none = .ok (List.replicate classes.length 0) := by
      simp only [Permuted.resolve, Bool.false_eq_true, if_false, e2]
    have h1 : Permuted.resolve (classes.map (fun c => List.range c.length)) false arg = .ok (List.replicate classes.length 0) := by
      simp only [controlArg, e1] at harg
      rcases classes with _ | ⟨c, _ | ⟨d, cl⟩⟩
      · exact absurd rfl hne
      · simp only [List.length_cons, List.length_nil, List.replicate_succ, List.replicate_zero, Except.ok.injEq] at harg
        subst harg
        rfl
      · simp only [Except.ok.injEq] at harg
        subst harg
        simp [Permuted.resolve]
    simp only [Permuted.effectNji, h0, h1]
  have harg : ∃ arg, controlArg classes (some first) = .ok arg := by
    simp only [controlArg, e1]
    split <;> exact ⟨_, rfl⟩
  obtain ⟨arg, harg⟩ := harg
  have h0 : controlArg classes none = .ok none := rfl
  simp only [effectArray, harg, h0, hr arg harg]

/-- **C122**, more than two treatments are refused -/
theorem C122_too_many {classes : List (List V)} (nji : L → List K × List K) (n : Nat) (h : 2 < classes.length)
    (str : V → List Char) (learners : Permuted.Dict (List Nat × List Nat) L) (cost : Option (List K → Except Err (List K)))
    (control : Option (List V)) : effectArray nji n classes str learners cost control = .error .value := by
  simp [effectArray, h]

theorem sep_inj : ∀ {s t x y : List Char} (_ : '_' ∉ s) (_ : '_' ∉ t) (_ : s ++ '_' :: x = t ++ '_' :: y), s = t ∧ x = y
  | [], [], x, y, _, _, h => by simpa using h
  | [], b :: t, x, y, _, ht, h => by
    simp only [List.nil_append, List.cons_append, List.cons.injEq] at h
    exact absurd (h.1 ▸ List.mem_cons_self) ht
  | a :: s, [], x, y, hs, _, h => by
    simp only [List.nil_append, List.cons_append, List.cons.injEq] at h
    exact absurd (h.1 ▸ List.mem_cons_self) hs
  | a :: s, b :: t, x, y, hs, ht, h => by
    simp only [List.cons_append, List.cons.injEq] at h
    have := sep_inj (fun hh => hs (List.mem_cons_of_mem _ hh)) (fun hh => ht (List.mem_cons_of_mem _ hh)) h.2
    exact ⟨by rw [h.1, this.1], this.2⟩

theorem joinLabel_inj : ∀ {a b : List (List Char)} (_ : a.length = b.length) (_ : ∀ s ∈ a, '_' ∉ s) (_ : ∀ s ∈ b, '_' ∉ s)
    (_ : joinLabel a = joinLabel b), a = b
  | [], [], _, _, _, _ => rfl
  | [], _ :: _, h, _, _, _ => by simp at h
  | _ :: _, [], h, _, _, _ => by simp at h
  | [s], [t], _, _, _, h => by simpa [joinLabel] using h
  | [s], t :: u :: l, h, _, _, _ => by simp at h
  | s :: u :: l, [t], h, _, _, _ => by simp at h
  | s :: u :: l, t :: w :: m, hl, ha, hb, h => by
    simp only [joinLabel] at h
    obtain ⟨h1, h2⟩ := sep_inj (ha s (by simp)) (hb t (by simp)) h
    have := joinLabel_inj (a := u :: l) (b := w :: m) (by simpa using hl) (fun x hx => ha x (List.mem_cons_of_mem _ hx))
      (fun x hx => hb x (List.mem_cons_of_mem _ hx)) h2
    rw [h1, this]

/-- **C122**, the labels name the combinations: if the classes are printed differently and without underscores, different combinations
have different labels. -/
theorem C122_labels {classes : List (List V)} {str : V → List Char} (hinj : Function.Injective str) (hu : ∀ c ∈ classes, ∀ v ∈ c, '_' ∉ str v)
    {a b : List V} (ha : a ∈ prod classes) (hb : b ∈ prod classes) (h : joinLabel (a.map str) = joinLabel (b.map str)) : a = b := by
  have hm : ∀ {w : List V}, w ∈ prod classes → ∀ s ∈ w.map str, '_' ∉ s := by
    intro w hw s hs
    obtain ⟨v, hv, rfl⟩ := List.mem_map.1 hs
    rw [mem_prod] at hw
    obtain ⟨i, hi, rfl⟩ := List.mem_iff_getElem.1 hv
    have h2 := hw.length_eq
    have := (List.forall₂_iff_get.1 hw).2 i hi (by omega)
    exact hu _ (List.getElem_mem (by omega)) _ this
  have hl : a.length = b.length := (mem_prod.1 ha).length_eq.trans (mem_prod.1 hb).length_eq.symm
  have := joinLabel_inj (by simpa using hl) (hm ha) (hm hb) h
  exact List.map_injective_iff.2 hinj this

/-- **C122, refuted** in general: with underscores two combinations can share a label, so the interpreter cannot tell them apart. -/
theorem C122_labels_refuted : ["a".toList, "b_c".toList] ∈ prod [["a".toList, "a_b".toList], ["c".toList, "b_c".toList]] ∧
    ["a_b".toList, "c".toList] ∈ prod [["a".toList, "a_b".toList], ["c".toList, "b_c".toList]] ∧
    joinLabel ["a".toList, "b_c".toList] = joinLabel ["a_b".toList, "c".toList] := by decide

end

/-! ### C123 -/

section
variable {V R K : Type} [DecidableEq V]

theorem transformTC_codes : ∀ {encs : List (List V)} {t c : List V} (_ : t ∈ prod encs) (_ : c ∈ prod encs),
    transformTC encs t c = .ok (codesOf encs t, codesOf encs c)
  | [], t, c, ht, hc => by
    simp only [prod, List.mem_singleton] at ht hc
    subst ht hc
    rfl
  | e :: es, t, c, ht, hc => by
    rw [mem_prod] at ht hc
    cases ht with
    | cons h1 h2 => cases hc with
      | cons h3 h4 =>
        have := transformTC_codes (mem_prod.2 h2) (mem_prod.2 h4)
        simp only [transformTC, code_findIdx h1, code_findIdx h3, this]
        rfl

/-- **C123**, the frame of `uplift_model`: exactly the rows of the two arms, in order; a row is marked treated iff its treatments have the
treated values; its score is the effect the estimator reports for the two arms (given by their codes), its outcome is the row's. -/
theorem C123_frame [Zero K] (est : R → List Nat → List Nat → K) (y : R → K) {encs : List (List V)} (hn : ∀ c ∈ encs, c.Nodup)
    {t c : List V} (ht : t ∈ prod encs) (hc : c ∈ prod encs) {rows : List (List V × R)} (hr : ∀ r ∈ rows, r.1 ∈ prod encs) :
    ∃ ti ci, decodeAll encs ti = some t ∧ decodeAll encs ci = some c ∧
      upliftFrame est y encs (some t) (some c) rows =
        .ok ((rows.filter (fun r => decide (r.1 = t ∨ r.1 = c))).map (fun r => ⟨est r.2 ti ci, y r.2, if r.1 = t then 1 else 0, 0⟩)) := by
  refine ⟨codesOf encs t, codesOf encs c, (encodeAll_ok hn).1 (encodeAll_codes ht), (encodeAll_ok hn).1 (encodeAll_codes hc), ?_⟩
  have hx : Meta.mapE (fun r : List V × R => encodeRow encs r.1) rows = .ok (rows.map (fun r => codesOf encs r.1)) :=
    mapE_eq (fun r h => encodeAll_codes (hr r h))
  have hz : (rows.map (fun r => codesOf encs r.1)).zip rows = rows.map (fun r => (codesOf encs r.1, r)) := by
    have := List.zip_map' (f := fun r : List V × R => codesOf encs r.1) (g := id) (l := rows)
    simpa using this
  simp only [upliftFrame, upliftArm, hx, transformTC_codes ht hc, hz, List.filter_map, List.map_map, Function.comp_def]
  congr 1
  have hiff : ∀ r ∈ rows, ∀ {w : List V}, w ∈ prod encs → (codesOf encs r.1 = codesOf encs w ↔ r.1 = w) :=
    fun r h w hw => ⟨codesOf_inj hn (hr r h) hw, fun e => by rw [e]⟩
  rw [show rows.filter (fun r => decide (codesOf encs r.1 = codesOf encs t) || decide (codesOf encs r.1 = codesOf encs c)) =
      rows.filter (fun r => decide (r.1 = t ∨ r.1 = c)) from List.filter_congr (fun r h => by
        simp only [hiff r h ht, hiff r h hc, Bool.decide_or])]
  exact List.map_congr_left (fun r h => by simp only [hiff r (List.mem_filter.1 h).1 ht])

/-- **C123**, default arms: the last class of every treatment against the first one -/
theorem C123_defaults [Zero K] (est : R → List Nat → List Nat → K) (y : R → K) {encs : List (List V)} {last first : List V}
    (hl : List.Forall₂ (fun c v => c.getLast? = some v) encs last) (hf : List.Forall₂ (fun c v => c.head? = some v) encs first)
    (rows : List (List V × R)) : upliftFrame est y encs none none rows = upliftFrame est y encs (some last) (some first) rows := by
  have key : ∀ {b : Bool} {w : List V}, List.Forall₂ (fun c v => (if b then c.getLast? else c.head?) = some v) encs w →
      upliftArm encs b none = .ok w := by
    intro b w h
    have : List.Forall₂ (fun (c : List V) v => (match (if b then c.getLast? else c.head?) with
        | some v => Except.ok v
        | none => Except.error Err.index) = Except.ok v) encs w := h.imp (fun c v h => by rw [h])
    exact mapE_ok.2 this
  have h1 : upliftArm encs true none = .ok last := key (by simpa using hl)
  have h2 : upliftArm encs false none = .ok first := key (by simpa using hf)
  have h3 : upliftArm encs true (some last) = .ok last := rfl
  have h4 : upliftArm encs false (some first) = .ok first := rfl
  simp only [upliftFrame, h1, h2, h3, h4]

example : upliftFrame (K := Int) (fun (r : Int × Int) t c => r.1 * (t.sum - c.sum)) (fun r => r.2) [["a", "b", "c"]] (some ["c"]) (some ["a"])
    [(["a"], (1, 10)), (["b"], (2, 20)), (["c"], (3, 30))] = .ok [⟨2, 10, 0, 0⟩, ⟨6, 30, 1, 0⟩] := by decide +kernel

end

/-- **C123**, `score(scorer='auuc')`: the mean of the gain curve of the rows of the two arms, ranked by the reported effects, divided by the
absolute gain of treating all of them. -/
theorem C123_score {V R K : Type} [DecidableEq V] [Field K] [LinearOrder K] [IsStrictOrderedRing K] (est : R → List Nat → List Nat → K)
    (y : R → K) {encs : List (List V)} (hn : ∀ c ∈ encs, c.Nodup) {t c : List V} (ht : t ∈ prod encs) (hc : c ∈ prod encs)
    {rows : List (List V × R)} (hr : ∀ r ∈ rows, r.1 ∈ prod encs)
    {sort : List (Uplift.Row K Nat K) → List (Uplift.Row K Nat K)} (hs : ∀ l, Ranked l (sort l)) {s : K}
    (h : scoreAuuc sort est y encs (some t) (some c) rows = .ok s) :
    ∃ ti ci, decodeAll encs ti = some t ∧ decodeAll encs ci = some c ∧ ∃ frame raw top,
      frame = (rows.filter (fun r => decide (r.1 = t ∨ r.1 = c))).map (fun r => (⟨est r.2 ti ci, y r.2, if r.1 = t then 1 else 0, 0⟩ :
        Uplift.Row K Nat K)) ∧
      (stat .gain false 1 0 (frame.map person) ≠ 0 → Uplift.getCurve sort .gain false 1 0 false frame = .ok (raw, top) ∧
        s = Uplift.auuc raw / |stat .gain false 1 0 (frame.map person)|) := by
  obtain ⟨ti, ci, h1, h2, h3⟩ := C123_frame est y hn ht hc hr
  refine ⟨ti, ci, h1, h2, ?_⟩
  simp only [scoreAuuc, h3] at h
  split at h
  · cases h
  · rename_i curve hcv
    simp only [Except.ok.injEq] at h
    obtain ⟨cv, top⟩ := curve
    by_cases hz : stat .gain false 1 0 (((rows.filter (fun r => decide (r.1 = t ∨ r.1 = c))).map (fun r =>
        (⟨est r.2 ti ci, y r.2, if r.1 = t then 1 else 0, 0⟩ : Uplift.Row K Nat K))).map person) = 0
    · exact ⟨_, [], top, rfl, fun hh => absurd hz hh⟩
    · obtain ⟨raw, h4, h5⟩ := C78_auuc_normalized (by decide) (hs _) hz hcv
      exact ⟨_, raw, top, rfl, fun _ => ⟨h4, by rw [← h, h5]⟩⟩

/-- **C123, refuted** for a discrete outcome: the outcome column of the frame is the code of the class, whatever class is asked for. With the
classes a, b, c, all treated rows in class b and all control rows in class c, the treatment raises the probability of b from 0 to 1, yet
the last point of the lift curve of every model is -1 (1 minus 2). -/
theorem C123_target_refuted :
    upliftFrame (V := Bool) (fun (_ : String) _ _ => (1 : Rat)) (fun s => (["a", "b", "c"].findIdx (· == s) : Rat)) [[false, true]] none none
      [([true], "b"), ([false], "c"), ([true], "b"), ([false], "c")] =
      .ok [⟨1, 1, 1, 0⟩, ⟨1, 2, 0, 0⟩, ⟨1, 1, 1, 0⟩, ⟨1, 2, 0, 0⟩] ∧
    Uplift.column .lift false 1 0 [(⟨1, 1, 1, 0⟩ : Uplift.Row Rat Nat Rat), ⟨1, 2, 0, 0⟩, ⟨1, 1, 1, 0⟩, ⟨1, 2, 0, 0⟩] =
      .ok [none, some (-1), some (-1), some (-1)] := by
  constructor <;> decide +kernel

/-! ### C124 -/

section
variable {C : Type}

/-- **C124**: the automatic choice gives an estimator whose factory accepts the data exactly if there are instruments, or the treatment
is discrete, or the outcome is continuous and covariates are given. -/
theorem C124_auto (covariate instrument : Option (List C)) (discT discO : Bool) :
    factoryAccepts (autoEstimator instrument discT discO) covariate instrument discT = .ok () ↔
      (∃ l, instrument = some l ∧ l ≠ []) ∨ discT = true ∨ (discO = false ∧ ∃ l, covariate = some l) := by
  unfold autoEstimator
  rcases instrument with _ | _ | ⟨a, l⟩ <;> cases discT <;> cases discO <;> rcases covariate with _ | v <;>
    simp [Why.isEmpty, factoryAccepts]

/-- **C124, refuted**: with a continuous treatment, a discrete outcome and no instruments `Why` chooses a learner for discrete treatments
only: every `fit` raises `AssertionError`. -/
theorem C124_auto_refuted (covariate : Option (List C)) :
    autoEstimator (none : Option (List C)) false true = .tlearner ∧
    factoryAccepts (autoEstimator (none : Option (List C)) false true) covariate none false = .error .assertion := ⟨rfl, rfl⟩

/-- **C124**: the meta learner factories refuse exactly the continuous treatments, given as flag or as name. -/
theorem C124_meta (x : TaskArg) : metaAccepts x = .error .assertion ↔ x = .flag false ∨ x = .name "regression" := by
  cases x with
  | flag b => cases b <;> simp [metaAccepts, TaskArg.discrete]
  | name s => by_cases h : s = "regression" <;> simp [metaAccepts, TaskArg.discrete, h]

/-- **C124, refuted** for the doubly robust factory: `Why` passes a flag, which is never equal to the name of the regression task, so a
continuous treatment is not refused. -/
theorem C124_dr_refuted : (∀ b, drAccepts (.flag b) = .ok ()) ∧ drAccepts (.name "regression") = .error .assertion :=
  ⟨fun _ => rfl, rfl⟩

/-- **C124**: the number of folds: the given one, otherwise 1, 3 or 5, never fewer for more data. -/
theorem C124_folds (size size' : Nat) (h : size ≤ size') : (∀ k, cfFold (some k) size = k) ∧ cfFold none size ≤ cfFold none size' ∧
    (cfFold none size = 1 ↔ size < 3000) ∧ (cfFold none size = 5 ↔ 10000 ≤ size) := by
  refine ⟨fun _ => rfl, ?_, ?_, ?_⟩ <;> simp only [cfFold] <;> split_ifs <;> omega

end

end YL.Props
