import Verif.Model.Permuted
import Mathlib.Algebra.Ring.Int.Defs
import Mathlib.Data.List.Nodup
import Mathlib.Tactic.Ring

/-!
# C35-C37: `PermutedLearner`
-/

set_option linter.unusedSectionVars false

namespace YL.Props

open YL Permuted

section dict
variable {κ L : Type} [DecidableEq κ]

theorem mem_pairs {P : List κ} {a b : κ} : (a, b) ∈ pairs P ↔ ∃ i j : Nat, j < i ∧ P[i]? = some a ∧ P[j]? = some b := by
  unfold pairs
  simp only [List.mem_flatMap, List.mem_range'_1, List.mem_filterMap, List.mem_range]
  constructor
  · rintro ⟨i, _, j, hj, h⟩
    cases hi : P[i]? with
    | none => simp [hi] at h
    | some a' =>
      cases hj' : P[j]? with
      | none => simp [hi, hj'] at h
      | some b' =>
        simp [hi, hj'] at h
        exact ⟨i, j, hj, by rw [hi, h.1], by rw [hj', h.2]⟩
  · rintro ⟨i, j, hj, hi, hj'⟩
    have := (List.getElem?_eq_some_iff.1 hi).1
    exact ⟨i, ⟨by omega, by omega⟩, j, hj, by simp [hi, hj']⟩

theorem foldl_append {α β : Type} (f : α → β) (l : List α) (acc : List β) :
    l.foldl (fun d p => d ++ [f p]) acc = acc ++ l.map f := by
  induction l generalizing acc with
  | nil => simp
  | cons a l ih => simp [ih]

theorem fitSeq_eq (fit : L → κ → κ → L) (proto : L) (P : List κ) :
    fitSeq fit proto P = (pairs P).map (fun p => (p, fit proto p.1 p.2)) := by
  unfold fitSeq
  rw [foldl_append (fun p : κ × κ => (p, copyAndFit fit proto p.1 p.2))]
  simp [copyAndFit]

theorem dget_map {f : κ → L} {l : List κ} {k : κ} :
    dget (l.map (fun p => (p, f p))) k = if k ∈ l then some (f k) else none := by
  unfold dget
  split
  · rename_i h
    cases hf : (l.map (fun p => (p, f p))).reverse.find? (fun e => decide (e.1 = k)) with
    | none =>
      rw [List.find?_eq_none] at hf
      exact absurd (by simp) (hf (k, f k) (by simpa using h))
    | some e =>
      have h1 := List.find?_some hf
      have h2 := List.mem_of_find?_eq_some hf
      simp only [List.mem_reverse, List.mem_map] at h2
      obtain ⟨p, _, rfl⟩ := h2
      simp only [decide_eq_true_eq] at h1
      simp [h1]
  · rename_i h
    have : (l.map (fun p => (p, f p))).reverse.find? (fun e => decide (e.1 = k)) = none := by
      rw [List.find?_eq_none]
      intro e he
      simp only [List.mem_reverse, List.mem_map] at he
      obtain ⟨p, hp, rfl⟩ := he
      simp only [decide_eq_true_eq]
      rintro rfl
      exact h hp
    rw [this]; rfl

theorem dget_fit {fit : L → κ → κ → L} {proto : L} {P : List κ} {a b : κ} :
    dget (fitSeq fit proto P) (a, b) = if (a, b) ∈ pairs P then some (fit proto a b) else none := by
  rw [fitSeq_eq, dget_map (f := fun p : κ × κ => fit proto p.1 p.2)]
  by_cases h : (a, b) ∈ pairs P <;> simp [h]

/-- **C36**: the dict of learners after a parallel fit equals that after a sequential fit, in whatever order the jobs
finish. -/
theorem C36_parallel (fit : L → κ → κ → L) (proto : L) (P : List κ) (order : List Nat)
    (h : order.Perm (List.range (pairs P).length)) : fitPar fit proto P order = fitSeq fit proto P := by
  have key : ∀ (jobs : List (Unit → L)) (order : List Nat) (slots : List (Option L)), slots.length = jobs.length →
      (order.foldl (finish jobs) slots).length = jobs.length ∧
      ∀ i < jobs.length, (order.foldl (finish jobs) slots)[i]? = if i ∈ order then (jobs[i]?).map (fun j => some (j ())) else slots[i]? := by
    intro jobs order
    induction order with
    | nil => intro slots hs; exact ⟨hs, fun i _ => by simp⟩
    | cons o order ih =>
      intro slots hs
      rw [List.foldl_cons]
      have hs' : (finish jobs slots o).length = jobs.length := by
        unfold finish
        cases jobs[o]? <;> simp [hs]
      obtain ⟨h1, h2⟩ := ih _ hs'
      refine ⟨h1, fun i hi => ?_⟩
      rw [h2 i hi]
      by_cases hio : i ∈ order
      · simp [hio]
      · rw [if_neg hio]
        unfold finish
        by_cases he : i = o
        · subst he
          rw [if_pos (by simp), List.getElem?_eq_getElem hi]
          simp [hs, hi]
        · rw [if_neg (by simp [hio, he])]
          cases jobs[o]? with
          | none => rfl
          | some job => simp [List.getElem?_set, Ne.symm he]
  have hrun : runJobs ((pairs P).map (fun p => fun _ : Unit => copyAndFit fit proto p.1 p.2)) order =
      (pairs P).map (fun p => some (fit proto p.1 p.2)) := by
    obtain ⟨h1, h2⟩ := key ((pairs P).map (fun p => fun _ : Unit => copyAndFit fit proto p.1 p.2)) order
      (((pairs P).map (fun p => fun _ : Unit => copyAndFit fit proto p.1 p.2)).map (fun _ => none)) (by simp)
    apply List.ext_getElem?
    intro i
    by_cases hi : i < (pairs P).length
    · unfold runJobs
      rw [h2 i (by simpa using hi), if_pos (by rw [h.mem_iff]; simpa using hi)]
      simp [copyAndFit, Function.comp_def]
    · unfold runJobs
      rw [List.getElem?_eq_none (by rw [h1]; simpa using hi), List.getElem?_eq_none (by simpa using hi)]
  unfold fitPar
  simp only
  rw [hrun, fitSeq_eq]
  have e1 : ((pairs P).map (fun p => some (fit proto p.1 p.2))).filterMap id = (pairs P).map (fun p => fit proto p.1 p.2) := by
    rw [List.filterMap_map]
    simp [Function.comp_def, List.filterMap_eq_map']
  rw [e1]
  have e2 : (pairs P).zip ((pairs P).map (fun p => fit proto p.1 p.2)) = (pairs P).map (fun p => (p, fit proto p.1 p.2)) := by
    generalize pairs P = l
    induction l with
    | nil => rfl
    | cons a l ih => simp [ih]
  have e3 : ∀ (l acc : List ((κ × κ) × L)), l.foldl (fun d e => d ++ [e]) acc = acc ++ l := by
    intro l
    induction l with
    | nil => simp
    | cons a l ih => intro acc; simp [ih]
  rw [e2, e3, List.nil_append]

end dict

section learner
variable {V L K : Type} [DecidableEq V] [Ring K] [DecidableEq K]

theorem mem_product {ls : List (List V)} {a : List V} : a ∈ product ls ↔ List.Forall₂ (fun x l => x ∈ l) a ls := by
  induction ls generalizing a with
  | nil => simp [product]
  | cons l ls ih =>
    simp only [product, List.mem_flatMap, List.mem_map]
    constructor
    · rintro ⟨v, hv, r, hr, rfl⟩
      exact List.Forall₂.cons hv (ih.1 hr)
    · intro h
      cases h with
      | cons hv hr => exact ⟨_, hv, _, ih.2 hr, rfl⟩

theorem product_nodup {ls : List (List V)} (h : ∀ l ∈ ls, l.Nodup) : (product ls).Nodup := by
  induction ls with
  | nil => simp [product]
  | cons l ls ih =>
    have ih' := ih (fun l hl => h l (List.mem_cons_of_mem _ hl))
    rw [product, List.nodup_flatMap]
    refine ⟨fun v _ => ih'.map (fun a b hab => (List.cons.inj hab).2), ?_⟩
    have : l.Pairwise (· ≠ ·) := h l (by simp)
    refine this.imp ?_
    intro u v huv a ha hb
    simp only [List.mem_map] at ha hb
    obtain ⟨r, _, rfl⟩ := ha
    obtain ⟨s, _, hs⟩ := hb
    exact huv (List.cons.inj hs).1.symm

theorem getLearner_of_lt {fit : L → List V → List V → L} {proto : L} {P : List (List V)} (hP : P.Nodup) {a b : List V}
    {i j : Nat} (hji : j < i) (ha : P[i]? = some a) (hb : P[j]? = some b) :
    getLearner (fitSeq fit proto P) a b = some (fit proto a b, true) ∧
    getLearner (fitSeq fit proto P) b a = some (fit proto a b, false) := by
  have h1 : (a, b) ∈ pairs P := mem_pairs.2 ⟨i, j, hji, ha, hb⟩
  have h2 : (b, a) ∉ pairs P := by
    intro h
    obtain ⟨i', j', hji', ha', hb'⟩ := mem_pairs.1 h
    have e1 : i' = j := by
      obtain ⟨x1, y1⟩ := List.getElem?_eq_some_iff.1 ha'
      obtain ⟨x2, y2⟩ := List.getElem?_eq_some_iff.1 hb
      exact (hP.getElem_inj_iff).1 (y1.trans y2.symm)
    have e2 : j' = i := by
      obtain ⟨x1, y1⟩ := List.getElem?_eq_some_iff.1 hb'
      obtain ⟨x2, y2⟩ := List.getElem?_eq_some_iff.1 ha
      exact (hP.getElem_inj_iff).1 (y1.trans y2.symm)
    omega
  unfold getLearner
  rw [dget_fit, dget_fit, if_pos h1, if_neg h2]
  exact ⟨rfl, rfl⟩

/-- the values a user may pass for one or for several treatment variables -/
def ArgFor (a : List V) (arg : Option (Arg V)) : Prop :=
  arg = some (.many a) ∨ ∃ v, a = [v] ∧ arg = some (.one v)

theorem resolve_argFor {treats : List (List V)} {last : Bool} {a : List V} {arg : Option (Arg V)} (ha : a ∈ product treats)
    (h : ArgFor a arg) : resolve treats last arg = .ok a := by
  have hl : a.length = treats.length := (mem_product.1 ha).length_eq
  rcases h with rfl | ⟨v, rfl, rfl⟩
  · unfold resolve
    simp only
    split
    · rename_i h1
      match a, hl with
      | [], hl => simp at hl; omega
      | [v], _ => rfl
      | _ :: _ :: _, hl => simp at hl; omega
    · rfl
  · rfl

/-- **C35**: after `fit` (sequential or parallel) every ordered pair of distinct treatment values has an estimate; it is
that of the learner fitted for this pair, or the negative of the one fitted for the reversed pair, and swapping treat
and control negates it. -/
theorem C35_antisymmetric {fit : L → List V → List V → L} {proto : L} {treats : List (List V)} (est : L → List K)
    (hn : ∀ l ∈ treats, l.Nodup) {a b : List V} (ha : a ∈ product treats) (hb : b ∈ product treats) (hab : a ≠ b)
    {ta tb : Option (Arg V)} (hta : ArgFor a ta) (htb : ArgFor b tb) :
    ∃ e : List K, estimate est treats (fitSeq fit proto (product treats)) ta tb = .ok e ∧
      estimate est treats (fitSeq fit proto (product treats)) tb ta = .ok (e.map (fun x => -x)) ∧
      (e = est (fit proto a b) ∨ e = (est (fit proto b a)).map (fun x => -x)) := by
  have hP := product_nodup hn
  obtain ⟨i, hi, hia⟩ := List.mem_iff_getElem.1 ha
  obtain ⟨j, hj, hjb⟩ := List.mem_iff_getElem.1 hb
  have ha' : (product treats)[i]? = some a := List.getElem?_eq_some_iff.2 ⟨hi, hia⟩
  have hb' : (product treats)[j]? = some b := List.getElem?_eq_some_iff.2 ⟨hj, hjb⟩
  have hij : i ≠ j := by
    rintro rfl
    exact hab (hia.symm.trans hjb)
  have e1 : ∀ last, resolve treats last ta = .ok a := fun _ => resolve_argFor ha hta
  have e2 : ∀ last, resolve treats last tb = .ok b := fun _ => resolve_argFor hb htb
  rcases Nat.lt_or_gt_of_ne hij with h | h
  · obtain ⟨g1, g2⟩ := getLearner_of_lt (fit := fit) (proto := proto) hP h hb' ha'
    refine ⟨(est (fit proto b a)).map (fun x => -x), ?_, ?_, Or.inr rfl⟩
    · simp [estimate, e1, e2, g2]
    · simp [estimate, e1, e2, g1]
  · obtain ⟨g1, g2⟩ := getLearner_of_lt (fit := fit) (proto := proto) hP h ha' hb'
    refine ⟨est (fit proto a b), ?_, ?_, Or.inl rfl⟩
    · simp [estimate, e1, e2, g1]
    · simp [estimate, e1, e2, g2]

/-- **C35**: without arguments the pair is (last value of every treatment, first value of every treatment). -/
theorem C35_defaults {fit : L → List V → List V → L} {proto : L} {treats : List (List V)} (est : L → List K)
    {hi lo : List V} (hhi : List.Forall₂ (fun l v => l.getLast? = some v) treats hi)
    (hlo : List.Forall₂ (fun l v => l.head? = some v) treats lo) :
    estimate est treats (fitSeq fit proto (product treats)) none none =
      estimate est treats (fitSeq fit proto (product treats)) (some (.many hi)) (some (.many lo)) := by
  have hm : ∀ (f : List V → Option V) (ts : List (List V)) (r : List V), List.Forall₂ (fun l v => f l = some v) ts r →
      ts.mapM f = some r := by
    intro f ts r h
    induction h with
    | nil => rfl
    | cons h _ ih => simp [List.mapM_cons, h, ih]
  have hone : ∀ (last : Bool) (r : List V), r.length = treats.length → resolve treats last (some (.many r)) = .ok r := by
    intro last r hr
    unfold resolve
    simp only
    split
    · match r, hr with
      | [], hr => simp at hr; omega
      | [v], _ => rfl
      | _ :: _ :: _, hr => simp at hr; omega
    · rfl
  have r1 : resolve treats true none = .ok hi := by
    unfold resolve
    simp only [if_true]
    rw [hm _ _ _ hhi]
  have r2 : resolve treats false none = .ok lo := by
    unfold resolve
    simp only [Bool.false_eq_true, if_false]
    rw [hm _ _ _ hlo]
  unfold estimate
  rw [r1, r2, hone true hi hhi.length_eq.symm, hone false lo hlo.length_eq.symm]

/-- **C35 (limits)**: equal arms and values outside the fitted ones are refused with `ValueError`. -/
theorem C35_refused {fit : L → List V → List V → L} {proto : L} {treats : List (List V)} (est : L → List K)
    (hn : ∀ l ∈ treats, l.Nodup) {a b : List V} (ht : treats.length ≠ 1)
    (h : a = b ∨ a ∉ product treats ∨ b ∉ product treats) :
    estimate est treats (fitSeq fit proto (product treats)) (some (.many a)) (some (.many b)) = .error .value := by
  have hP := product_nodup hn
  have h0 : ∀ x y : List V, (x, y) ∈ pairs (product treats) → x ≠ y ∧ x ∈ product treats ∧ y ∈ product treats := by
    intro x y hxy
    obtain ⟨i, j, hji, hi, hj⟩ := mem_pairs.1 hxy
    obtain ⟨x1, y1⟩ := List.getElem?_eq_some_iff.1 hi
    obtain ⟨x2, y2⟩ := List.getElem?_eq_some_iff.1 hj
    refine ⟨?_, y1 ▸ List.getElem_mem x1, y2 ▸ List.getElem_mem x2⟩
    rintro rfl
    have := (hP.getElem_inj_iff).1 (y1.trans y2.symm)
    omega
  have n1 : (a, b) ∉ pairs (product treats) := by
    intro hh; obtain ⟨q1, q2, q3⟩ := h0 _ _ hh
    rcases h with h | h | h
    · exact q1 h
    · exact h q2
    · exact h q3
  have n2 : (b, a) ∉ pairs (product treats) := by
    intro hh; obtain ⟨q1, q2, q3⟩ := h0 _ _ hh
    rcases h with h | h | h
    · exact q1 h.symm
    · exact h q3
    · exact h q2
  simp [estimate, resolve, ht, getLearner, dget_fit, n1, n2]

theorem concatAll_map {ι : Type} (ts : List ι) (f : ι → Except Err (List (List K))) (g : ι → List K)
    (h : ∀ t ∈ ts, f t = .ok [g t]) : concatAll (ts.map f) = .ok (ts.map g) := by
  induction ts with
  | nil => rfl
  | cons t ts ih =>
    simp only [List.map_cons, concatAll, h t (by simp), ih (fun t ht => h t (List.mem_cons_of_mem _ ht))]
    rfl

/-- A learner whose `effect_nji` holds a zero column for its control and its estimate for its treat value, in either
order (SLearner, TLearner, XLearner: meta_learner.py:290-306; DoublyRobust: doubly_robust.py:400-409). -/
def TwoColumns (n : Nat) (est : L → List K) (nji : L → List K × List K) : Prop :=
  ∀ l : L, (est l).length = n ∧ (nji l = (List.replicate n 0, est l) ∨ nji l = (est l, List.replicate n 0))

theorem pick_col {n : Nat} {est : L → List K} {nji : L → List K × List K} (h : TwoColumns n est nji) (l : L) :
    (if (nji l).2.all (· = 0) then (nji l).1 else (nji l).2) = est l := by
  obtain ⟨hl, h | h⟩ := h l
  · rw [h]
    simp only
    split
    · rename_i h0
      symm
      rw [List.eq_replicate_iff]
      exact ⟨hl, by simpa using h0⟩
    · rfl
  · rw [h]
    simp

/-- **C37**: for one outcome, `effect_nji` has one column per treatment value, in the order of the values; the column of
the control value is zero and every other column is `estimate(treat=value, control=control)`. -/
theorem C37_columns {fit : L → List V → List V → L} {proto : L} {treats : List (List V)} {est : L → List K}
    {nji : L → List K × List K} {n : Nat} (hc : TwoColumns n est nji)
    (hn : ∀ l ∈ treats, l.Nodup) {c : List V} (hcm : c ∈ product treats) {arg : Option (Arg V)} (harg : ArgFor c arg) :
    ∃ cols : List V → List K,
      effectNji nji (some n) 1 treats (fitSeq fit proto (product treats)) arg = .ok ((product treats).map cols) ∧
      cols c = List.replicate n 0 ∧
      ∀ t ∈ product treats, t ≠ c →
        estimate est treats (fitSeq fit proto (product treats)) (some (.many t)) arg = .ok (cols t) := by
  classical
  have hex : ∀ t : List V, ∃ col : List K, (t = c → col = List.replicate n 0) ∧ (t ∈ product treats → t ≠ c →
      estimate est treats (fitSeq fit proto (product treats)) (some (.many t)) arg = .ok col ∧
      effectOne nji n 1 (fitSeq fit proto (product treats)) t c = .ok [col]) := by
    intro t
    by_cases htc : t = c
    · exact ⟨_, fun _ => rfl, fun _ h => absurd htc h⟩
    · by_cases ht : t ∈ product treats
      · obtain ⟨i, hi, hia⟩ := List.mem_iff_getElem.1 ht
        obtain ⟨j, hj, hjb⟩ := List.mem_iff_getElem.1 hcm
        have ha' : (product treats)[i]? = some t := List.getElem?_eq_some_iff.2 ⟨hi, hia⟩
        have hb' : (product treats)[j]? = some c := List.getElem?_eq_some_iff.2 ⟨hj, hjb⟩
        have hij : i ≠ j := by
          rintro rfl
          exact htc (hia.symm.trans hjb)
        have e1 : resolve treats true (some (.many t)) = .ok t := resolve_argFor ht (Or.inl rfl)
        have e2 : resolve treats false arg = .ok c := resolve_argFor hcm harg
        rcases Nat.lt_or_gt_of_ne hij with h | h
        · obtain ⟨g1, g2⟩ := getLearner_of_lt (fit := fit) (proto := proto) (product_nodup hn) h hb' ha'
          refine ⟨(est (fit proto c t)).map (· * (-1)), fun h => absurd h htc, fun _ _ => ⟨?_, ?_⟩⟩
          · simp [estimate, e1, e2, g2]
          · simp only [effectOne, if_neg htc, g2]
            rw [pick_col hc]
            rfl
        · obtain ⟨g1, g2⟩ := getLearner_of_lt (fit := fit) (proto := proto) (product_nodup hn) h ha' hb'
          refine ⟨est (fit proto t c), fun h => absurd h htc, fun _ _ => ⟨?_, ?_⟩⟩
          · simp [estimate, e1, e2, g1]
          · simp only [effectOne, if_neg htc, g1]
            rw [pick_col hc]
            rfl
      · exact ⟨[], fun h => absurd h htc, fun h => absurd h ht⟩
  choose cols h1 h2 using hex
  refine ⟨cols, ?_, h1 c rfl, fun t ht htc => (h2 t ht htc).1⟩
  unfold effectNji
  rw [resolve_argFor hcm harg]
  simp only
  apply concatAll_map
  intro t ht
  by_cases htc : t = c
  · subst htc
    simp [effectOne, h1 t rfl]
  · exact (h2 t ht htc).2

/-- a toy learner: it remembers the pair it was fitted for -/
def toyFit : (List Nat × List Nat) → List Nat → List Nat → (List Nat × List Nat) := fun _ t c => (t, c)
def toyEst : (List Nat × List Nat) → List Int := fun p => [(p.1.headD 0 : Int) - 10 * (p.2.headD 0 : Int)]

example : TwoColumns 1 toyEst (fun l => (List.replicate 1 0, toyEst l)) := fun _ => ⟨rfl, Or.inl rfl⟩
example : estimate toyEst [[1, 2, 5]] (fitSeq toyFit ([], []) (product [[1, 2, 5]])) (some (.one 1)) (some (.one 5)) = .ok [5] := by
  decide
example : estimate toyEst [[1, 2, 5]] (fitSeq toyFit ([], []) (product [[1, 2, 5]])) none none = .ok [-5] := by decide
example : effectNji (fun l => (List.replicate 1 0, toyEst l)) (some 1) 1 [[1, 2, 5]]
    (fitSeq toyFit ([], []) (product [[1, 2, 5]])) (some (.one 2)) = .ok [[8], [0], [-15]] := by decide
example : fitPar toyFit ([], []) [[1], [2], [5]] [2, 0, 1] = fitSeq toyFit ([], []) [[1], [2], [5]] := by decide

/-- **C37 (negative finding)**: with two outcomes the block of the control value is two columns wide, so that the result
has one column too many and the columns after it are shifted. -/
theorem C37_two_outcomes_misaligned : ∃ cols : List (List Int),
    effectNji (fun l => (List.replicate 2 0, toyEst l ++ toyEst l)) (some 1) 2 [[1, 2, 5]]
      (fitSeq toyFit ([], []) (product [[1, 2, 5]])) (some (.one 1)) = .ok cols ∧
    cols.length = 4 ∧ (product [[1, 2, 5]]).length = 3 ∧ cols[1]? = some [0, 0] :=
  ⟨[[0, 0], [0, 0], [-8, -8], [-5, -5]], by decide, rfl, rfl, rfl⟩

/-- **C37 (negative finding)**: `effect_nji()` without data always fails. -/
theorem C37_needs_data (nji : L → List K × List K) (y : Nat) {treats : List (List V)} {d : Dict (List V × List V) L}
    {arg : Option (Arg V)} : ∃ e, effectNji nji none y treats d arg = .error e := by
  unfold effectNji
  cases resolve treats false arg with
  | error e => exact ⟨e, rfl⟩
  | ok c => exact ⟨_, rfl⟩

end learner

end YL.Props
