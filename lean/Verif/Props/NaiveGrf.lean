import Verif.Model.NaiveGrf
import Verif.Props.MetaLearner
import Mathlib.Tactic.Linarith
import Mathlib.Tactic.FieldSimp
import Mathlib.Tactic.NormNum
import Mathlib.Algebra.Order.BigOperators.Ring.List
import Mathlib.Algebra.Order.Ring.Rat
import Mathlib.Algebra.Field.Rat
import Mathlib.Algebra.Order.BigOperators.Group.List

/-!
# C160: the pure Python forest `NaiveGrf`
-/

set_option linter.unusedSectionVars false

namespace YL.Spec

open YL.Naive

variable {K : Type} [Field K] [LinearOrder K]

/-- the way of a query through a tree: `true` is left -/
def wayOf : NTree K → List K → List Bool
  | .leaf _ _, _ => []
  | .node i t l r, q => if q.getD i 0 ≤ t then true :: wayOf l q else false :: wayOf r q

/-- the training rows in the same leaf as the query -/
def inLeafOf (t : NTree K) (rows : List (NRow K)) (q : List K) : List (NRow K) :=
  rows.filter (fun r => wayOf t r.v = wayOf t q)

/-- the depth of a tree -/
def heightOf : NTree K → Nat
  | .leaf _ _ => 0
  | .node _ _ l r => max (heightOf l) (heightOf r) + 1

/-- the sum of the labels of the rows selected by `s`, squared and divided by their number -/
def sideScore (rows : List (NRow K)) (labels : List K) (s : NRow K → Bool) : K :=
  (((rows.zip labels).filter (fun p => s p.1)).map (·.2)).sum ^ 2 / ((rows.filter s).length : K)

/-- what a split is worth: the two sides' scores -/
def splitScore (rows : List (NRow K)) (labels : List K) (i : Nat) (t : K) : K :=
  sideScore rows labels (fun r => r.feat i ≤ t) + sideScore rows labels (fun r => t < r.feat i)

end YL.Spec

namespace YL.Props

open YL YL.Spec YL.Naive YL.Meta

variable {K : Type} [Field K] [LinearOrder K] [IsStrictOrderedRing K]

/-! ### midpoints -/

theorem mid_between {a b : K} (h : a < b) : a < (a + b) / 2 ∧ (a + b) / 2 < b := by
  constructor <;> linarith

theorem mids_cons (a b : K) (l : List K) : mids (a :: b :: l) = (a + b) / 2 :: mids (b :: l) := rfl

theorem mem_mids {l : List K} (hs : l.Pairwise (· < ·)) {t : K} (h : t ∈ mids l) : (∃ a ∈ l, a ≤ t) ∧ ∃ b ∈ l, t < b := by
  induction l with
  | nil => simp [mids] at h
  | cons a l ih =>
    match l, ih, hs, h with
    | [], _, _, h => simp [mids] at h
    | b :: l, ih, hs, h =>
      rw [mids_cons] at h
      have hab : a < b := (List.pairwise_cons.1 hs).1 b (by simp)
      rcases List.mem_cons.1 h with rfl | h
      · exact ⟨⟨a, by simp, (mid_between hab).1.le⟩, ⟨b, by simp, (mid_between hab).2⟩⟩
      · obtain ⟨⟨x, hx, hx'⟩, ⟨y, hy, hy'⟩⟩ := ih (List.pairwise_cons.1 hs).2 h
        exact ⟨⟨x, List.mem_cons_of_mem _ hx, hx'⟩, ⟨y, List.mem_cons_of_mem _ hy, hy'⟩⟩

theorem mids_cover {l : List K} (hs : l.Pairwise (· < ·)) {θ : K} (h1 : ∃ a ∈ l, a ≤ θ) (h2 : ∃ b ∈ l, θ < b) :
    ∃ t ∈ mids l, ∀ x ∈ l, (x ≤ t ↔ x ≤ θ) := by
  induction l with
  | nil => obtain ⟨a, ha, -⟩ := h1; cases ha
  | cons a l ih =>
    match l, ih, hs, h1, h2 with
    | [], _, _, ⟨x, hx, hx'⟩, ⟨y, hy, hy'⟩ =>
      simp only [List.mem_singleton] at hx hy
      subst hx; subst hy
      exact absurd hx' (not_le.2 hy')
    | b :: l, ih, hs, h1, h2 =>
      have hs' := List.pairwise_cons.1 hs
      have hab : a < b := hs'.1 b (by simp)
      by_cases hb : b ≤ θ
      · obtain ⟨y, hy, hy'⟩ := h2
        have hy2 : y ∈ b :: l := by
          rcases List.mem_cons.1 hy with rfl | hy
          · exact absurd (hab.le.trans hb) (not_le.2 hy')
          · exact hy
        obtain ⟨t, ht, ht'⟩ := ih hs'.2 ⟨b, by simp, hb⟩ ⟨y, hy2, hy'⟩
        refine ⟨t, by rw [mids_cons]; exact List.mem_cons_of_mem _ ht, fun x hx => ?_⟩
        rcases List.mem_cons.1 hx with rfl | hx
        · have hbt : b ≤ t := (ht' b (by simp)).2 hb
          exact ⟨fun _ => hab.le.trans hb, fun _ => hab.le.trans hbt⟩
        · exact ht' x hx
      · have hb' : θ < b := not_le.1 hb
        obtain ⟨x0, hx0, hx0'⟩ := h1
        have hx0a : x0 = a := by
          rcases List.mem_cons.1 hx0 with h | h
          · exact h
          · exfalso
            have : b ≤ x0 := by
              rcases List.mem_cons.1 h with rfl | h
              · exact le_refl _
              · exact ((List.pairwise_cons.1 hs'.2).1 x0 h).le
            exact absurd (this.trans hx0') hb
        subst hx0a
        refine ⟨(x0 + b) / 2, by rw [mids_cons]; simp, fun x hx => ?_⟩
        rcases List.mem_cons.1 hx with rfl | hx
        · exact ⟨fun _ => hx0', fun _ => (mid_between hab).1.le⟩
        · have hbx : b ≤ x := by
            rcases List.mem_cons.1 hx with rfl | h
            · exact le_refl _
            · exact ((List.pairwise_cons.1 hs'.2).1 x h).le
          exact ⟨fun h => absurd (hbx.trans h) (not_le.2 (mid_between hab).2), fun h => absurd (hbx.trans h) hb⟩

theorem levels_pairwise (rows : List (NRow K)) (i : Nat) : (levels rows i).Pairwise (· < ·) := by
  unfold levels uniq
  have h1 := List.pairwise_insertionSort (· ≤ ·) (rows.map (fun r => r.feat i)).dedup
  have h2 : ((rows.map (fun r => r.feat i)).dedup.insertionSort (· ≤ ·)).Nodup :=
    (List.perm_insertionSort (· ≤ ·) _).nodup_iff.2 (List.nodup_dedup _)
  exact (h1.and h2).imp (fun h => lt_of_le_of_ne h.1 h.2)

theorem mem_levels {rows : List (NRow K)} {i : Nat} {x : K} : x ∈ levels rows i ↔ ∃ r ∈ rows, r.feat i = x := by
  unfold levels
  rw [mem_uniq, List.mem_map]

/-! ### the first largest -/

theorem firstMax_none {f : K → K} {l : List K} : firstMax f l = none ↔ l = [] := by
  cases l with
  | nil => simp [firstMax]
  | cons t l =>
    simp only [firstMax, reduceCtorEq, iff_false]
    split
    · simp
    · split <;> simp

theorem firstMax_spec {f : K → K} {l : List K} {m t : K} (h : firstMax f l = some (m, t)) :
    t ∈ l ∧ m = f t ∧ ∀ u ∈ l, f u ≤ m := by
  induction l generalizing m t with
  | nil => cases h
  | cons a l ih =>
    unfold firstMax at h
    rcases hl : firstMax f l with _ | ⟨b, u⟩
    · rw [hl] at h
      rw [firstMax_none.1 hl]
      simp only [Option.some.injEq, Prod.mk.injEq] at h
      obtain ⟨rfl, rfl⟩ := h
      simp
    · rw [hl] at h
      obtain ⟨h1, h2, h3⟩ := ih hl
      dsimp only at h
      split at h
      · rename_i hb
        simp only [Option.some.injEq, Prod.mk.injEq] at h
        obtain ⟨rfl, rfl⟩ := h
        refine ⟨by simp, rfl, fun x hx => ?_⟩
        rcases List.mem_cons.1 hx with rfl | hx
        · exact le_refl _
        · exact (h3 x hx).trans hb
      · rename_i hb
        simp only [Option.some.injEq, Prod.mk.injEq] at h
        obtain ⟨rfl, rfl⟩ := h
        refine ⟨List.mem_cons_of_mem _ h1, h2, fun x hx => ?_⟩
        rcases List.mem_cons.1 hx with rfl | hx
        · exact (not_le.1 hb).le
        · exact h3 x hx

theorem bestOf_none {rows : List (NRow K)} {labels : List K} {i : Nat} :
    bestOf rows labels i = none ↔ (levels rows i).length ≤ 1 := by
  unfold bestOf
  split
  · simp [*]
  · rename_i h
    simp only [h, iff_false]
    rw [firstMax_none]
    match hl : levels rows i, h with
    | [], h => simp at h
    | [a], h => simp at h
    | a :: b :: l, _ => simp [mids_cons]

theorem bestOf_spec {rows : List (NRow K)} {labels : List K} {i : Nat} {m t : K} (h : bestOf rows labels i = some (m, t)) :
    t ∈ mids (levels rows i) ∧ m = improve rows labels i t ∧ ∀ u ∈ mids (levels rows i), improve rows labels i u ≤ m := by
  unfold bestOf at h
  split at h
  · cases h
  · exact firstMax_spec h

/-- the state of the loop over the covariates -/
theorem split_loop (rows : List (NRow K)) (labels : List K) : ∀ (n : Nat),
    (∀ m i t, (List.range n).foldl (splitStep rows labels) none = some (m, i, t) →
      i < n ∧ bestOf rows labels i = some (m, t) ∧ ∀ j < n, ∀ m' t', bestOf rows labels j = some (m', t') → m' ≤ m) ∧
    ((List.range n).foldl (splitStep rows labels) none = none → ∀ j < n, bestOf rows labels j = none) := by
  intro n
  induction n with
  | zero => exact ⟨(fun m i t h => by simp at h), fun _ j hj => absurd hj (Nat.not_lt_zero j)⟩
  | succ n ih =>
    rw [List.range_succ, List.foldl_append]
    simp only [List.foldl_cons, List.foldl_nil]
    obtain ⟨ih1, ih2⟩ := ih
    generalize (List.range n).foldl (splitStep rows labels) none = best at ih1 ih2 ⊢
    unfold splitStep
    rcases hb : bestOf rows labels n with _ | ⟨m0, t0⟩
    · dsimp only
      constructor
      · intro m i t h
        obtain ⟨h1, h2, h3⟩ := ih1 m i t h
        refine ⟨by omega, h2, fun j hj m' t' hj' => ?_⟩
        rcases Nat.lt_succ_iff_lt_or_eq.1 hj with hj | rfl
        · exact h3 j hj m' t' hj'
        · rw [hb] at hj'; cases hj'
      · intro h j hj
        rcases Nat.lt_succ_iff_lt_or_eq.1 hj with hj | rfl
        · exact ih2 h j hj
        · exact hb
    · rcases best with _ | ⟨b, j0, u0⟩
      · dsimp only
        constructor
        · intro m i t h
          simp only [Option.some.injEq, Prod.mk.injEq] at h
          obtain ⟨rfl, rfl, rfl⟩ := h
          refine ⟨Nat.lt_succ_self _, hb, fun j hj m' t' hj' => ?_⟩
          rcases Nat.lt_succ_iff_lt_or_eq.1 hj with hj | rfl
          · rw [ih2 rfl j hj] at hj'; cases hj'
          · rw [hb] at hj'; cases hj'; exact le_refl _
        · intro h; cases h
      · dsimp only
        obtain ⟨h1, h2, h3⟩ := ih1 b j0 u0 rfl
        split
        · rename_i hlt
          constructor
          · intro m i t h
            simp only [Option.some.injEq, Prod.mk.injEq] at h
            obtain ⟨rfl, rfl, rfl⟩ := h
            refine ⟨Nat.lt_succ_self _, hb, fun j hj m' t' hj' => ?_⟩
            rcases Nat.lt_succ_iff_lt_or_eq.1 hj with hj | rfl
            · exact (h3 j hj m' t' hj').trans hlt.le
            · rw [hb] at hj'; cases hj'; exact le_refl _
          · intro h; cases h
        · rename_i hlt
          constructor
          · intro m i t h
            simp only [Option.some.injEq, Prod.mk.injEq] at h
            obtain ⟨rfl, rfl, rfl⟩ := h
            refine ⟨by omega, h2, fun j hj m' t' hj' => ?_⟩
            rcases Nat.lt_succ_iff_lt_or_eq.1 hj with hj | rfl
            · exact h3 j hj m' t' hj'
            · rw [hb] at hj'; cases hj'; exact not_lt.1 hlt
          · intro h; cases h

theorem splitOf_some {p : Nat} {rows : List (NRow K)} {labels : List K} {i : Nat} {t : K} (h : splitOf p rows labels = some (i, t)) :
    i < p ∧ ∃ m, bestOf rows labels i = some (m, t) ∧ ∀ j < p, ∀ m' t', bestOf rows labels j = some (m', t') → m' ≤ m := by
  unfold splitOf at h
  rcases hf : (List.range p).foldl (splitStep rows labels) none with _ | ⟨m, j, u⟩
  · rw [hf] at h; cases h
  · rw [hf] at h
    simp only [Option.map_some, Option.some.injEq, Prod.mk.injEq] at h
    obtain ⟨rfl, rfl⟩ := h
    obtain ⟨h1, h2, h3⟩ := (split_loop rows labels p).1 m j u hf
    exact ⟨h1, m, h2, h3⟩

theorem splitOf_none {p : Nat} {rows : List (NRow K)} {labels : List K} :
    splitOf p rows labels = none ↔ ∀ i < p, ∀ r ∈ rows, ∀ s ∈ rows, r.feat i = s.feat i := by
  have hlev : ∀ i, (levels rows i).length ≤ 1 ↔ ∀ r ∈ rows, ∀ s ∈ rows, r.feat i = s.feat i := by
    intro i
    constructor
    · intro h r hr s hs
      have h1 : r.feat i ∈ levels rows i := mem_levels.2 ⟨r, hr, rfl⟩
      have h2 : s.feat i ∈ levels rows i := mem_levels.2 ⟨s, hs, rfl⟩
      match hl : levels rows i, h with
      | [], _ => rw [hl] at h1; cases h1
      | [a], _ =>
        rw [hl] at h1 h2
        simp only [List.mem_singleton] at h1 h2
        rw [h1, h2]
      | a :: b :: l, h => simp at h
    · intro h
      match hl : levels rows i with
      | [] => simp
      | [a] => simp
      | a :: b :: l =>
        exfalso
        have h1 : a ∈ levels rows i := by rw [hl]; simp
        have h2 : b ∈ levels rows i := by rw [hl]; simp
        obtain ⟨r, hr, rfl⟩ := mem_levels.1 h1
        obtain ⟨s, hs, rfl⟩ := mem_levels.1 h2
        have hp := levels_pairwise rows i
        rw [hl] at hp
        exact absurd (h r hr s hs) ((List.pairwise_cons.1 hp).1 _ (by simp)).ne
  constructor
  · intro h i hi
    rw [← hlev, ← bestOf_none (labels := labels)]
    unfold splitOf at h
    exact (split_loop rows labels p).2 (by simpa using h) i hi
  · intro h
    rcases hs : splitOf p rows labels with _ | ⟨i, t⟩
    · rfl
    · obtain ⟨hi, m, hm, -⟩ := splitOf_some hs
      rw [bestOf_none.2 ((hlev i).2 (h i hi))] at hm
      cases hm

/-- a chosen split has rows on both sides -/
theorem split_sides {p : Nat} {rows : List (NRow K)} {labels : List K} {i : Nat} {t : K} (h : splitOf p rows labels = some (i, t)) :
    (∃ r ∈ rows, r.feat i ≤ t) ∧ ∃ r ∈ rows, t < r.feat i := by
  obtain ⟨-, m, hm, -⟩ := splitOf_some h
  obtain ⟨h1, -, -⟩ := bestOf_spec hm
  obtain ⟨⟨a, ha, ha'⟩, ⟨b, hb, hb'⟩⟩ := mem_mids (levels_pairwise rows i) h1
  obtain ⟨r, hr, rfl⟩ := mem_levels.1 ha
  obtain ⟨s, hs, rfl⟩ := mem_levels.1 hb
  exact ⟨⟨r, hr, ha'⟩, ⟨s, hs, hb'⟩⟩

theorem improve_splitScore {rows : List (NRow K)} {labels : List K} (hl : labels.length = rows.length) (i : Nat) (t : K) :
    improve rows labels i t = splitScore rows labels i t := by
  have hlen : ∀ (s : NRow K → Bool), (((rows.zip labels).filter (fun p => s p.1)).map (·.2)).length = (rows.filter s).length := by
    intro s
    rw [List.length_map]
    induction rows generalizing labels with
    | nil => simp
    | cons r rows ih =>
      match labels, hl with
      | b :: labels, hl =>
        simp only [List.zip_cons_cons, List.filter_cons]
        have := ih (labels := labels) (by simpa using hl)
        split <;> simp [this]
  have hsum : labels.sum - (leftLabels rows labels i t).sum = (((rows.zip labels).filter (fun p => decide (t < p.1.feat i))).map (·.2)).sum := by
    unfold leftLabels
    rw [sub_eq_iff_eq_add]
    clear hlen
    induction rows generalizing labels with
    | nil =>
      have : labels = [] := List.length_eq_zero_iff.1 (by simpa using hl)
      simp [this]
    | cons r rows ih =>
      match labels, hl with
      | b :: labels, hl =>
        have := ih (labels := labels) (by simpa using hl)
        simp only [List.zip_cons_cons, List.filter_cons, List.sum_cons, this]
        by_cases h : r.feat i ≤ t
        · simp only [h, decide_true, if_true, not_lt.2 h, decide_false, Bool.false_eq_true, if_false, List.map_cons, List.sum_cons]
          ring
        · simp only [h, decide_false, Bool.false_eq_true, if_false, not_le.1 h, decide_true, if_true, List.map_cons, List.sum_cons]
          ring
  have hcount : (rows.filter (fun r => decide (r.feat i ≤ t))).length + (rows.filter (fun r => decide (t < r.feat i))).length = rows.length := by
    clear hlen hsum hl
    induction rows with
    | nil => rfl
    | cons r rows ih =>
      simp only [List.filter_cons]
      by_cases h : r.feat i ≤ t
      · simp only [h, decide_true, if_true, not_lt.2 h, decide_false, Bool.false_eq_true, if_false, List.length_cons]; omega
      · simp only [h, decide_false, Bool.false_eq_true, if_false, not_le.1 h, decide_true, if_true, List.length_cons]; omega
  unfold improve splitScore sideScore
  rw [hsum]
  have h1 : (leftLabels rows labels i t).length = (rows.filter (fun r => decide (r.feat i ≤ t))).length := hlen (fun r => decide (r.feat i ≤ t))
  rw [h1, hl]
  have h2 : rows.length - (rows.filter (fun r => decide (r.feat i ≤ t))).length = (rows.filter (fun r => decide (t < r.feat i))).length := by omega
  rw [h2]
  rfl

theorem labelsOf_length (eps : K) (rows : List (NRow K)) : (labelsOf eps rows).length = rows.length := by
  simp [labelsOf, grads]

/-- **C160** (split): the split of a node is the best of all: for every covariate and every threshold with rows on both sides, the
sum over the two sides of (sum of labels)² / number is at most that of the chosen split; and there is none exactly if all rows agree
in all covariates. -/
theorem C160_split (p : Nat) (rows : List (NRow K)) (labels : List K) (hl : labels.length = rows.length) :
    (∀ i t, splitOf p rows labels = some (i, t) → i < p ∧ (∃ r ∈ rows, r.feat i ≤ t) ∧ (∃ r ∈ rows, t < r.feat i) ∧
      ∀ j < p, ∀ θ, (∃ r ∈ rows, r.feat j ≤ θ) → (∃ r ∈ rows, θ < r.feat j) → splitScore rows labels j θ ≤ splitScore rows labels i t) ∧
    (splitOf p rows labels = none ↔ ∀ i < p, ∀ r ∈ rows, ∀ s ∈ rows, r.feat i = s.feat i) := by
  refine ⟨fun i t h => ?_, splitOf_none⟩
  obtain ⟨hi, m, hm, hbest⟩ := splitOf_some h
  obtain ⟨hs1, hs2⟩ := split_sides h
  refine ⟨hi, hs1, hs2, fun j hj θ h1 h2 => ?_⟩
  obtain ⟨-, hm2, hm3⟩ := bestOf_spec hm
  obtain ⟨r1, hr1, hr1'⟩ := h1
  obtain ⟨r2, hr2, hr2'⟩ := h2
  obtain ⟨u, hu, hu'⟩ := mids_cover (levels_pairwise rows j) (θ := θ) ⟨_, mem_levels.2 ⟨r1, hr1, rfl⟩, hr1'⟩ ⟨_, mem_levels.2 ⟨r2, hr2, rfl⟩, hr2'⟩
  have hsame : splitScore rows labels j θ = splitScore rows labels j u := by
    have hle : ∀ r ∈ rows, (r.feat j ≤ θ ↔ r.feat j ≤ u) := fun r hr => (hu' _ (mem_levels.2 ⟨r, hr, rfl⟩)).symm
    have e1 : ∀ r ∈ rows, decide (r.feat j ≤ θ) = decide (r.feat j ≤ u) := fun r hr => by simp only [hle r hr]
    have e2 : ∀ r ∈ rows, decide (θ < r.feat j) = decide (u < r.feat j) := fun r hr => by
      have h : (θ < r.feat j ↔ u < r.feat j) := by rw [← not_le, ← not_le, hle r hr]
      simp only [h]
    unfold splitScore sideScore
    rw [List.filter_congr e1, List.filter_congr e2,
      List.filter_congr (p := fun p : NRow K × K => decide (p.1.feat j ≤ θ)) (q := fun p => decide (p.1.feat j ≤ u))
        (fun p hp => e1 p.1 (List.of_mem_zip hp).1),
      List.filter_congr (p := fun p : NRow K × K => decide (θ < p.1.feat j)) (q := fun p => decide (u < p.1.feat j))
        (fun p hp => e2 p.1 (List.of_mem_zip hp).1)]
  rw [hsame, ← improve_splitScore hl, ← improve_splitScore hl, ← hm2]
  rcases hbj : bestOf rows labels j with _ | ⟨m', t'⟩
  · exfalso
    have := bestOf_none.1 hbj
    match hlv : levels rows j, this with
    | [], _ => rw [hlv] at hu; simp [mids] at hu
    | [a], _ => rw [hlv] at hu; simp [mids] at hu
    | a :: b :: l, h => simp at h
  · exact ((bestOf_spec hbj).2.2 u hu).trans (hbest j hj m' t' hbj)

/-! ### growing -/

theorem inLeafOf_left {i : Nat} {t : K} {l r : NTree K} (rows : List (NRow K)) {q : List K} (h : q.getD i 0 ≤ t) :
    inLeafOf (.node i t l r) rows q = inLeafOf l (rows.filter (fun a => a.feat i ≤ t)) q := by
  unfold inLeafOf
  rw [List.filter_filter]
  refine List.filter_congr (fun a _ => ?_)
  simp only [wayOf, h, if_true]
  by_cases ha : a.feat i ≤ t
  · have ha' : a.v.getD i 0 ≤ t := ha
    simp only [ha, ha', if_true]; simp
  · have ha' : ¬ a.v.getD i 0 ≤ t := ha
    simp only [ha, ha', if_false]; simp

theorem inLeafOf_right {i : Nat} {t : K} {l r : NTree K} (rows : List (NRow K)) {q : List K} (h : ¬ q.getD i 0 ≤ t) :
    inLeafOf (.node i t l r) rows q = inLeafOf r (rows.filter (fun a => t < a.feat i)) q := by
  unfold inLeafOf
  rw [List.filter_filter]
  refine List.filter_congr (fun a _ => ?_)
  simp only [wayOf, h, if_false]
  by_cases ha : a.feat i ≤ t
  · have ha' : a.v.getD i 0 ≤ t := ha
    have hn : ¬ t < a.feat i := not_lt.2 ha
    simp only [hn, ha', if_true]; simp
  · have ha' : ¬ a.v.getD i 0 ≤ t := ha
    have hn : t < a.feat i := not_le.1 ha
    simp only [hn, ha', if_false]; simp

theorem inLeafOf_leaf (v : K) (n : Nat) (rows : List (NRow K)) (q : List K) : inLeafOf (.leaf v n) rows q = rows := by
  simp [inLeafOf, wayOf]

/-- the three ways to become a tree -/
theorem build_cases {c : Cfg K} {f depth : Nat} {rows : List (NRow K)} {tr : NTree K} (h : build c f depth rows = .ok tr) :
    (∃ r, rows = [r] ∧ tr = .leaf r.y 1) ∨
    (2 ≤ rows.length ∧ atLimit c depth = true ∧ tr = .leaf (meanOf (rows.map (·.y))) rows.length) ∨
    (2 ≤ rows.length ∧ atLimit c depth = false ∧ pure? c.tol rows ∧ ∃ r, rows.head? = some r ∧ tr = .leaf r.y rows.length) ∨
    (2 ≤ rows.length ∧ atLimit c depth = false ∧ ¬ pure? c.tol rows ∧ c.hasW = true ∧ ∃ f' i t l r, f = f' + 1 ∧
      splitOf c.p rows (labelsOf c.eps rows) = some (i, t) ∧
      build c f' (depth + 1) (rows.filter (fun a => a.feat i ≤ t)) = .ok l ∧
      build c f' (depth + 1) (rows.filter (fun a => t < a.feat i)) = .ok r ∧ tr = .node i t l r) := by
  cases f with
  | zero => simp [build] at h
  | succ f =>
    match rows, h with
    | [], h => simp [build] at h
    | [r], h =>
      simp only [build, Except.ok.injEq] at h
      exact Or.inl ⟨r, rfl, h.symm⟩
    | r :: s :: l, h =>
      unfold build at h
      dsimp only at h
      by_cases hlim : atLimit c depth = true
      · rw [if_pos hlim] at h
        exact Or.inr (Or.inl ⟨by simp, hlim, (Except.ok.inj h).symm⟩)
      · have hlim' : atLimit c depth = false := by simpa using hlim
        rw [if_neg hlim] at h
        by_cases hp : pure? c.tol (r :: s :: l)
        · rw [if_pos hp] at h
          exact Or.inr (Or.inr (Or.inl ⟨by simp, hlim', hp, r, rfl, (Except.ok.inj h).symm⟩))
        · rw [if_neg hp] at h
          refine Or.inr (Or.inr (Or.inr ⟨by simp, hlim', hp, ?_⟩))
          rcases hsp : splitOf c.p (r :: s :: l) (labelsOf c.eps (r :: s :: l)) with _ | ⟨i, t⟩
          · rw [hsp] at h; cases h
          · rw [hsp] at h
            dsimp only at h
            by_cases hw : c.hasW = true
            · rw [if_pos hw] at h
              rcases hl : build c f (depth + 1) ((r :: s :: l).filter (fun a => a.feat i ≤ t)) with e | tl
              · rw [hl] at h; cases h
              · rw [hl] at h
                dsimp only at h
                rcases hr : build c f (depth + 1) ((r :: s :: l).filter (fun a => t < a.feat i)) with e | tr'
                · rw [hr] at h; cases h
                · rw [hr] at h
                  exact ⟨hw, f, i, t, tl, tr', rfl, rfl, hl, hr, (Except.ok.inj h).symm⟩
            · rw [if_neg hw] at h; cases h

theorem build_leaves {c : Cfg K} : ∀ {f depth : Nat} {rows : List (NRow K)} {tr : NTree K}, build c f depth rows = .ok tr →
    ∀ q, inLeafOf tr rows q ≠ [] ∧ (traverse tr q).2 = (inLeafOf tr rows q).length ∧
      ((traverse tr q).1 = meanOf ((inLeafOf tr rows q).map (·.y)) ∨
        (pure? c.tol (inLeafOf tr rows q) ∧ ((inLeafOf tr rows q).map (·.y)).head? = some (traverse tr q).1)) := by
  intro f
  induction f with
  | zero => intro depth rows tr h; simp [build] at h
  | succ f ih =>
    intro depth rows tr h q
    rcases build_cases h with ⟨r, rfl, rfl⟩ | ⟨hlen, -, rfl⟩ | ⟨hlen, -, hp, r, hr, rfl⟩ | ⟨-, -, -, -, f', i, t, l, r, hf, -, hl, hr, rfl⟩
    · rw [inLeafOf_leaf]
      simp [traverse, meanOf]
    · rw [inLeafOf_leaf]
      refine ⟨by intro h0; rw [h0] at hlen; simp at hlen, rfl, Or.inl rfl⟩
    · rw [inLeafOf_leaf]
      refine ⟨by intro h0; rw [h0] at hlen; simp at hlen, rfl, Or.inr ⟨hp, ?_⟩⟩
      rw [List.head?_map, hr]; rfl
    · obtain rfl : f = f' := by omega
      by_cases hq : q.getD i 0 ≤ t
      · rw [inLeafOf_left rows hq]
        have : traverse (.node i t l r) q = traverse l q := by
          conv_lhs => unfold traverse
          rw [if_pos hq]
        rw [this]
        exact ih hl q
      · rw [inLeafOf_right rows hq]
        have : traverse (.node i t l r) q = traverse r q := by
          conv_lhs => unfold traverse
          rw [if_neg hq]
        rw [this]
        exact ih hr q

theorem build_height {c : Cfg K} {d : Nat} (hd : c.maxDepth = some d) : ∀ {f depth : Nat} {rows : List (NRow K)} {tr : NTree K},
    build c f depth rows = .ok tr → heightOf tr ≤ d - depth := by
  intro f
  induction f with
  | zero => intro depth rows tr h; simp [build] at h
  | succ f ih =>
    intro depth rows tr h
    rcases build_cases h with ⟨r, rfl, rfl⟩ | ⟨hlen, -, rfl⟩ | ⟨hlen, -, hp, r, hr, rfl⟩ | ⟨-, hlim, -, -, f', i, t, l, r, hf, -, hl, hr, rfl⟩
    · simp [heightOf]
    · simp [heightOf]
    · simp [heightOf]
    · obtain rfl : f = f' := by omega
      have h1 := ih hl
      have h2 := ih hr
      simp only [atLimit, hd, decide_eq_false_iff_not] at hlim
      simp only [heightOf]
      omega

/-- **C160** (leaves): in a tree that was grown, every query ends in a leaf with at least one training row; the leaf's sample number is
the number of the training rows that go the same way, its value is their mean outcome – or, where growing stopped because the gradients
agree up to the tolerance, the first of their outcomes; and no way is longer than `max_depth`. -/
theorem C160_leaves (c : Cfg K) (rows : List (NRow K)) (tr : NTree K) (h : fitTree c rows = .ok tr) (q : List K) :
    inLeafOf tr rows q ≠ [] ∧ (traverse tr q).2 = (inLeafOf tr rows q).length ∧
      ((traverse tr q).1 = meanOf ((inLeafOf tr rows q).map (·.y)) ∨
        (pure? c.tol (inLeafOf tr rows q) ∧ ((inLeafOf tr rows q).map (·.y)).head? = some (traverse tr q).1)) ∧
      ∀ d, c.maxDepth = some d → heightOf tr ≤ d := by
  obtain ⟨h1, h2, h3⟩ := build_leaves h q
  exact ⟨h1, h2, h3, fun d hd => by simpa using build_height hd h⟩

theorem build_total {c : Cfg K} (hw : c.hasW = true) : ∀ {f depth : Nat} {rows : List (NRow K)}, rows.length < f → rows ≠ [] →
    rows.Pairwise (fun a b => ∃ i < c.p, a.feat i ≠ b.feat i) → ∃ tr, build c f depth rows = .ok tr := by
  intro f
  induction f with
  | zero => intro depth rows h; omega
  | succ f ih =>
    intro depth rows hf h0 hd
    match rows, hf, h0, hd with
    | [r], _, _, _ => exact ⟨_, rfl⟩
    | r :: s :: l, hf, _, hd =>
      unfold build
      dsimp only
      by_cases hlim : atLimit c depth = true
      · rw [if_pos hlim]; exact ⟨_, rfl⟩
      rw [if_neg hlim]
      by_cases hp : pure? c.tol (r :: s :: l)
      · rw [if_pos hp]; exact ⟨_, rfl⟩
      rw [if_neg hp]
      rcases hsp : splitOf c.p (r :: s :: l) (labelsOf c.eps (r :: s :: l)) with _ | ⟨i, t⟩
      · exfalso
        have h := splitOf_none.1 hsp
        obtain ⟨i, hi, hne⟩ := (List.pairwise_cons.1 hd).1 s (by simp)
        exact hne (h i hi r (by simp) s (by simp))
      · dsimp only
        rw [if_pos hw]
        obtain ⟨⟨a, ha, ha'⟩, ⟨b, hb, hb'⟩⟩ := split_sides hsp
        have hlen1 : ((r :: s :: l).filter (fun a => decide (a.feat i ≤ t))).length < (r :: s :: l).length :=
          List.length_filter_lt_length_iff_exists.2 ⟨b, hb, by simpa using hb'⟩
        have hlen2 : ((r :: s :: l).filter (fun a => decide (t < a.feat i))).length < (r :: s :: l).length :=
          List.length_filter_lt_length_iff_exists.2 ⟨a, ha, by simpa using ha'⟩
        obtain ⟨tl, htl⟩ := ih (depth := depth + 1) (rows := (r :: s :: l).filter (fun a => decide (a.feat i ≤ t))) (by omega)
          (List.ne_nil_of_mem (List.mem_filter.2 ⟨ha, by simpa using ha'⟩)) (hd.filter _)
        obtain ⟨tr, htr⟩ := ih (depth := depth + 1) (rows := (r :: s :: l).filter (fun a => decide (t < a.feat i))) (by omega)
          (List.ne_nil_of_mem (List.mem_filter.2 ⟨hb, by simpa using hb'⟩)) (hd.filter _)
        exact ⟨.node i t tl tr, by simp only [htl, htr]⟩

/-- **C160** (fit): with an adjustment matrix and training rows no two of which agree in all covariates, growing ends with a tree. -/
theorem C160_fit_total (c : Cfg K) (rows : List (NRow K)) (hw : c.hasW = true) (h0 : rows ≠ [])
    (hd : rows.Pairwise (fun a b => ∃ i < c.p, a.feat i ≠ b.feat i)) : ∃ tr, fitTree c rows = .ok tr :=
  build_total hw (Nat.lt_succ_self _) h0 hd

/-! ### the weights -/

theorem traverse_way {tr : NTree K} {a b : List K} (h : wayOf tr a = wayOf tr b) : traverse tr a = traverse tr b := by
  induction tr with
  | leaf v n => rfl
  | node i t l r ihl ihr =>
    unfold wayOf at h
    unfold traverse
    by_cases ha : a.getD i 0 ≤ t <;> by_cases hb : b.getD i 0 ≤ t
    · simp only [ha, hb, if_true] at h ⊢
      exact ihl (List.cons.inj h).2
    · simp only [ha, hb, if_true, if_false] at h; simp at h
    · simp only [ha, hb, if_true, if_false] at h; simp at h
    · simp only [ha, hb, if_false] at h ⊢
      exact ihr (List.cons.inj h).2

theorem sum_ite_filter {A : Type} (l : List A) (p : A → Prop) [DecidablePred p] (w : K) :
    (l.map (fun a => if p a then w else 0)).sum = ((l.filter (fun a => p a)).length : K) * w := by
  induction l with
  | nil => simp
  | cons a l ih =>
    simp only [List.map_cons, List.sum_cons, List.filter_cons, ih]
    by_cases h : p a
    · simp [h]; ring
    · simp [h]

theorem sum_map_le_sum_map {A : Type} (l : List A) (f g : A → K) (h : ∀ a ∈ l, f a ≤ g a) :
    (l.map f).sum ≤ (l.map g).sum ∧ ((l.map f).sum = (l.map g).sum → ∀ a ∈ l, f a = g a) := by
  induction l with
  | nil => simp
  | cons a l ih =>
    obtain ⟨h1, h2⟩ := ih (fun b hb => h b (List.mem_cons_of_mem _ hb))
    have ha := h a (by simp)
    simp only [List.map_cons, List.sum_cons]
    refine ⟨by linarith, fun he b hb => ?_⟩
    rcases List.mem_cons.1 hb with rfl | hb
    · linarith
    · exact h2 (by linarith) b hb

/-- **C160** (weights): the weights a tree gives to the rows it was grown on are not negative and sum to at least 1. They sum to 1
exactly if every row in a leaf with the query's leaf value is in the query's leaf, and then they are the honest ones: one over the number
of rows in the query's leaf for these rows, 0 for the others. -/
theorem C160_alpha (c : Cfg K) (rows : List (NRow K)) (tr : NTree K) (h : fitTree c rows = .ok tr) (q : List K) :
    (∀ w ∈ weightsOf tr q rows, 0 ≤ w) ∧ 1 ≤ (weightsOf tr q rows).sum ∧
    ((weightsOf tr q rows).sum = 1 ↔ ∀ r ∈ rows, (traverse tr r.v).1 = (traverse tr q).1 → wayOf tr r.v = wayOf tr q) ∧
    ((weightsOf tr q rows).sum = 1 → weightsOf tr q rows =
      rows.map (fun r => if wayOf tr r.v = wayOf tr q then 1 / ((inLeafOf tr rows q).length : K) else 0)) := by
  have hleaf := build_leaves h
  have hpos : ∀ q', (0 : K) < ((traverse tr q').2 : K) := fun q' => by
    rw [(hleaf q').2.1]
    exact Nat.cast_pos.2 (List.length_pos_iff.2 (hleaf q').1)
  have hw0 : ∀ r : NRow K, 0 ≤ weightOf tr q r := fun r => by
    unfold weightOf
    split
    · exact (one_div_pos.2 (hpos _)).le
    · exact le_refl _
  let g : NRow K → K := fun r => if wayOf tr r.v = wayOf tr q then 1 / ((inLeafOf tr rows q).length : K) else 0
  have hsame : ∀ r : NRow K, wayOf tr r.v = wayOf tr q → weightOf tr q r = 1 / ((inLeafOf tr rows q).length : K) := fun r hr => by
    unfold weightOf
    rw [traverse_way hr, if_pos rfl, (hleaf q).2.1]
  have hle : ∀ r ∈ rows, g r ≤ weightOf tr q r := fun r _ => by
    by_cases hr : wayOf tr r.v = wayOf tr q
    · rw [hsame r hr]; exact le_of_eq (if_pos hr)
    · have : g r = 0 := if_neg hr
      rw [this]; exact hw0 r
  have hg : (rows.map g).sum = 1 := by
    rw [sum_ite_filter rows (fun r => wayOf tr r.v = wayOf tr q)]
    have hp := hpos q
    rw [(hleaf q).2.1] at hp
    exact mul_one_div_cancel hp.ne'
  obtain ⟨h1, h2⟩ := sum_map_le_sum_map rows g (weightOf tr q) hle
  have heq : (weightsOf tr q rows).sum = 1 → ∀ r ∈ rows, g r = weightOf tr q r := fun hs => h2 (by rw [hg]; exact hs.symm)
  refine ⟨?_, by rw [← hg]; exact h1, ⟨?_, ?_⟩, ?_⟩
  · intro w hw
    obtain ⟨r, -, rfl⟩ := List.mem_map.1 hw
    exact hw0 r
  · intro hs r hr hv
    by_contra hne
    have h3 := heq hs r hr
    have h4 : g r = 0 := if_neg hne
    rw [h4] at h3
    unfold weightOf at h3
    rw [if_pos hv] at h3
    exact absurd h3 (one_div_pos.2 (hpos _)).ne
  · intro hall
    rw [← hg]
    unfold weightsOf
    congr 1
    refine List.map_congr_left (fun r hr => ?_)
    by_cases hway : wayOf tr r.v = wayOf tr q
    · rw [hsame r hway]; exact (if_pos hway).symm
    · have h4 : g r = 0 := if_neg hway
      rw [h4]
      unfold weightOf
      exact if_neg (fun hv => hway (hall r hr hv))
  · intro hs
    exact List.map_congr_left (fun r hr => (heq hs r hr).symm)

/-! ### a case, and what does not hold -/

/-- six rows, one covariate -/
def nRows : List (NRow ℚ) := [⟨1, 1, [0]⟩, ⟨0, 0, [1]⟩, ⟨1, 7, [2]⟩, ⟨0, 2, [3]⟩, ⟨1, 3, [5]⟩, ⟨0, 9, [4]⟩]

/-- a tree of depth 1 on them -/
def nCfg : Cfg ℚ := ⟨some 1, 1/100000, 1/10000000, 1, true⟩

example : fitTree nCfg nRows = .ok (.node 0 (7/2) (.leaf (5/2) 4) (.leaf 6 2)) := by decide +kernel

example : weightsOf (.node 0 (7/2) (.leaf (5/2) 4) (.leaf 6 2)) [(1 : ℚ)] nRows = [1/4, 1/4, 1/4, 1/4, 0, 0] := by decide +kernel


/-- four rows with outcomes 0 and 1 -/
def nBin : List (NRow ℚ) := [⟨1, 1, [0]⟩, ⟨0, 0, [1]⟩, ⟨1, 1, [2]⟩, ⟨0, 1, [3]⟩]

/-- no depth limit, one covariate, an adjustment matrix -/
def nFree : Cfg ℚ := ⟨none, 1/100000, 1/10000000, 1, true⟩

/-- What does not hold: leaves are told apart by their values only. With the outcomes 0 and 1 two leaves have the value 1; the query's
weights spread over both and sum to 2. -/
theorem C160_alpha_refuted : ∃ (c : Cfg ℚ) (rows : List (NRow ℚ)) (tr : NTree ℚ) (q : List ℚ), fitTree c rows = .ok tr ∧
    (weightsOf tr q rows).sum = 2 := by
  refine ⟨nFree, nBin, .node 0 (5/2) (.leaf 1 3) (.leaf 1 1), [0], ?_, ?_⟩ <;> decide +kernel

/-- What does not hold: two rows with the same covariates (all that can be told of a single discrete covariate) but different gradients
leave no split; without depth limit the fit raises `TypeError`. -/
theorem C160_discrete_refuted : ∃ (c : Cfg ℚ) (rows : List (NRow ℚ)), c.hasW = true ∧ c.maxDepth = none ∧ rows.length = 3 ∧
    fitTree c rows = .error .type := by
  refine ⟨nFree, [⟨1, 1, [0]⟩, ⟨0, 0, [0]⟩, ⟨1, 3, [0]⟩], rfl, rfl, rfl, ?_⟩
  decide +kernel

/-- What does not hold: without adjustment, which `fit` declares optional, the first split raises `TypeError`. -/
theorem C160_adjustment_refuted (c : Cfg K) (rows : List (NRow K)) (hw : c.hasW = false) (hlen : 2 ≤ rows.length)
    (hlim : c.maxDepth ≠ some 0) (hp : ¬ pure? c.tol rows) : fitTree c rows = .error .type := by
  match rows, hlen with
  | r :: s :: l, _ =>
    have h1 : atLimit c 0 = false := by
      unfold atLimit
      rcases hm : c.maxDepth with _ | d
      · rfl
      · rw [hm] at hlim
        have : d ≠ 0 := fun h => hlim (by rw [h])
        simp; omega
    unfold fitTree build
    simp only [h1, Bool.false_eq_true, if_false, hp, hw]
    split <;> rfl

example : nFree.maxDepth ≠ some 0 ∧ ¬ pure? nFree.tol nRows ∧ 2 ≤ nRows.length := by decide +kernel

/-- What does not hold: two rows above the depth limit make a leaf with the first of their outcomes as value, not their mean: the
gradients of two rows are always equal. -/
theorem C160_mean_refuted (c : Cfg K) (a b : NRow K) (ht : 0 ≤ c.tol) (hlim : c.maxDepth ≠ some 0) :
    fitTree c [a, b] = .ok (.leaf a.y 2) := by
  have h1 : atLimit c 0 = false := by
    unfold atLimit
    rcases hm : c.maxDepth with _ | d
    · rfl
    · rw [hm] at hlim
      have : d ≠ 0 := fun h => hlim (by rw [h])
      simp; omega
  have hp : pure? c.tol [a, b] := by
    intro g hg
    have h2 : (grads [a, b]).headD 0 = g := by
      simp only [grads, List.map_cons, List.map_nil, List.mem_cons, List.not_mem_nil, or_false, List.headD_cons] at hg ⊢
      rcases hg with rfl | rfl
      · rfl
      · simp only [meanOf, List.sum_cons, List.sum_nil, List.length_cons, List.length_nil]
        push_cast
        ring
    rw [h2, sub_self, abs_zero]
    exact ht
  unfold fitTree build
  simp only [h1, Bool.false_eq_true, if_false, hp, if_true]
  rfl

example : (0 : ℚ) ≤ nFree.tol ∧ nFree.maxDepth ≠ some 0 := by decide +kernel

/-! ### the gradients -/

/-- the least squares coefficient minimises the sum of squares of `y - b x` over all `b` -/
theorem lsCoef_min (rows : List (NRow K)) (hx : ∃ r ∈ rows, r.x ≠ 0) (b : K) :
    (rows.map (fun r => (r.y - lsCoef rows * r.x) ^ 2)).sum ≤ (rows.map (fun r => (r.y - b * r.x) ^ 2)).sum := by
  have hexp : ∀ (l : List (NRow K)) (c : K), (l.map (fun r => (r.y - c * r.x) ^ 2)).sum =
      (l.map (fun r => r.y ^ 2)).sum - 2 * c * (l.map (fun r => r.x * r.y)).sum + c ^ 2 * (l.map (fun r => r.x * r.x)).sum := by
    intro l c
    induction l with
    | nil => simp
    | cons r l ih => simp only [List.map_cons, List.sum_cons, ih]; ring
  have hpos : ∀ (l : List (NRow K)), (0 : K) ≤ (l.map (fun r => r.x * r.x)).sum ∧
      ((∃ r ∈ l, r.x ≠ 0) → 0 < (l.map (fun r => r.x * r.x)).sum) := by
    intro l
    induction l with
    | nil => simp
    | cons r l ih =>
      simp only [List.map_cons, List.sum_cons]
      have h0 := mul_self_nonneg r.x
      refine ⟨add_nonneg h0 ih.1, fun h => ?_⟩
      obtain ⟨s, hs, hs0⟩ := h
      rcases List.mem_cons.1 hs with rfl | hs
      · exact add_pos_of_pos_of_nonneg (mul_self_pos.2 hs0) ih.1
      · exact add_pos_of_nonneg_of_pos h0 (ih.2 ⟨s, hs, hs0⟩)
  have hp := (hpos rows).2 hx
  rw [hexp, hexp]
  have hS : lsCoef rows * (rows.map (fun r => r.x * r.x)).sum = (rows.map (fun r => r.x * r.y)).sum := by
    unfold lsCoef
    exact div_mul_cancel₀ _ hp.ne'
  generalize (rows.map (fun r => r.x * r.x)).sum = Q at hp hS ⊢
  generalize (rows.map (fun r => r.x * r.y)).sum = P at hS ⊢
  generalize lsCoef rows = c at hS ⊢
  subst hS
  nlinarith [mul_nonneg hp.le (sq_nonneg (b - c))]

theorem mean_mul (l : List (NRow K)) (b : K) (h : ∀ r ∈ l, r.y = b * r.x) : meanOf (l.map (·.y)) = b * meanOf (l.map (·.x)) := by
  have hs : (l.map (·.y)).sum = b * (l.map (·.x)).sum := by
    induction l with
    | nil => simp
    | cons r l ih =>
      simp only [List.map_cons, List.sum_cons]
      rw [ih (fun s hs => h s (List.mem_cons_of_mem _ hs)), h r (by simp)]; ring
  unfold meanOf
  rw [hs, List.length_map, List.length_map]
  ring

/-- **C160** (no spurious splits): if the outcome is a multiple of the treatment, the same in all rows, the gradients vanish and the tree is
a single leaf. -/
theorem C160_proportional (c : Cfg K) (rows : List (NRow K)) (b : K) (h : ∀ r ∈ rows, r.y = b * r.x) (hx : ∃ r ∈ rows, r.x ≠ 0)
    (ht : 0 ≤ c.tol) : (∀ g ∈ grads rows, g = 0) ∧ ∃ v, fitTree c rows = .ok (.leaf v rows.length) := by
  have hcoef : lsCoef rows = b := by
    have hmin := lsCoef_min rows hx b
    have hz : (rows.map (fun r => (r.y - b * r.x) ^ 2)).sum = 0 := by
      refine List.sum_eq_zero (fun z hz => ?_)
      obtain ⟨r, hr, rfl⟩ := List.mem_map.1 hz
      rw [h r hr]; ring
    rw [hz] at hmin
    have hall : ∀ r ∈ rows, (r.y - lsCoef rows * r.x) ^ 2 = 0 := by
      have h2 := sum_map_le_sum_map rows (fun _ => (0 : K)) (fun r => (r.y - lsCoef rows * r.x) ^ 2) (fun r _ => sq_nonneg _)
      have h3 : (rows.map (fun _ => (0 : K))).sum = 0 := by simp
      rw [h3] at h2
      exact fun r hr => (h2.2 (le_antisymm h2.1 hmin) r hr).symm
    obtain ⟨r, hr, hr0⟩ := hx
    have h4 := pow_eq_zero_iff (n := 2) (by norm_num) |>.1 (hall r hr)
    rw [h r hr] at h4
    have h5 : (b - lsCoef rows) * r.x = 0 := by linarith
    rcases mul_eq_zero.1 h5 with h6 | h6
    · linarith
    · exact absurd h6 hr0
  have hg : ∀ g ∈ grads rows, g = 0 := by
    intro g hg
    unfold grads at hg
    obtain ⟨r, hr, rfl⟩ := List.mem_map.1 hg
    rw [hcoef, mean_mul rows b h, h r hr]
    ring
  refine ⟨hg, ?_⟩
  have hp : pure? c.tol rows := by
    intro g hg'
    have h0 : (grads rows).headD 0 = 0 := by
      rcases hgr : grads rows with _ | ⟨a, l⟩
      · rfl
      · exact hg a (by rw [hgr]; simp)
    rw [h0, hg g hg', sub_self, abs_zero]
    exact ht
  unfold fitTree build
  match rows, hx, hp with
  | [r], _, _ => exact ⟨_, rfl⟩
  | r :: s :: l, _, hp =>
    dsimp only
    by_cases hlim : atLimit c 0 = true
    · rw [if_pos hlim]; exact ⟨_, rfl⟩
    · rw [if_neg hlim, if_pos hp]; exact ⟨_, rfl⟩

example : ∃ v, fitTree nFree [⟨1, 2, [0]⟩, ⟨0, 0, [1]⟩, ⟨3, 6, [2]⟩] = .ok (.leaf v 3) :=
  (C160_proportional nFree _ 2 (by decide +kernel) ⟨⟨1, 2, [0]⟩, by simp, by decide⟩ (by decide +kernel)).2

/-- What does not hold: the coefficient is fitted without intercept, but the residuals are taken from the means. For `y = 1 + 2 x` in all
rows – no heterogeneity at all – the gradients differ and the tree splits. -/
theorem C160_intercept_refuted : ∃ (rows : List (NRow ℚ)), (∀ r ∈ rows, r.y = 1 + 2 * r.x) ∧
    ∃ i t l r, fitTree nFree rows = .ok (.node i t l r) :=
  ⟨[⟨1, 3, [0]⟩, ⟨0, 1, [1]⟩, ⟨1, 3, [2]⟩], by decide +kernel, 0, 1/2, .leaf 3 1, .leaf 1 2, by decide +kernel⟩

/-! ### scaling -/

/-- all outcomes multiplied by `c` -/
def scaleY (c : K) (rows : List (NRow K)) : List (NRow K) := rows.map (fun r => ⟨r.x, c * r.y, r.v⟩)

/-- all treatments multiplied by `c` -/
def scaleX (c : K) (rows : List (NRow K)) : List (NRow K) := rows.map (fun r => ⟨c * r.x, r.y, r.v⟩)

theorem sum_scale {α : Type} (c : K) (f : α → K) (l : List α) : (l.map (fun a => c * f a)).sum = c * (l.map f).sum := by
  induction l with
  | nil => simp
  | cons a l ih => simp only [List.map_cons, List.sum_cons]; rw [ih]; ring

theorem meanOf_scale (c : K) (f : NRow K → K) (l : List (NRow K)) : meanOf (l.map (fun a => c * f a)) = c * meanOf (l.map f) := by
  unfold meanOf
  rw [sum_scale, List.length_map, List.length_map, mul_div_assoc]

theorem lsCoef_scaleY (c : K) (rows : List (NRow K)) : lsCoef (scaleY c rows) = c * lsCoef rows := by
  unfold lsCoef scaleY
  simp only [List.map_map, Function.comp_def]
  rw [show (fun r : NRow K => r.x * (c * r.y)) = (fun r => c * (r.x * r.y)) from by funext r; ring, sum_scale, mul_div_assoc]

theorem lsCoef_scaleX {c : K} (hc : c ≠ 0) (rows : List (NRow K)) : lsCoef (scaleX c rows) = lsCoef rows / c := by
  unfold lsCoef scaleX
  simp only [List.map_map, Function.comp_def]
  rw [show (fun r : NRow K => c * r.x * r.y) = (fun r => c * (r.x * r.y)) from by funext r; ring,
    show (fun r : NRow K => c * r.x * (c * r.x)) = (fun r => (c * c) * (r.x * r.x)) from by funext r; ring, sum_scale, sum_scale]
  rw [div_div, mul_assoc, mul_div_mul_left _ _ hc, mul_comm c]

theorem labels_scaleY (eps c : K) (rows : List (NRow K)) : labelsOf eps (scaleY c rows) = (labelsOf eps rows).map (fun g => c * g) := by
  have hv : gradVar eps (scaleY c rows) = gradVar eps rows := by
    unfold gradVar scaleY
    simp only [List.map_map, Function.comp_def, List.length_map]
  unfold labelsOf
  rw [hv]
  unfold grads
  rw [lsCoef_scaleY]
  unfold scaleY
  simp only [List.map_map, Function.comp_def]
  refine List.map_congr_left (fun r _ => ?_)
  rw [meanOf_scale]
  ring

theorem labels_scaleX {c : K} (hc : c ≠ 0) (rows : List (NRow K)) : labelsOf 0 (scaleX c rows) = (labelsOf 0 rows).map (fun g => g / c) := by
  have hv : gradVar 0 (scaleX c rows) = c * c * gradVar 0 rows := by
    unfold gradVar scaleX
    simp only [List.map_map, Function.comp_def, List.length_map, add_zero]
    rw [meanOf_scale, ← mul_div_assoc, ← sum_scale]
    congr 2
    refine List.map_congr_left (fun r _ => ?_)
    ring
  unfold labelsOf
  rw [hv]
  unfold grads
  rw [lsCoef_scaleX hc]
  unfold scaleX
  simp only [List.map_map, Function.comp_def]
  refine List.map_congr_left (fun r _ => ?_)
  rw [meanOf_scale, mul_inv, mul_inv]
  have : c * r.x - c * meanOf (rows.map (·.x)) = c * (r.x - meanOf (rows.map (·.x))) := by ring
  rw [this]
  field_simp

theorem firstMax_scale {k : K} (hk : 0 < k) (f : K → K) (l : List K) :
    firstMax (fun t => k * f t) l = (firstMax f l).map (fun p => (k * p.1, p.2)) := by
  induction l with
  | nil => rfl
  | cons t l ih =>
    simp only [firstMax]
    rw [ih]
    rcases firstMax f l with _ | ⟨b, u⟩
    · rfl
    · simp only [Option.map_some]
      by_cases h : b ≤ f t
      · rw [if_pos h, if_pos (mul_le_mul_of_nonneg_left h hk.le)]; rfl
      · rw [if_neg h, if_neg (fun h' => h (le_of_mul_le_mul_left h' hk))]; rfl

theorem leftLabels_scale (k : K) (rows : List (NRow K)) (labels : List K) (i : Nat) (t : K) :
    leftLabels rows (labels.map (fun g => k * g)) i t = (leftLabels rows labels i t).map (fun g => k * g) := by
  unfold leftLabels
  induction rows generalizing labels with
  | nil => rfl
  | cons r rows ih =>
    cases labels with
    | nil => rfl
    | cons g gs =>
      simp only [List.map_cons, List.zip_cons_cons, List.filter_cons]
      split
      · simp only [List.map_cons]; rw [ih]
      · exact ih gs

theorem improve_scale (k : K) (rows : List (NRow K)) (labels : List K) (i : Nat) (t : K) :
    improve rows (labels.map (fun g => k * g)) i t = k ^ 2 * improve rows labels i t := by
  unfold improve
  rw [leftLabels_scale, List.length_map, List.length_map]
  have h (l : List K) : (l.map (fun g => k * g)).sum = k * l.sum := by
    have := sum_scale k id l; simpa using this
  rw [h, h]
  ring

theorem bestOf_scale {k : K} (hk : k ≠ 0) (rows : List (NRow K)) (labels : List K) (i : Nat) :
    bestOf rows (labels.map (fun g => k * g)) i = (bestOf rows labels i).map (fun p => (k ^ 2 * p.1, p.2)) := by
  unfold bestOf
  split
  · rfl
  · rw [← firstMax_scale (sq_pos_of_ne_zero hk)]
    congr 1
    funext t
    exact improve_scale k rows labels i t

theorem splitOf_scale {k : K} (hk : k ≠ 0) (p : Nat) (rows : List (NRow K)) (labels : List K) :
    splitOf p rows (labels.map (fun g => k * g)) = splitOf p rows labels := by
  have key : ∀ (is : List Nat) (b : Option (K × Nat × K)),
      is.foldl (splitStep rows (labels.map (fun g => k * g))) (b.map (fun q => (k ^ 2 * q.1, q.2))) =
        (is.foldl (splitStep rows labels) b).map (fun q => (k ^ 2 * q.1, q.2)) := by
    intro is
    induction is with
    | nil => intro b; rfl
    | cons i is ih =>
      intro b
      simp only [List.foldl_cons]
      rw [← ih]
      congr 1
      unfold splitStep
      rw [bestOf_scale hk]
      rcases bestOf rows labels i with _ | m <;> rcases b with _ | b
      · rfl
      · rfl
      · rfl
      · simp only [Option.map_some]
        by_cases h : b.1 < m.1
        · rw [if_pos h, if_pos (mul_lt_mul_of_pos_left h (sq_pos_of_ne_zero hk))]; rfl
        · rw [if_neg h, if_neg (fun h' => h (lt_of_mul_lt_mul_left h' (sq_pos_of_ne_zero hk).le))]; rfl
  unfold splitOf
  have := key (List.range p) none
  simp only [Option.map_none] at this
  rw [this, Option.map_map]
  rfl

/-- **C160**: the labels by which a node is split are in units of the effect: measuring the outcome in another unit (factor `c`) multiplies
them by `c`, measuring the treatment in another unit divides them by it (without regularisation); neither changes the split that is chosen
for the node. -/
theorem C160_units {c : K} (hc : c ≠ 0) (eps : K) (p : Nat) (rows : List (NRow K)) :
    labelsOf eps (scaleY c rows) = (labelsOf eps rows).map (fun g => c * g) ∧
    labelsOf 0 (scaleX c rows) = (labelsOf 0 rows).map (fun g => g / c) ∧
    splitOf p rows (labelsOf eps (scaleY c rows)) = splitOf p rows (labelsOf eps rows) ∧
    splitOf p rows (labelsOf 0 (scaleX c rows)) = splitOf p rows (labelsOf 0 rows) := by
  refine ⟨labels_scaleY eps c rows, labels_scaleX hc rows, ?_, ?_⟩
  · rw [labels_scaleY, splitOf_scale hc]
  · rw [labels_scaleX hc]
    rw [show (fun g : K => g / c) = (fun g => c⁻¹ * g) from by funext g; rw [div_eq_mul_inv, mul_comm]]
    exact splitOf_scale (inv_ne_zero hc) p rows _

example : labelsOf (0 : ℚ) nBin ≠ List.replicate nBin.length 0 := by decide +kernel

end YL.Props
