import Verif.Model.UpliftPlot
import Mathlib.Tactic.Linarith
import Mathlib.Tactic.FieldSimp
import Mathlib.Tactic.NormNum
import Mathlib.Algebra.Order.Field.Basic
import Mathlib.Algebra.Order.BigOperators.Group.List
import Mathlib.Algebra.Field.Rat
import Mathlib.Algebra.Order.Ring.Rat

/-!
# C168: what the uplift plots show
-/

set_option linter.unusedSectionVars false

namespace YL.Spec

open YL UPlot

/-- a plotted line shows a curve: its points are points of the curve, from the first to the last, in order -/
structure Shows {V : Type} (df : List V) (pts : List (Nat × V)) : Prop where
  onCurve : ∀ p ∈ pts, df[p.1]? = some p.2
  order : (pts.map (fun p => p.1)).Pairwise (· < ·)
  first : ∃ v, pts.head? = some (0, v)
  last : ∃ v, pts.getLast? = some (df.length - 1, v)

end YL.Spec

namespace YL.Props

open YL Spec UPlot

theorem positions_lt {len n : Nat} (h : n < len) : ∀ i ∈ positions len n, i < len := by
  intro i hi
  unfold positions at hi
  obtain ⟨k, hk, rfl⟩ := List.mem_map.1 hi
  rw [List.mem_range] at hk
  split
  · omega
  · have h1 : k * (len - 1) / (n - 1) ≤ len - 1 := by
      apply Nat.div_le_of_le_mul
      exact Nat.mul_le_mul_right _ (by omega)
    omega

theorem filterMap_points {V : Type} (df : List V) (l : List Nat) (h : ∀ i ∈ l, i < df.length) :
    (l.filterMap (fun i => (df[i]?).map (fun v => (i, v)))).map (fun p => p.1) = l := by
  induction l with
  | nil => rfl
  | cons i l ih =>
    have hi := h i List.mem_cons_self
    rw [List.filterMap_cons, List.getElem?_eq_getElem hi]
    simp only [Option.map_some, List.map_cons]
    rw [ih (fun j hj => h j (List.mem_cons_of_mem _ hj))]

/-- **C168**: with more points than asked for, the plotted line has exactly `n_sample` points, shows the curve, and its points are evenly spread: a step between
neighbours is the average step rounded down or up -/
theorem C168_sample {V : Type} (df : List V) (n : Nat) (h2 : 2 ≤ n) (h : n < df.length) :
    ∃ pts, sample df n = .ok pts ∧ pts.length = n ∧ Shows df pts ∧
      ∀ (i a b : Nat) (v w : V), pts[i]? = some (a, v) → pts[i + 1]? = some (b, w) →
        (df.length - 1) / (n - 1) ≤ b - a ∧ b - a ≤ (df.length - 1) / (n - 1) + 1 := by
  have hmap := filterMap_points df (positions df.length n) (positions_lt h)
  refine ⟨_, if_pos h, ?_, ?_, ?_⟩
  · rw [← List.length_map (f := fun p : Nat × V => p.1), hmap]
    simp [positions]
  · have hstep : ∀ i j, i < j → i * (df.length - 1) / (n - 1) < j * (df.length - 1) / (n - 1) := by
      intro i j hij
      have h1 : (i + 1) * (df.length - 1) / (n - 1) ≤ j * (df.length - 1) / (n - 1) := Nat.div_le_div_right (Nat.mul_le_mul_right _ hij)
      have h3 : i * (df.length - 1) / (n - 1) + 1 ≤ (i + 1) * (df.length - 1) / (n - 1) := by
        rw [← Nat.add_div_right _ (by omega)]
        apply Nat.div_le_div_right
        rw [Nat.add_mul, Nat.one_mul]
        omega
      omega
    refine ⟨?_, ?_, ?_, ?_⟩
    · intro p hp
      obtain ⟨i, -, hi⟩ := List.mem_filterMap.1 hp
      cases hd : df[i]? with
      | none => rw [hd] at hi; cases hi
      | some v =>
        rw [hd] at hi
        simp only [Option.map_some, Option.some.injEq] at hi
        subst hi
        exact hd
    · rw [hmap]
      unfold positions
      have hn : n ≠ 1 := by omega
      simp only [if_neg hn]
      rw [List.pairwise_map]
      exact List.pairwise_lt_range.imp (fun {a b} hab => hstep a b hab)
    · have hh := congrArg List.head? hmap
      rw [List.head?_map] at hh
      have hp : (positions df.length n).head? = some 0 := by
        obtain ⟨m, rfl⟩ : ∃ m, n = m + 1 := ⟨n - 1, by omega⟩
        unfold positions
        rw [List.range_succ_eq_map]
        simp
      rw [hp] at hh
      cases hl : ((positions df.length n).filterMap (fun i => (df[i]?).map (fun v => (i, v)))).head? with
      | none => rw [hl] at hh; cases hh
      | some p =>
        rw [hl] at hh
        simp only [Option.map_some, Option.some.injEq] at hh
        exact ⟨p.2, by rw [← hh]⟩
    · have hh := congrArg List.getLast? hmap
      rw [List.getLast?_map] at hh
      have hp : (positions df.length n).getLast? = some (df.length - 1) := by
        obtain ⟨m, rfl⟩ : ∃ m, n = m + 1 := ⟨n - 1, by omega⟩
        unfold positions
        rw [List.range_succ, List.map_append, List.map_singleton, List.getLast?_concat, if_neg (by omega)]
        rw [Nat.add_sub_cancel, Nat.mul_div_cancel_left _ (by omega)]
      rw [hp] at hh
      cases hl : ((positions df.length n).filterMap (fun i => (df[i]?).map (fun v => (i, v)))).getLast? with
      | none => rw [hl] at hh; cases hh
      | some p =>
        rw [hl] at hh
        simp only [Option.map_some, Option.some.injEq] at hh
        exact ⟨p.2, by rw [← hh]⟩
  · intro i a b v w ha hb
    have pos : ∀ (j c : Nat) (u : V), ((positions df.length n).filterMap (fun i => (df[i]?).map (fun v => (i, v))))[j]? = some (c, u) →
        c = j * (df.length - 1) / (n - 1) := by
      intro j c u hj
      have := congrArg (fun l => l[j]?) hmap
      simp only [List.getElem?_map, hj, Option.map_some] at this
      unfold positions at this
      rw [List.getElem?_map] at this
      cases hr : (List.range n)[j]? with
      | none => rw [hr] at this; cases this
      | some k =>
        rw [hr] at this
        have hk : k = j := by
          have := List.getElem?_eq_some_iff.1 hr
          obtain ⟨_, e⟩ := this
          simpa using e.symm
        subst hk
        simp only [Option.map_some, Option.some.injEq] at this
        rw [this, if_neg (by omega)]
    rw [pos i a v ha, pos (i + 1) b w hb, Nat.add_mul, Nat.one_mul]
    generalize hL : df.length - 1 = L
    have hm : 0 < n - 1 := by omega
    generalize n - 1 = m at hm
    have e1 := Nat.add_div (a := i * L) (b := L) (c := m) hm
    rw [e1]
    generalize i * L / m = A
    generalize L / m = B
    have hi : (if m ≤ i * L % m + L % m then 1 else 0) ≤ 1 := by split <;> omega
    generalize (if m ≤ i * L % m + L % m then 1 else 0) = c at hi
    omega

/-- with no more points than `n_sample` nothing is drawn: with the default 100, the curves of test data with fewer than 100 rows (which have one point more than
rows) cannot be plotted -/
theorem C168_small_refuted {V : Type} (df : List V) (n : Nat) : sample df n = .error .assertion ↔ df.length ≤ n := by
  unfold sample
  split
  · constructor
    · intro h; cases h
    · intro h; omega
  · exact ⟨fun _ => by omega, fun _ => rfl⟩

variable {K : Type} [Field K] [LinearOrder K] [IsStrictOrderedRing K]

theorem meanOf_perm {l l' : List K} (h : l.Perm l') : meanOf l = meanOf l' := by
  unfold meanOf
  by_cases e : l = []
  · subst e
    rw [List.nil_perm.1 h]
  · have e' : l' ≠ [] := fun c => e (by subst c; exact List.perm_nil.1 h)
    rw [if_neg e, if_neg e', h.sum_eq, h.length_eq]

/-- the bars do not show the curve: they only depend on which values it takes, not on where. Every rearrangement of a curve gives the same picture -/
theorem C168_bars_refuted {x y : List K} (h : x.Perm y) (b : Nat) : split x b = split y b := by
  have he : edges x b = edges y b := by
    unfold edges
    have : x.insertionSort (· ≤ ·) = y.insertionSort (· ≤ ·) :=
      List.Perm.eq_of_pairwise (fun a b _ _ h1 h2 => le_antisymm h1 h2) (List.pairwise_insertionSort _ _) (List.pairwise_insertionSort _ _)
        (((List.perm_insertionSort _ x).trans h).trans (List.perm_insertionSort _ y).symm)
    rw [this]
  unfold split
  rw [he]
  split
  · congr 1
    apply List.map_congr_left
    intro k _
    exact meanOf_perm (h.filter _)
  · rfl

theorem mean_lt {l l' : List K} {m m' : K} (h : ∀ a ∈ l, ∀ b ∈ l', a < b) (h1 : meanOf l = some m) (h2 : meanOf l' = some m') : m < m' := by
  unfold meanOf at h1 h2
  split at h1
  · cases h1
  · split at h2
    · cases h2
    · rename_i e1 e2
      simp only [Option.some.injEq] at h1 h2
      subst h1 h2
      have up : ∀ (s : List K) (c : K), s ≠ [] → (∀ a ∈ s, a < c) → s.sum / ((s.length : Nat) : K) < c := by
        intro s c hs ha
        have hp : (0 : K) < ((s.length : Nat) : K) := by exact_mod_cast List.length_pos_of_ne_nil hs
        rw [div_lt_iff₀ hp]
        have key : ∀ (s : List K), s ≠ [] → (∀ a ∈ s, a < c) → s.sum < c * ((s.length : Nat) : K) := by
          intro s
          induction s with
          | nil => intro h; exact absurd rfl h
          | cons a s ih =>
            intro _ hb
            have h1 := hb a List.mem_cons_self
            rw [List.sum_cons, List.length_cons]
            push_cast
            by_cases hs : s = []
            · subst hs; simp; exact h1
            · have := ih hs (fun t ht => hb t (List.mem_cons_of_mem _ ht))
              linarith
        exact key s hs ha
      have down : ∀ (s : List K) (c : K), s ≠ [] → (∀ a ∈ s, c < a) → c < s.sum / ((s.length : Nat) : K) := by
        intro s c hs ha
        have hp : (0 : K) < ((s.length : Nat) : K) := by exact_mod_cast List.length_pos_of_ne_nil hs
        rw [lt_div_iff₀ hp]
        have key : ∀ (s : List K), s ≠ [] → (∀ a ∈ s, c < a) → c * ((s.length : Nat) : K) < s.sum := by
          intro s
          induction s with
          | nil => intro h; exact absurd rfl h
          | cons a s ih =>
            intro _ hb
            have h1 := hb a List.mem_cons_self
            rw [List.sum_cons, List.length_cons]
            push_cast
            by_cases hs : s = []
            · subst hs; simp; exact h1
            · have := ih hs (fun t ht => hb t (List.mem_cons_of_mem _ ht))
              linarith
        exact key s hs ha
      exact down l' _ e2 (fun b hb => up l b e1 (fun a ha => h a ha b hb))

/-- **C168**: the bars descend, whatever the curve: a model that ranks the population the wrong way round gets the same picture as one that ranks it right -/
theorem C168_bars_descend (x : List K) (b : Nat) (bars : List (Option K)) (h : split x b = .ok bars) : bars.length = b ∧
    ∀ (i j : Nat) (u v : K), i < j → bars[i]? = some (some u) → bars[j]? = some (some v) → v < u := by
  unfold split at h
  split at h
  case isFalse => cases h
  case isTrue =>
    simp only [Except.ok.injEq] at h
    subst h
    refine ⟨by simp, ?_⟩
    intro i j u v hij hu hv
    rw [List.getElem?_map] at hu hv
    have getr : ∀ (i : Nat) (w : K), Option.map (fun k => meanOf (x.filter (fun v => decide (binOf (edges x b) v = k)))) (List.range b).reverse[i]? = some (some w) →
        i < b ∧ meanOf (x.filter (fun v => decide (binOf (edges x b) v = b - 1 - i))) = some w := by
      intro i w hw
      cases hr : (List.range b).reverse[i]? with
      | none => rw [hr] at hw; cases hw
      | some k =>
        obtain ⟨hlt, hk⟩ := List.getElem?_eq_some_iff.1 hr
        rw [List.length_reverse, List.length_range] at hlt
        have hk' : k = b - 1 - i := by
          rw [List.getElem_reverse] at hk
          simp at hk
          omega
        rw [hr] at hw
        simp only [Option.map_some, Option.some.injEq] at hw
        subst hk'
        exact ⟨hlt, hw⟩
    obtain ⟨hi, hu'⟩ := getr i u hu
    obtain ⟨hj, hv'⟩ := getr j v hv
    refine mean_lt ?_ hv' hu'
    intro a ha c hc
    rw [List.mem_filter, decide_eq_true_eq] at ha hc
    by_contra hle
    rw [not_lt] at hle
    have hsub : ((edges x b).filter (fun e => decide (e < c))).length ≤ ((edges x b).filter (fun e => decide (e < a))).length := by
      rw [← List.countP_eq_length_filter, ← List.countP_eq_length_filter]
      apply List.countP_mono_left
      intro e _ he
      rw [decide_eq_true_eq] at he ⊢
      exact lt_of_lt_of_le he hle
    have h1 := ha.2
    have h2 := hc.2
    unfold binOf at h1 h2
    omega

theorem one_bin (b : Nat) : ∀ c, c < b → ((List.range b).map (fun k => if c = k then 1 else 0)).sum = 1 := by
  induction b with
  | zero => intro c h; omega
  | succ b ih =>
    intro c h
    rw [List.range_succ, List.map_append, List.sum_append]
    by_cases hc : c = b
    · subst hc
      have : ((List.range c).map (fun k => if c = k then 1 else 0)).sum = 0 := by
        apply List.sum_eq_zero
        intro z hz
        obtain ⟨k, hk, rfl⟩ := List.mem_map.1 hz
        rw [List.mem_range] at hk
        rw [if_neg (by omega)]
      rw [this]
      simp
    · rw [ih c (by omega)]
      simp [hc]

theorem bins_cover (f : K → Nat) (b : Nat) (x : List K) (h : ∀ v ∈ x, f v < b) :
    ((List.range b).map (fun k => (x.filter (fun v => decide (f v = k))).length)).sum = x.length := by
  induction x with
  | nil => simp
  | cons v x ih =>
    have e : (List.range b).map (fun k => ((v :: x).filter (fun v => decide (f v = k))).length) =
        (List.range b).map (fun k => (if f v = k then 1 else 0) + (x.filter (fun v => decide (f v = k))).length) := by
      apply List.map_congr_left
      intro k _
      by_cases hk : f v = k
      · simp [hk]; omega
      · simp [hk]
    rw [e, List.sum_map_add, ih (fun a ha => h a (List.mem_cons_of_mem _ ha)), one_bin b _ (h v List.mem_cons_self), List.length_cons]
    omega

theorem top_edge (x : List K) (b : Nat) (hb : 0 < b) : ∀ v ∈ x, v ≤ quantile (x.insertionSort (· ≤ ·)) b b := by
  intro v hv
  have hs := List.pairwise_insertionSort (· ≤ ·) x
  have hm : v ∈ x.insertionSort (· ≤ ·) := (List.perm_insertionSort _ x).mem_iff.2 hv
  generalize x.insertionSort (· ≤ ·) = s at hs hm
  unfold quantile
  simp only
  rw [Nat.mul_div_cancel_left _ hb, Nat.mul_mod_right]
  simp only [Nat.cast_zero, zero_div, zero_mul, add_zero]
  obtain ⟨i, hi, rfl⟩ := List.getElem_of_mem hm
  have hl : s.length - 1 < s.length := by omega
  rw [List.getD_eq_getElem?_getD, List.getElem?_eq_getElem hl, Option.getD_some]
  rcases Nat.lt_or_ge i (s.length - 1) with h | h
  · exact List.pairwise_iff_getElem.1 hs i (s.length - 1) hi hl h
  · have : i = s.length - 1 := by omega
    subst this
    exact le_refl _

/-- **C168**: every value lies in exactly one of the `b` bins: nothing of the curve is left out of the bars or counted twice -/
theorem C168_bars_partition (x : List K) (b : Nat) (hb : 0 < b) :
    ((List.range b).map (fun k => (x.filter (fun v => decide (binOf (edges x b) v = k))).length)).sum = x.length := by
  apply bins_cover
  intro v hv
  unfold binOf
  have hlen : (edges x b).length = b + 1 := by simp [edges]
  have hlt : ((edges x b).filter (fun e => decide (e < v))).length < (edges x b).length := by
    rw [List.length_filter_lt_length_iff_exists]
    refine ⟨quantile (x.insertionSort (· ≤ ·)) b b, ?_, ?_⟩
    · unfold edges
      exact List.mem_map.2 ⟨b, List.mem_range.2 (by omega), rfl⟩
    · have := top_edge x b hb v hv
      simpa using this
  omega

/-- a rising and a falling curve: the same picture; the first half of the first has the mean 3/2, its first bar is 7/2 -/
example : split [1, 2, 3, (4 : ℚ)] 2 = .ok [some (7 / 2), some (3 / 2)] ∧ split [4, 3, 2, (1 : ℚ)] 2 = .ok [some (7 / 2), some (3 / 2)] := by decide +kernel

/-- a curve with many equal values is refused -/
example : split [1, 1, 1, (4 : ℚ)] 2 = .error .value := by decide +kernel

example : sample [10, 11, 12, 13, 14, 15] 3 = .ok [(0, 10), (2, 12), (5, 15)] := by decide +kernel

end YL.Props
