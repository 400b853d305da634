import Verif.Model.Median
import Mathlib.Tactic.Linarith
import Mathlib.Tactic.Ring
import Mathlib.Tactic.FieldSimp
import Mathlib.Algebra.Field.Rat
import Mathlib.Data.Rat.Defs
import Mathlib.Algebra.Order.Ring.Rat

/-!
# C174: the running weighted median is the weighted median, and MAE measures absolute deviations

Specification: the weighted median of a collection of records, defined by the weights below and
above; the best constant for absolute deviations.
-/
set_option linter.unusedSectionVars false

namespace YL.Props
open YL.Med

variable {K : Type} [Field K] [LinearOrder K] [IsStrictOrderedRing K]

/-! ## Specification -/

/-- The total weight of records. -/
def wsum (M : List (K × K)) : K := (M.map Prod.snd).sum

/-- The weight of the values up to `x`. -/
def weightUpTo (M : List (K × K)) (x : K) : K := wsum (M.filter (fun r => r.1 ≤ x))

/-- The weight of the values from `x` on. -/
def weightFrom (M : List (K × K)) (x : K) : K := wsum (M.filter (fun r => x ≤ r.1))

/-- `lo` is the smallest value up to which there is half of the weight. -/
def LowerMedian (M : List (K × K)) (lo : K) : Prop :=
  (lo ∈ M.map Prod.fst ∧ wsum M / 2 ≤ weightUpTo M lo) ∧
  ∀ x ∈ M.map Prod.fst, wsum M / 2 ≤ weightUpTo M x → lo ≤ x

/-- `hi` is the largest value from which on there is half of the weight. -/
def UpperMedian (M : List (K × K)) (hi : K) : Prop :=
  (hi ∈ M.map Prod.fst ∧ wsum M / 2 ≤ weightFrom M hi) ∧
  ∀ x ∈ M.map Prod.fst, wsum M / 2 ≤ weightFrom M x → x ≤ hi

/-- The weighted median: the middle between the lower and the upper median. -/
def WeightedMedian (M : List (K × K)) (m : K) : Prop :=
  ∃ lo hi, LowerMedian M lo ∧ UpperMedian M hi ∧ m = (lo + hi) / 2

/-- The weighted absolute deviation from `c`. -/
def absDev (M : List (K × K)) (c : K) : K := (M.map (fun r => |r.1 - c| * r.2)).sum

/-- The histories of a calculator, the records it then ought to hold, and its state: `push`es
with positive weight, and `remove`s and `pop`s of records that it holds, for which the removed
value is not the median of that moment or all weights are the same. -/
inductive History : List (K × K) → Option (St K) → Prop
  | new : History [] (some empty)
  | push {M s} (d w : K) : History M (some s) → 0 < w → History ((d, w) :: M) (push s d w)
  | remove {M s} (d w : K) : History ((d, w) :: M) (some s) →
      (¬ WeightedMedian ((d, w) :: M) d ∨ ∀ r ∈ M, r.2 = w) → History M (remove s d w)
  | pop {M s} (d w : K) : History ((d, w) :: M) (some s) → (∀ r ∈ M, d ≤ r.1) →
      (((∀ r ∈ M, d < r.1) ∧ ¬ WeightedMedian ((d, w) :: M) d) ∨ ∀ r ∈ M, r.2 = w) →
      History M ((pop s).map Prod.snd)
  | perm {M M' s} : History M s → M.Perm M' → History M' s

/-- The records of samples. -/
def recordsOf (y wt : Nat → K) (is : List Nat) : List (K × K) := is.map (fun i => (y i, wt i))

/-- The total weight of samples. -/
def weightOf (wt : Nat → K) (is : List Nat) : K := (is.map wt).sum

/-- The histories of the criterion at a node: the present order of the node's samples, the
position of the split, and the criterion's state.  The splitter may reorder the samples before a
`reset`, and `update` moves the split to the right. -/
inductive MaeHistory (y wt : Nat → K) (node : List Nat) :
    List Nat → Nat → Option (Mae K) → Prop
  | init (xs : List Nat) : xs.Perm node → MaeHistory y wt node xs 0 (init y wt xs)
  | reset {xs p c} (xs' : List Nat) : MaeHistory y wt node xs p (some c) → xs'.Perm node →
      MaeHistory y wt node xs' 0 (Med.reset (reorder c xs'))
  | update {xs p c} (p' : Nat) : MaeHistory y wt node xs p (some c) → p ≤ p' →
      p' ≤ node.length → MaeHistory y wt node xs p' (update y wt c p')

/-! ## Helpers -/

theorem wsum_cons (r : K × K) (M : List (K × K)) : wsum (r :: M) = r.2 + wsum M := by
  simp [wsum]

theorem wsum_append (a b : List (K × K)) : wsum (a ++ b) = wsum a + wsum b := by
  simp [wsum]

theorem wsum_perm {a b : List (K × K)} (h : a.Perm b) : wsum a = wsum b :=
  (h.map _).sum_eq

theorem wsum_nonneg (a : List (K × K)) (h : ∀ r ∈ a, 0 < r.2) : 0 ≤ wsum a := by
  induction a with
  | nil => simp [wsum]
  | cons r a ih =>
    rw [wsum_cons]
    have := ih (fun q hq => h q (List.mem_cons_of_mem _ hq))
    have := h r (List.mem_cons_self ..)
    linarith

theorem wsum_pos (a : List (K × K)) (h : ∀ r ∈ a, 0 < r.2) (hne : a ≠ []) : 0 < wsum a := by
  cases a with
  | nil => exact absurd rfl hne
  | cons r a =>
    rw [wsum_cons]
    have := wsum_nonneg a (fun q hq => h q (List.mem_cons_of_mem _ hq))
    have := h r (List.mem_cons_self ..)
    linarith

/-- Where `push` puts a record. -/
theorem bubble_spec (x : K × K) (l : List (K × K)) :
    ∃ a b, l = a ++ b ∧ bubble x l = a ++ x :: b ∧ (∀ r ∈ a, x.1 < r.1) ∧
      ∀ r, b.head? = some r → r.1 ≤ x.1 := by
  induction l with
  | nil => exact ⟨[], [], rfl, rfl, by simp, by simp⟩
  | cons y l ih =>
    by_cases h : x.1 < y.1
    · obtain ⟨a, b, e, f, g, k⟩ := ih
      refine ⟨y :: a, b, by rw [e]; rfl, ?_, ?_, k⟩
      · simp only [bubble, if_pos h, f]; rfl
      · intro r hr
        rcases List.mem_cons.mp hr with rfl | hr
        · exact h
        · exact g r hr
    · refine ⟨[], y :: l, rfl, ?_, by simp, ?_⟩
      · simp only [bubble, if_neg h]; rfl
      · intro r hr
        simp only [List.head?_cons, Option.some.injEq] at hr
        subst hr
        exact not_lt.mp h

/-- Sorted by value. -/
def Sorted1 (l : List (K × K)) : Prop := l.Pairwise (fun a b => a.1 ≤ b.1)

theorem pushQ_spec (l : List (K × K)) (hs : Sorted1 l) (x : K × K) :
    ∃ a b, l = a ++ b ∧ pushQ l x = a ++ x :: b ∧ (∀ r ∈ a, r.1 ≤ x.1) ∧ ∀ r ∈ b, x.1 < r.1 := by
  obtain ⟨a, b, e, f, g, k⟩ := bubble_spec x l.reverse
  have el : l = b.reverse ++ a.reverse := by
    rw [← List.reverse_append, ← e, List.reverse_reverse]
  refine ⟨b.reverse, a.reverse, el, ?_, ?_, ?_⟩
  · unfold pushQ; rw [f]; simp
  · intro r hr
    cases b with
    | nil => simp at hr
    | cons q b =>
      have hq := k q rfl
      rw [List.mem_reverse] at hr
      rcases List.mem_cons.mp hr with rfl | hr
      · exact hq
      · rw [el, List.reverse_cons] at hs
        have h1 := (List.pairwise_append.mp (List.pairwise_append.mp hs).1).2.2 r
          (List.mem_reverse.mpr hr) q (by simp)
        exact le_trans h1 hq
  · intro r hr
    exact g r (List.mem_reverse.mp hr)

theorem sorted_insert (a b : List (K × K)) (x : K × K) (hs : Sorted1 (a ++ b))
    (ha : ∀ r ∈ a, r.1 ≤ x.1) (hb : ∀ r ∈ b, x.1 < r.1) : Sorted1 (a ++ x :: b) := by
  unfold Sorted1 at *
  rw [List.pairwise_append] at hs ⊢
  refine ⟨hs.1, List.pairwise_cons.mpr ⟨fun r hr => (hb r hr).le, hs.2.1⟩, ?_⟩
  intro r hr q hq
  rcases List.mem_cons.mp hq with rfl | hq
  · exact ha r hr
  · exact hs.2.2 r hr q hq

theorem sorted_erase (a b : List (K × K)) (x : K × K) (hs : Sorted1 (a ++ x :: b)) :
    Sorted1 (a ++ b) :=
  hs.sublist (List.Sublist.append (List.Sublist.refl a) (List.sublist_cons_self x b))

theorem removeQ_spec (d w : K) (l : List (K × K)) (h : (d, w) ∈ l) :
    ∃ a b, l = a ++ (d, w) :: b ∧ removeQ d w l = a ++ b := by
  induction l with
  | nil => cases h
  | cons r l ih =>
    by_cases hr : r.1 = d ∧ r.2 = w
    · refine ⟨[], l, ?_, ?_⟩
      · obtain ⟨r1, r2⟩ := r
        obtain ⟨h1, h2⟩ := hr
        simp only at h1 h2
        subst h1 h2; rfl
      · simp only [removeQ]; rw [if_pos hr]; rfl
    · have : (d, w) ∈ l := by
        rcases List.mem_cons.mp h with rfl | h
        · exact absurd ⟨rfl, rfl⟩ hr
        · exact h
      obtain ⟨a, b, e, f⟩ := ih this
      refine ⟨r :: a, b, by rw [e]; rfl, ?_⟩
      simp only [removeQ]; rw [if_neg hr, f]; rfl

theorem wsum_take_succ (l : List (K × K)) (k : Nat) (r : K × K) (h : l[k]? = some r) :
    wsum (l.take (k + 1)) = wsum (l.take k) + r.2 := by
  rw [List.take_succ, h, wsum_append]
  simp [wsum]

/-- What `k` and `sum` should be. -/
def Cut (l : List (K × K)) (T : K) (k : Nat) (s : K) : Prop :=
  1 ≤ k ∧ k ≤ l.length ∧ s = wsum (l.take k) ∧ T / 2 ≤ s ∧ wsum (l.take (k - 1)) < T / 2

theorem medShrink_spec (l : List (K × K)) (T : K) (hT : 0 < T) (k : Nat) (s : K) (h1 : 1 ≤ k)
    (h2 : k ≤ l.length) (hs : s = wsum (l.take k)) (hh : T / 2 ≤ s) :
    ∃ k' s', shrink l T k s = some (k', s') ∧ Cut l T k' s' := by
  induction k generalizing s with
  | zero => omega
  | succ k ih =>
    cases k with
    | zero =>
      refine ⟨1, s, rfl, le_refl _, h2, hs, hh, ?_⟩
      simp only [List.take_zero, wsum, List.map_nil, List.sum_nil, Nat.sub_self]
      linarith
    | succ k =>
      have hk : l[k + 1]? = some l[k + 1] := List.getElem?_eq_getElem (by omega)
      simp only [shrink]
      rw [hk]
      simp only
      have ht := wsum_take_succ l (k + 1) _ hk
      by_cases hc : s - (l[k + 1]).2 ≥ T / 2
      · rw [if_pos hc]
        exact ih _ (by omega) (by omega) (by rw [hs, ht]; ring) hc
      · rw [if_neg hc]
        refine ⟨k + 2, s, rfl, by omega, h2, hs, hh, ?_⟩
        have : k + 2 - 1 = k + 1 := by omega
        rw [this]
        have : s = wsum (l.take (k + 1)) + (l[k + 1]).2 := by rw [hs, ← ht]
        push Not at hc
        linarith

theorem grow_spec (l : List (K × K)) (T : K) (hT : T / 2 ≤ wsum l) (hl : 0 < T) (k : Nat) (s : K)
    (h2 : k ≤ l.length) (hs : s = wsum (l.take k))
    (hm : (1 ≤ k ∧ wsum (l.take (k - 1)) < T / 2) ∨ s < T / 2) :
    ∃ k' s', grow T (l.drop k) k s = (k', s') ∧ Cut l T k' s' := by
  generalize hn : l.length - k = n
  induction n generalizing k s with
  | zero =>
    have hk : k = l.length := by omega
    subst hk
    rw [List.drop_length]
    rw [List.take_length] at hs
    refine ⟨l.length, s, rfl, ?_, le_refl _, by rw [List.take_length]; exact hs, by rw [hs]; exact hT,
      ?_⟩
    · rcases hm with h | h
      · exact h.1
      · rw [hs] at h; exact absurd hT (not_le.mpr h)
    · rcases hm with h | h
      · exact h.2
      · rw [hs] at h; exact absurd hT (not_le.mpr h)
  | succ n ih =>
    have hk : k < l.length := by omega
    rw [List.drop_eq_getElem_cons hk]
    simp only [grow]
    have ht := wsum_take_succ l k _ (List.getElem?_eq_getElem hk)
    by_cases hc : s < T / 2
    · rw [if_pos hc]
      refine ih (k + 1) _ (by omega) (by rw [ht, hs]) (Or.inl ⟨by omega, ?_⟩) (by omega)
      rw [Nat.add_sub_cancel, ← hs]; exact hc
    · rw [if_neg hc]
      rcases hm with h | h
      · exact ⟨k, s, rfl, h.1, h2, hs, not_lt.mp hc, h.2⟩
      · exact absurd h hc

/-- The invariant of the calculator. -/
def MedGood (M : List (K × K)) (s : St K) : Prop :=
  s.samples.Perm M ∧ Sorted1 s.samples ∧ (∀ r ∈ M, 0 < r.2) ∧
  (M ≠ [] → s.total = wsum M ∧ Cut s.samples s.total s.k s.sum)

theorem getMedian_cases (s : St K) (hp : ∀ r ∈ s.samples, 0 < r.2) (ht : s.total = wsum s.samples)
    (hc : Cut s.samples s.total s.k s.sum) :
    ∃ r, s.samples[s.k - 1]? = some r ∧
      ((s.total / 2 < s.sum ∧ getMedian s = some r.1) ∨
       (s.sum = s.total / 2 ∧ ∃ q, s.samples[s.k]? = some q ∧
          getMedian s = some ((q.1 + r.1) / 2))) := by
  obtain ⟨h1, h2, hs, hh, hl⟩ := hc
  have hr : s.samples[s.k - 1]? = some s.samples[s.k - 1] := List.getElem?_eq_getElem (by omega)
  refine ⟨_, hr, ?_⟩
  have hk0 : s.k ≠ 0 := by omega
  by_cases he : s.sum = s.total / 2
  · right
    refine ⟨he, ?_⟩
    have hT : 0 < s.total := by
      rw [ht]; apply wsum_pos _ hp
      intro e; rw [e] at h2; simp at h2; omega
    have hlt : s.k < s.samples.length := by
      by_contra hge
      have : s.k = s.samples.length := by omega
      rw [this, List.take_length, ← ht] at hs
      rw [hs] at he
      linarith
    refine ⟨_, List.getElem?_eq_getElem hlt, ?_⟩
    unfold getMedian before
    rw [if_pos he, if_neg hk0, hr, List.getElem?_eq_getElem hlt]
  · left
    have : s.total / 2 < s.sum := lt_of_le_of_ne hh (Ne.symm he)
    refine ⟨this, ?_⟩
    unfold getMedian before
    rw [if_neg he, if_pos this, if_neg hk0, hr]
    rfl

theorem mem_left {a b : List (K × K)} {i : Nat} {r : K × K} (h : (a ++ b)[i]? = some r)
    (hi : i < a.length) : r ∈ a := by
  rw [List.getElem?_append_left hi] at h
  exact List.mem_of_getElem? h

theorem mem_right {a b : List (K × K)} {i : Nat} {r : K × K} (h : (a ++ b)[i]? = some r)
    (hi : a.length ≤ i) : r ∈ b := by
  rw [List.getElem?_append_right hi] at h
  exact List.mem_of_getElem? h

theorem wsum_take_insert (a b : List (K × K)) (x : K × K) (k : Nat) (h : a.length ≤ k) :
    wsum ((a ++ x :: b).take (k + 1)) = wsum ((a ++ b).take k) + x.2 := by
  have e : k + 1 - a.length = (k - a.length) + 1 := by omega
  rw [List.take_append, List.take_append, e, List.take_succ_cons, wsum_append, wsum_append,
    wsum_cons, List.take_of_length_le (by omega), List.take_of_length_le h]
  ring

theorem take_insert_le (a b : List (K × K)) (x : K × K) (k : Nat) (h : k ≤ a.length) :
    (a ++ x :: b).take k = (a ++ b).take k := by
  rw [List.take_append_of_le_length h, List.take_append_of_le_length h]

theorem wsum_insert (a b : List (K × K)) (x : K × K) :
    wsum (a ++ x :: b) = wsum (a ++ b) + x.2 := by
  rw [wsum_append, wsum_append, wsum_cons]; ring

theorem push_good (M : List (K × K)) (s : St K) (hg : MedGood M s) (d w : K) (hw : 0 < w) :
    ∃ s', push s d w = some s' ∧ MedGood ((d, w) :: M) s' := by
  obtain ⟨hperm, hsort, hpos, hrest⟩ := hg
  have hpos' : ∀ r ∈ (d, w) :: M, 0 < r.2 := by
    intro r hr
    rcases List.mem_cons.mp hr with rfl | hr
    · exact hw
    · exact hpos r hr
  obtain ⟨a, b, e, f, ga, gb⟩ := pushQ_spec s.samples hsort (d, w)
  have hperm' : (a ++ (d, w) :: b).Perm ((d, w) :: M) := by
    refine List.perm_middle.trans ?_
    exact List.Perm.cons _ (by rw [← e]; exact hperm)
  have hsort' : Sorted1 (a ++ (d, w) :: b) := sorted_insert a b _ (by rw [← e]; exact hsort) ga gb
  have htot : wsum ((d, w) :: M) = wsum s.samples + w := by
    rw [wsum_cons, wsum_perm hperm]; ring
  by_cases hM : M = []
  · subst hM
    have hl : s.samples = [] := List.Perm.eq_nil hperm
    have hab : a = [] ∧ b = [] := by
      rw [hl] at e
      exact List.append_eq_nil_iff.mp e.symm
    obtain ⟨rfl, rfl⟩ := hab
    refine ⟨⟨[(d, w)], 1, w, w⟩, ?_, by simp, by simp [Sorted1], hpos', ?_⟩
    · unfold push oldMedian
      rw [if_pos hl]
      simp only [postPush, f]
      rfl
    · intro _
      refine ⟨by simp [wsum], le_refl _, by simp, by simp [wsum], by linarith, ?_⟩
      simp only [Nat.sub_self, List.take_zero, wsum, List.map_nil, List.sum_nil]
      linarith
  · have hne : s.samples ≠ [] := by
      intro hl; rw [hl] at hperm; exact hM hperm.symm.eq_nil
    obtain ⟨ht, hc⟩ := hrest hM
    have hpl : ∀ r ∈ s.samples, 0 < r.2 := fun r hr => hpos r (hperm.subset hr)
    have ht' : s.total = wsum s.samples := by rw [ht, wsum_perm hperm]
    obtain ⟨r, hr, hcase⟩ := getMedian_cases s hpl ht' hc
    obtain ⟨h1, h2, hs, hh, hlow⟩ := hc
    have hT : 0 < s.total := by rw [ht']; exact wsum_pos _ hpl hne
    have hlen : ¬ (a ++ (d, w) :: b).length = 1 := by
      have : s.samples.length = a.length + b.length := by rw [e]; simp
      simp only [List.length_append, List.length_cons]
      omega
    obtain ⟨m, hm, hlt, hge⟩ : ∃ m, getMedian s = some m ∧ (d < m → a.length ≤ s.k) ∧
        (¬ d < m → s.k ≤ a.length) := by
      rw [e] at hr
      rcases hcase with ⟨_, hm⟩ | ⟨_, q, hq, hm⟩
      · refine ⟨_, hm, ?_, ?_⟩
        · intro hd
          by_contra hlt
          exact absurd (ga r (mem_left hr (by omega))) (not_le.mpr hd)
        · intro hd
          by_contra hlt
          exact hd (gb r (mem_right hr (by omega)))
      · refine ⟨_, hm, ?_, ?_⟩
        · intro hd
          by_contra hlt
          rw [e] at hq
          have h1 := ga r (mem_left hr (by omega))
          have h2 := ga q (mem_left hq (by omega))
          simp only at h1 h2
          linarith
        · intro hd
          by_contra hlt
          rw [e] at hq
          have h1 := gb r (mem_right hr (by omega))
          have h2 := gb q (mem_right hq (by omega))
          simp only at h1 h2
          apply hd
          linarith
    have hold : oldMedian s = some m := by unfold oldMedian; rw [if_neg hne, hm]
    have hw2 : 0 < s.total + w := by linarith
    by_cases hd : d < m
    · have hp := hlt hd
      obtain ⟨k', s', hsh, hcut⟩ := medShrink_spec (a ++ (d, w) :: b) (s.total + w) hw2 (s.k + 1)
        (s.sum + w) (by omega) (by rw [e] at h2; simp at h2 ⊢; omega)
        (by rw [wsum_take_insert a b _ _ hp, ← e, hs]) (by linarith)
      refine ⟨⟨a ++ (d, w) :: b, k', s.total + w, s'⟩, ?_, hperm', hsort', hpos', ?_⟩
      · unfold push
        rw [hold]
        simp only [postPush, f]
        rw [if_neg hlen, if_pos hd, hsh]
        rfl
      · intro _
        exact ⟨by rw [htot]; simp only; rw [ht'], hcut⟩
    · have hp := hge hd
      obtain ⟨k', s', hsh, hcut⟩ := grow_spec (a ++ (d, w) :: b) (s.total + w)
        (by rw [wsum_insert, ← e, ← ht']; simp only; linarith) hw2 s.k s.sum
        (by simp; omega) (by rw [take_insert_le a b _ _ hp, ← e, hs])
        (Or.inl ⟨h1, by rw [take_insert_le a b _ _ (by omega), ← e]; linarith⟩)
      refine ⟨⟨a ++ (d, w) :: b, k', s.total + w, s'⟩, ?_, hperm', hsort', hpos', ?_⟩
      · unfold push
        rw [hold]
        simp only [postPush, f]
        rw [if_neg hlen, if_neg hd, hsh]
      · intro _
        exact ⟨by rw [htot]; simp only; rw [ht'], hcut⟩

theorem wsum_filter_le (M : List (K × K)) (h : ∀ r ∈ M, 0 < r.2) (p : K × K → Bool) :
    wsum (M.filter p) ≤ wsum M := by
  induction M with
  | nil => simp
  | cons r M ih =>
    have := ih (fun q hq => h q (List.mem_cons_of_mem _ hq))
    have := h r (List.mem_cons_self ..)
    rw [List.filter_cons]
    split
    · rw [wsum_cons, wsum_cons]; linarith
    · rw [wsum_cons]; linarith

theorem lower_of_split (a b : List (K × K)) (r : K × K) (hs : Sorted1 (a ++ r :: b))
    (hp : ∀ q ∈ a ++ r :: b, 0 < q.2) (h1 : wsum a < wsum (a ++ r :: b) / 2)
    (h2 : wsum (a ++ r :: b) / 2 ≤ wsum a + r.2) : LowerMedian (a ++ r :: b) r.1 := by
  obtain ⟨T, hT⟩ : ∃ T, T = wsum (a ++ r :: b) := ⟨_, rfl⟩
  unfold LowerMedian
  rw [← hT] at h1 h2 ⊢
  unfold Sorted1 at hs
  rw [List.pairwise_append, List.pairwise_cons] at hs
  obtain ⟨_, ⟨hb, _⟩, hab⟩ := hs
  have hpa : ∀ q ∈ a, 0 < q.2 := fun q hq => hp q (List.mem_append_left _ hq)
  have hpb : ∀ q ∈ b, 0 < q.2 := fun q hq => hp q (by simp [hq])
  refine ⟨⟨by simp, ?_⟩, ?_⟩
  · unfold weightUpTo
    rw [List.filter_append, wsum_append, List.filter_cons_of_pos (by simp), wsum_cons]
    rw [List.filter_eq_self.mpr (fun q hq => by simpa using hab q hq r (List.mem_cons_self ..))]
    have := wsum_nonneg (b.filter (fun q => q.1 ≤ r.1))
      (fun q hq => hpb q (List.mem_of_mem_filter hq))
    linarith
  · intro x _ hx
    by_contra hlt
    push Not at hlt
    unfold weightUpTo at hx
    rw [List.filter_append, wsum_append] at hx
    have e : (r :: b).filter (fun q => q.1 ≤ x) = [] := by
      rw [List.filter_eq_nil_iff]
      intro q hq
      simp only [decide_eq_true_eq, not_le]
      rcases List.mem_cons.mp hq with rfl | hq
      · exact hlt
      · exact lt_of_lt_of_le hlt (hb q hq)
    rw [e] at hx
    have := wsum_filter_le a hpa (fun q => q.1 ≤ x)
    have e0 : wsum ([] : List (K × K)) = 0 := by simp [wsum]
    rw [e0] at hx
    linarith

theorem upper_of_split (a b : List (K × K)) (r : K × K) (hs : Sorted1 (a ++ r :: b))
    (hp : ∀ q ∈ a ++ r :: b, 0 < q.2) (h1 : wsum b < wsum (a ++ r :: b) / 2)
    (h2 : wsum (a ++ r :: b) / 2 ≤ r.2 + wsum b) : UpperMedian (a ++ r :: b) r.1 := by
  obtain ⟨T, hT⟩ : ∃ T, T = wsum (a ++ r :: b) := ⟨_, rfl⟩
  unfold UpperMedian
  rw [← hT] at h1 h2 ⊢
  unfold Sorted1 at hs
  rw [List.pairwise_append, List.pairwise_cons] at hs
  obtain ⟨_, ⟨hb, _⟩, hab⟩ := hs
  have hpa : ∀ q ∈ a, 0 < q.2 := fun q hq => hp q (List.mem_append_left _ hq)
  have hpb : ∀ q ∈ b, 0 < q.2 := fun q hq => hp q (by simp [hq])
  refine ⟨⟨by simp, ?_⟩, ?_⟩
  · unfold weightFrom
    rw [List.filter_append, wsum_append, List.filter_cons_of_pos (by simp), wsum_cons]
    rw [List.filter_eq_self (l := b).mpr (fun q hq => by simpa using hb q hq)]
    have := wsum_nonneg (a.filter (fun q => r.1 ≤ q.1))
      (fun q hq => hpa q (List.mem_of_mem_filter hq))
    linarith
  · intro x _ hx
    by_contra hlt
    push Not at hlt
    unfold weightFrom at hx
    have e : a.filter (fun q => x ≤ q.1) = [] := by
      rw [List.filter_eq_nil_iff]
      intro q hq
      simp only [decide_eq_true_eq, not_le]
      exact lt_of_le_of_lt (hab q hq r (List.mem_cons_self ..)) hlt
    rw [List.filter_append, wsum_append, e, List.filter_cons_of_neg (by simpa using hlt)] at hx
    have := wsum_filter_le b hpb (fun q => x ≤ q.1)
    have e0 : wsum ([] : List (K × K)) = 0 := by simp [wsum]
    rw [e0] at hx
    linarith

theorem split_at (l : List (K × K)) (i : Nat) (r : K × K) (h : l[i]? = some r) :
    l = l.take i ++ r :: l.drop (i + 1) := by
  obtain ⟨hi, hr⟩ := List.getElem?_eq_some_iff.mp h
  have := List.drop_eq_getElem_cons hi
  rw [hr] at this
  rw [← this, List.take_append_drop]

theorem weightedMedian_of_cut (s : St K) (hsort : Sorted1 s.samples)
    (hp : ∀ r ∈ s.samples, 0 < r.2) (ht : s.total = wsum s.samples)
    (hc : Cut s.samples s.total s.k s.sum) :
    ∃ m, getMedian s = some m ∧ WeightedMedian s.samples m := by
  obtain ⟨r, hr, hcase⟩ := getMedian_cases s hp ht hc
  obtain ⟨h1, h2, hs, hh, hlow⟩ := hc
  have e1 := split_at s.samples _ r hr
  have hk : s.k - 1 + 1 = s.k := by omega
  rw [hk] at e1
  have hsum : wsum (s.samples.take (s.k - 1)) + r.2 = s.sum := by
    have := wsum_take_succ s.samples _ r hr
    rw [hk, ← hs] at this
    exact this.symm
  have htd : s.sum + wsum (s.samples.drop s.k) = s.total := by
    rw [ht, hs, ← wsum_append, List.take_append_drop]
  have lower : LowerMedian s.samples r.1 := by
    have := lower_of_split (s.samples.take (s.k - 1)) (s.samples.drop s.k) r
    rw [← e1, hsum, ← ht] at this
    exact this hsort hp hlow hh
  rcases hcase with ⟨hlt, hm⟩ | ⟨heq, q, hq, hm⟩
  · refine ⟨_, hm, r.1, r.1, lower, ?_, by ring⟩
    have := upper_of_split (s.samples.take (s.k - 1)) (s.samples.drop s.k) r
    rw [← e1, ← ht] at this
    exact this hsort hp (by linarith) (by linarith)
  · refine ⟨_, hm, r.1, q.1, lower, ?_, by ring⟩
    have e2 := split_at s.samples _ q hq
    have hq2 : 0 < q.2 := hp q (List.mem_of_getElem? hq)
    have hd : wsum (s.samples.drop s.k) = q.2 + wsum (s.samples.drop (s.k + 1)) := by
      obtain ⟨hi, hr⟩ := List.getElem?_eq_some_iff.mp hq
      rw [List.drop_eq_getElem_cons hi, wsum_cons, hr]
    have := upper_of_split (s.samples.take s.k) (s.samples.drop (s.k + 1)) q
    rw [← e2, ← ht] at this
    exact this hsort hp (by linarith) (by linarith)

theorem weightUpTo_perm {a b : List (K × K)} (h : a.Perm b) (x : K) :
    weightUpTo a x = weightUpTo b x := wsum_perm (h.filter _)

theorem weightFrom_perm {a b : List (K × K)} (h : a.Perm b) (x : K) :
    weightFrom a x = weightFrom b x := wsum_perm (h.filter _)

theorem weightedMedian_perm {a b : List (K × K)} (h : a.Perm b) {m : K}
    (hm : WeightedMedian a m) : WeightedMedian b m := by
  obtain ⟨lo, hi, ⟨⟨l1, l2⟩, l3⟩, ⟨⟨u1, u2⟩, u3⟩, e⟩ := hm
  have hmem : ∀ x, x ∈ b.map Prod.fst ↔ x ∈ a.map Prod.fst :=
    fun x => (h.map Prod.fst).mem_iff.symm
  refine ⟨lo, hi, ⟨⟨(hmem _).mpr l1, ?_⟩, ?_⟩, ⟨⟨(hmem _).mpr u1, ?_⟩, ?_⟩, e⟩
  · rw [← wsum_perm h, ← weightUpTo_perm h]; exact l2
  · intro x hx; rw [← wsum_perm h, ← weightUpTo_perm h]; exact l3 x ((hmem _).mp hx)
  · rw [← wsum_perm h, ← weightFrom_perm h]; exact u2
  · intro x hx; rw [← wsum_perm h, ← weightFrom_perm h]; exact u3 x ((hmem _).mp hx)

theorem good_median (M : List (K × K)) (s : St K) (hg : MedGood M s) (hne : M ≠ []) :
    ∃ m, getMedian s = some m ∧ WeightedMedian M m := by
  obtain ⟨hperm, hsort, hpos, hrest⟩ := hg
  obtain ⟨ht, hc⟩ := hrest hne
  obtain ⟨m, h1, h2⟩ := weightedMedian_of_cut s hsort (fun r hr => hpos r (hperm.subset hr))
    (by rw [ht, wsum_perm hperm]) hc
  exact ⟨m, h1, weightedMedian_perm hperm h2⟩

theorem wsum_uniform (l : List (K × K)) (w : K) (h : ∀ r ∈ l, r.2 = w) :
    wsum l = l.length * w := by
  induction l with
  | nil => simp [wsum]
  | cons r l ih =>
    rw [wsum_cons, ih (fun q hq => h q (List.mem_cons_of_mem _ hq)), h r (List.mem_cons_self ..)]
    simp only [List.length_cons, Nat.cast_add, Nat.cast_one]
    ring

theorem postRemove_good (M : List (K × K)) (s : St K) (d w : K) (hg : MedGood ((d, w) :: M) s)
    (a b : List (K × K)) (e : s.samples = a ++ (d, w) :: b)
    (hcond : ¬ WeightedMedian ((d, w) :: M) d ∨ ∀ r ∈ M, r.2 = w) :
    ∃ m s', oldMedian s = some m ∧
      postRemove { s with samples := a ++ b } d w m = some s' ∧ MedGood M s' := by
  obtain ⟨m, hm, hwm⟩ := good_median _ s hg (by simp)
  obtain ⟨hperm, hsort, hpos, hrest⟩ := hg
  obtain ⟨ht, hc⟩ := hrest (by simp)
  have hne : s.samples ≠ [] := by rw [e]; simp
  have hw : 0 < w := hpos (d, w) (List.mem_cons_self ..)
  have hposM : ∀ r ∈ M, 0 < r.2 := fun r hr => hpos r (List.mem_cons_of_mem _ hr)
  have hperm' : (a ++ b).Perm M := by
    rw [e] at hperm
    exact List.Perm.cons_inv (List.perm_middle.symm.trans hperm)
  have hsort' : Sorted1 (a ++ b) := sorted_erase a b _ (by rw [← e]; exact hsort)
  have hpl : ∀ r ∈ s.samples, 0 < r.2 := fun r hr => hpos r (hperm.subset hr)
  have ht' : s.total = wsum s.samples := by rw [ht, wsum_perm hperm]
  have hT' : s.total - w = wsum (a ++ b) := by rw [ht', e, wsum_insert]; ring
  have hTM : s.total - w = wsum M := by rw [hT', wsum_perm hperm']
  obtain ⟨r, hr, hcase⟩ := getMedian_cases s hpl ht' hc
  obtain ⟨h1, h2, hs, hh, hlow⟩ := hc
  have hlen : s.samples.length = (a ++ b).length + 1 := by rw [e]; simp; omega
  refine ⟨m, ?_⟩
  by_cases hl0 : (a ++ b).length = 0
  · refine ⟨⟨a ++ b, 0, 0, 0⟩, by unfold oldMedian; rw [if_neg hne, hm], ?_, hperm', hsort', hposM,
      ?_⟩
    · unfold postRemove; rw [if_pos hl0]
    · intro hM
      exact absurd (by
        have := hperm'.length_eq; rw [hl0] at this
        exact List.length_eq_zero_iff.mp this.symm) hM
  have hT0 : 0 < s.total - w := by
    rw [hTM]; apply wsum_pos _ hposM
    intro hM; rw [hM] at hperm'; exact hl0 (by rw [hperm'.length_eq]; rfl)
  by_cases hl1 : (a ++ b).length = 1
  · refine ⟨⟨a ++ b, 1, s.total - w, s.total - w⟩, by unfold oldMedian; rw [if_neg hne, hm], ?_,
      hperm', hsort', hposM, ?_⟩
    · unfold postRemove; rw [if_neg hl0, if_pos hl1]
    · intro _
      refine ⟨hTM, le_refl _, by rw [hl1], ?_, by linarith, ?_⟩
      · rw [List.take_of_length_le (by rw [hl1])]; exact hT'
      · simp only [Nat.sub_self, List.take_zero, wsum, List.map_nil, List.sum_nil]
        linarith
  have hold : oldMedian s = some m := by unfold oldMedian; rw [if_neg hne, hm]
  -- positions
  have hdr : ∀ (i : Nat) (v : K × K), s.samples[i]? = some v → i ≤ a.length → v.1 ≤ d := by
    intro i v hv hi
    rw [e] at hv
    rcases Nat.lt_or_eq_of_le hi with hi | hi
    · have := mem_left hv hi
      have hs2 := hsort; rw [e] at hs2
      exact (List.pairwise_append.mp hs2).2.2 v this (d, w) (List.mem_cons_self ..)
    · subst hi
      simp at hv; rw [← hv]
  have hdl : ∀ (i : Nat) (v : K × K), s.samples[i]? = some v → a.length ≤ i → d ≤ v.1 := by
    intro i v hv hi
    rw [e] at hv
    have := mem_right hv hi
    rcases List.mem_cons.mp this with rfl | this
    · exact le_refl _
    · have hs2 := hsort; rw [e] at hs2
      exact (List.pairwise_cons.mp (List.pairwise_append.mp hs2).2.1).1 v this
  have hlt : d < m → a.length ≤ s.k - 1 := by
    intro hd
    by_contra hge
    rcases hcase with ⟨_, hm'⟩ | ⟨_, q, hq, hm'⟩
    · rw [hm] at hm'; injection hm' with hm'
      have := hdr _ r hr (by omega)
      linarith
    · rw [hm] at hm'; injection hm' with hm'
      have := hdr _ r hr (by omega)
      have := hdr _ q hq (by omega)
      linarith
  have hgt : m < d → s.k ≤ a.length := by
    intro hd
    by_contra hge
    rcases hcase with ⟨_, hm'⟩ | ⟨_, q, hq, hm'⟩
    · rw [hm] at hm'; injection hm' with hm'
      have := hdl _ r hr (by omega)
      linarith
    · rw [hm] at hm'; injection hm' with hm'
      have := hdl _ r hr (by omega)
      have := hdl _ q hq (by omega)
      linarith
  by_cases hd : d < m
  · have hp := hlt hd
    have htk : wsum ((a ++ b).take (s.k - 1)) = s.sum - w := by
      have := wsum_take_insert a b (d, w) (s.k - 1) hp
      rw [show s.k - 1 + 1 = s.k by omega, ← e, ← hs] at this
      rw [this]; ring
    have hmin : (1 ≤ s.k - 1 ∧ wsum ((a ++ b).take (s.k - 1 - 1)) < (s.total - w) / 2) ∨
        s.sum - w < (s.total - w) / 2 := by
      by_cases hk : s.k - 1 = a.length
      · right
        have : wsum (s.samples.take (s.k - 1)) = wsum ((a ++ b).take (s.k - 1)) := by
          rw [e, take_insert_le a b _ _ (by omega)]
        rw [this, htk] at hlow
        have hle : s.sum = s.total / 2 := by
          rcases hcase with ⟨_, hm'⟩ | ⟨he, _⟩
          · rw [hm] at hm'; injection hm' with hm'
            have := hdl _ r hr (by omega)
            have := hdr _ r hr (by omega)
            linarith
          · exact he
        linarith
      · left
        refine ⟨by omega, ?_⟩
        have := wsum_take_insert a b (d, w) (s.k - 1 - 1) (by omega)
        rw [show s.k - 1 - 1 + 1 = s.k - 1 by omega, ← e] at this
        simp only at this
        linarith
    obtain ⟨k', s', hgr, hcut⟩ := grow_spec (a ++ b) (s.total - w) (by rw [← hT']; linarith) hT0
      (s.k - 1) (s.sum - w) (by omega) htk.symm hmin
    refine ⟨⟨a ++ b, k', s.total - w, s'⟩, hold, ?_, hperm', hsort', hposM, fun _ => ⟨hTM, hcut⟩⟩
    unfold postRemove
    rw [if_neg hl0, if_neg hl1, if_pos hd, if_neg (by simp only; omega)]
    simp only
    rw [hgr]
  · have hkey : s.k ≤ (a ++ b).length ∧ wsum ((a ++ b).take s.k) = s.sum := by
      by_cases hk : s.k ≤ a.length
      · refine ⟨by simp; omega, ?_⟩
        rw [hs, e, take_insert_le a b _ _ hk]
      · have hdm : d = m := by
          rcases lt_trichotomy d m with h | h | h
          · exact absurd h hd
          · exact h
          · exact absurd (hgt h) hk
        have hu : ∀ r ∈ M, r.2 = w := by
          rcases hcond with h | h
          · rw [hdm] at h; exact absurd (hdm ▸ hwm) h
          · exact h
        have hul : ∀ r ∈ s.samples, r.2 = w := by
          intro r hr
          rcases List.mem_cons.mp (hperm.subset hr) with rfl | h
          · rfl
          · exact hu r h
        have hn : s.k < s.samples.length := by
          rw [wsum_uniform _ w (fun r hr => hul r (List.mem_of_mem_take hr)), ht',
            wsum_uniform _ w hul, List.length_take, Nat.min_eq_left (by omega)] at hlow
          by_contra hge
          have hk2 : s.samples.length = s.k := by omega
          rw [hk2] at hlow
          have h3 : 3 ≤ s.k := by omega
          have h3' : ((3 : Nat) : K) ≤ (s.k : K) := Nat.cast_le.mpr h3
          rw [Nat.cast_sub h1] at hlow
          push_cast at h3' hlow
          have : (s.k : K) * w * 2 - 2 * w < (s.k : K) * w := by linarith
          have h4 : 3 * w ≤ (s.k : K) * w := mul_le_mul_of_nonneg_right h3' hw.le
          linarith
        have hk3 : s.k ≤ (a ++ b).length := by omega
        refine ⟨hk3, ?_⟩
        rw [hs, wsum_uniform _ w (fun r hr => hul r (List.mem_of_mem_take hr)),
          wsum_uniform _ w (fun r hr => hu r (hperm'.subset (List.mem_of_mem_take hr))),
          List.length_take, List.length_take, Nat.min_eq_left hk3, Nat.min_eq_left h2]
    obtain ⟨k', s', hsh, hcut⟩ := medShrink_spec (a ++ b) (s.total - w) hT0 s.k s.sum h1 hkey.1
      hkey.2.symm (by linarith)
    refine ⟨⟨a ++ b, k', s.total - w, s'⟩, hold, ?_, hperm', hsort', hposM, fun _ => ⟨hTM, hcut⟩⟩
    unfold postRemove
    rw [if_neg hl0, if_neg hl1, if_neg hd]
    simp only
    rw [hsh]
    rfl

theorem remove_good (M : List (K × K)) (s : St K) (d w : K) (hg : MedGood ((d, w) :: M) s)
    (hcond : ¬ WeightedMedian ((d, w) :: M) d ∨ ∀ r ∈ M, r.2 = w) :
    ∃ s', remove s d w = some s' ∧ MedGood M s' := by
  obtain ⟨a, b, e, f⟩ := removeQ_spec d w s.samples (hg.1.symm.subset (List.mem_cons_self ..))
  obtain ⟨m, s', h1, h2, h3⟩ := postRemove_good M s d w hg a b e hcond
  refine ⟨s', ?_, h3⟩
  unfold remove
  rw [h1]
  simp only [f]
  exact h2

theorem pop_good (M : List (K × K)) (s : St K) (d w : K) (hg : MedGood ((d, w) :: M) s)
    (hmin : ∀ r ∈ M, d ≤ r.1)
    (hcond : ((∀ r ∈ M, d < r.1) ∧ ¬ WeightedMedian ((d, w) :: M) d) ∨ ∀ r ∈ M, r.2 = w) :
    ∃ s', pop s = some ((d, w), s') ∧ MedGood M s' := by
  cases hl : s.samples with
  | nil =>
    have := hg.1
    rw [hl] at this
    exact absurd this.symm.eq_nil (by simp)
  | cons r rs =>
    have hr : r = (d, w) := by
      have hmem : r ∈ (d, w) :: M := hg.1.subset (by rw [hl]; exact List.mem_cons_self ..)
      have hmem2 : (d, w) ∈ r :: rs := by
        rw [← hl]; exact hg.1.symm.subset (List.mem_cons_self ..)
      have hle : r.1 ≤ d := by
        rcases List.mem_cons.mp hmem2 with h | h
        · rw [← h]
        · have := hg.2.1; rw [hl] at this
          exact (List.pairwise_cons.mp this).1 _ h
      rcases List.mem_cons.mp hmem with h | h
      · exact h
      · rcases hcond with ⟨h2, _⟩ | h2
        · exact absurd (h2 r h) (not_lt.mpr hle)
        · exact Prod.ext (le_antisymm hle (hmin r h)) (h2 r h)
    subst hr
    obtain ⟨m, s', h1, h2, h3⟩ := postRemove_good M s d w hg [] rs (by rw [hl]; rfl) (by
      rcases hcond with h | h
      · exact Or.inl h.2
      · exact Or.inr h)
    refine ⟨s', ?_, h3⟩
    unfold pop
    rw [h1]
    simp only [hl]
    rw [List.nil_append] at h2
    rw [h2]
    rfl

theorem empty_good : MedGood ([] : List (K × K)) empty :=
  ⟨List.Perm.refl _, List.Pairwise.nil, by simp, fun h => absurd rfl h⟩

theorem medGood_perm {M M' : List (K × K)} {s : St K} (hg : MedGood M s) (h : M.Perm M') :
    MedGood M' s := by
  obtain ⟨h1, h2, h3, h4⟩ := hg
  refine ⟨h1.trans h, h2, fun r hr => h3 r (h.symm.subset hr), fun hne => ?_⟩
  have : M ≠ [] := by rintro rfl; exact hne h.symm.eq_nil
  rw [← wsum_perm h]
  exact h4 this

theorem history_good (M : List (K × K)) (o : Option (St K)) (h : History M o) :
    ∃ s, o = some s ∧ MedGood M s := by
  induction h with
  | new => exact ⟨empty, rfl, empty_good⟩
  | push d w _ hw ih =>
    obtain ⟨s, e, hg⟩ := ih
    injection e with e; subst e
    exact push_good _ _ hg d w hw
  | remove d w _ hc ih =>
    obtain ⟨s, e, hg⟩ := ih
    injection e with e; subst e
    exact remove_good _ _ d w hg hc
  | pop d w _ hmin hc ih =>
    obtain ⟨s, e, hg⟩ := ih
    injection e with e; subst e
    obtain ⟨s', h1, h2⟩ := pop_good _ _ d w hg hmin hc
    exact ⟨s', by rw [h1]; rfl, h2⟩
  | perm _ hp ih =>
    obtain ⟨s, e, hg⟩ := ih
    exact ⟨s, e, medGood_perm hg hp⟩

/-! ## Theorems -/

/-- **C174.** After every history of pushes, removals and pops in which no removed value is the
median of that moment, or all weights are the same, the calculator reads no memory outside of
its records, its number of records is right, and `get_median` is the weighted median of the
records it holds. -/
theorem C174_median_partial (M : List (K × K)) (o : Option (St K)) (h : History M o) :
    ∃ s, o = some s ∧ s.samples.length = M.length ∧
      (M ≠ [] → ∃ m, getMedian s = some m ∧ WeightedMedian M m) := by
  obtain ⟨s, e, hg⟩ := history_good M o h
  exact ⟨s, e, hg.1.length_eq, good_median M s hg⟩

/-- With pushes alone, of any positive weights: the weighted median. -/
theorem C174_pushes (y wt : Nat → K) (is : List Nat) (hne : is ≠ []) (hw : ∀ i ∈ is, 0 < wt i) :
    ∃ s m, pushAll y wt is empty = some s ∧ getMedian s = some m ∧
      WeightedMedian (is.map (fun i => (y i, wt i))) m := by
  have key : ∀ (is : List Nat) (M : List (K × K)) (s : St K), MedGood M s → (∀ i ∈ is, 0 < wt i) →
      ∃ s', pushAll y wt is s = some s' ∧ MedGood (is.map (fun i => (y i, wt i)) ++ M) s' := by
    intro is
    induction is with
    | nil => intro M s hg _; exact ⟨s, rfl, hg⟩
    | cons i is ih =>
      intro M s hg hw
      obtain ⟨s1, h1, g1⟩ := push_good M s hg (y i) (wt i) (hw i (List.mem_cons_self ..))
      obtain ⟨s2, h2, g2⟩ := ih _ s1 g1 (fun j hj => hw j (List.mem_cons_of_mem _ hj))
      refine ⟨s2, ?_, medGood_perm g2 ?_⟩
      · simp only [pushAll, h1]; exact h2
      · exact List.perm_middle
  obtain ⟨s, h1, hg⟩ := key is [] empty empty_good hw
  rw [List.append_nil] at hg
  obtain ⟨m, hm, hwm⟩ := good_median _ s hg (by simpa using hne)
  exact ⟨s, m, h1, hm, hwm⟩

/-- The weighted median is the best constant for weighted absolute deviations. -/
theorem C174_best_constant (M : List (K × K)) (hp : ∀ r ∈ M, 0 < r.2) (m : K)
    (h : WeightedMedian M m) (c : K) : absDev M m ≤ absDev M c := by
  obtain ⟨lo, hi, ⟨⟨l1, l2⟩, l3⟩, ⟨⟨u1, u2⟩, u3⟩, e⟩ := h
  have cover : ∀ (N : List (K × K)) (x z : K), (∀ r ∈ N, 0 < r.2) →
      (∀ r ∈ N, r.1 ≤ x ∨ z ≤ r.1) → wsum N ≤ weightUpTo N x + weightFrom N z := by
    intro N x z
    induction N with
    | nil => intro _ _; simp [wsum, weightUpTo, weightFrom]
    | cons r N ih =>
      intro hp hc
      have := ih (fun q hq => hp q (List.mem_cons_of_mem _ hq))
        (fun q hq => hc q (List.mem_cons_of_mem _ hq))
      have hr := hp r (List.mem_cons_self ..)
      have hcr := hc r (List.mem_cons_self ..)
      unfold weightUpTo weightFrom at this ⊢
      rw [List.filter_cons, List.filter_cons, wsum_cons]
      by_cases h1 : r.1 ≤ x <;> by_cases h2 : z ≤ r.1
      · simp only [h1, h2, decide_true, if_true, wsum_cons]; linarith
      · simp only [h1, h2, decide_true, decide_false, if_true, wsum_cons]; simp; linarith
      · simp only [h1, h2, decide_true, decide_false, if_true, wsum_cons]; simp; linarith
      · exact absurd hcr (by tauto)
  have hlohi : lo ≤ hi := by
    by_contra hlt
    push Not at hlt
    have a1 : weightFrom M lo < wsum M / 2 := by
      by_contra h; exact absurd (u3 lo l1 (not_lt.mp h)) (not_le.mpr hlt)
    have a2 : weightUpTo M hi < wsum M / 2 := by
      by_contra h; exact absurd (l3 hi u1 (not_lt.mp h)) (not_le.mpr hlt)
    by_cases hex : ∃ r ∈ M, hi < r.1 ∧ r.1 < lo
    · obtain ⟨r, hr, h1, h2⟩ := hex
      have hmem : r.1 ∈ M.map Prod.fst := List.mem_map_of_mem hr
      have b1 : weightFrom M r.1 < wsum M / 2 := by
        by_contra h; exact absurd (u3 _ hmem (not_lt.mp h)) (not_le.mpr h1)
      have b2 : weightUpTo M r.1 < wsum M / 2 := by
        by_contra h; exact absurd (l3 _ hmem (not_lt.mp h)) (not_le.mpr h2)
      have := cover M r.1 r.1 hp (fun q _ => le_total _ _)
      linarith
    · have := cover M hi lo hp (fun q hq => by
        by_contra h
        push Not at h
        exact hex ⟨q, hq, h⟩)
      linarith
  have mono1 : ∀ (N : List (K × K)) (x z : K), (∀ r ∈ N, 0 < r.2) → x ≤ z →
      weightUpTo N x ≤ weightUpTo N z ∧ weightFrom N z ≤ weightFrom N x := by
    intro N x z
    induction N with
    | nil => intro _ _; simp [weightUpTo, weightFrom]
    | cons r N ih =>
      intro hp hxz
      have := ih (fun q hq => hp q (List.mem_cons_of_mem _ hq)) hxz
      have hr := hp r (List.mem_cons_self ..)
      unfold weightUpTo weightFrom at this ⊢
      simp only [List.filter_cons]
      constructor
      · by_cases h1 : r.1 ≤ x
        · have h2 : r.1 ≤ z := le_trans h1 hxz
          simp only [h1, h2, decide_true, if_true, wsum_cons]; linarith
        · by_cases h2 : r.1 ≤ z
          · simp only [h1, h2, decide_true, decide_false, if_true, wsum_cons]; simp; linarith
          · simp only [h1, h2, decide_false]; simp; linarith
      · by_cases h1 : z ≤ r.1
        · have h2 : x ≤ r.1 := le_trans hxz h1
          simp only [h1, h2, decide_true, if_true, wsum_cons]; linarith
        · by_cases h2 : x ≤ r.1
          · simp only [h1, h2, decide_true, decide_false, if_true, wsum_cons]; simp; linarith
          · simp only [h1, h2, decide_false]; simp; linarith
  have up : ∀ (N : List (K × K)), (∀ r ∈ N, 0 < r.2) → m ≤ c →
      absDev N m + (c - m) * (2 * weightUpTo N m - wsum N) ≤ absDev N c := by
    intro N
    induction N with
    | nil => intro _ _; simp [absDev, weightUpTo, wsum]
    | cons r N ih =>
      intro hp hmc
      have := ih (fun q hq => hp q (List.mem_cons_of_mem _ hq)) hmc
      have hr := hp r (List.mem_cons_self ..)
      unfold absDev weightUpTo at this ⊢
      rw [List.filter_cons, wsum_cons, List.map_cons, List.map_cons, List.sum_cons, List.sum_cons]
      by_cases h1 : r.1 ≤ m
      · simp only [h1, decide_true, if_true, wsum_cons]
        rw [abs_of_nonpos (by linarith), abs_of_nonpos (by linarith)]
        linarith
      · simp only [h1, decide_false]
        have h2 : |r.1 - m| - (c - m) ≤ |r.1 - c| := by
          rw [abs_of_pos (by linarith)]
          have := le_abs_self (r.1 - c)
          linarith
        have h3 := mul_le_mul_of_nonneg_right h2 hr.le
        simp only [Bool.false_eq_true, if_false]
        linarith
  have down : ∀ (N : List (K × K)), (∀ r ∈ N, 0 < r.2) → c ≤ m →
      absDev N m + (m - c) * (2 * weightFrom N m - wsum N) ≤ absDev N c := by
    intro N
    induction N with
    | nil => intro _ _; simp [absDev, weightFrom, wsum]
    | cons r N ih =>
      intro hp hmc
      have := ih (fun q hq => hp q (List.mem_cons_of_mem _ hq)) hmc
      have hr := hp r (List.mem_cons_self ..)
      unfold absDev weightFrom at this ⊢
      rw [List.filter_cons, wsum_cons, List.map_cons, List.map_cons, List.sum_cons, List.sum_cons]
      by_cases h1 : m ≤ r.1
      · simp only [h1, decide_true, if_true, wsum_cons]
        rw [abs_of_nonneg (by linarith), abs_of_nonneg (by linarith)]
        linarith
      · simp only [h1, decide_false]
        have h2 : |r.1 - m| - (m - c) ≤ |r.1 - c| := by
          rw [abs_of_nonpos (by linarith)]
          have := neg_abs_le (r.1 - c)
          linarith
        have h3 := mul_le_mul_of_nonneg_right h2 hr.le
        simp only [Bool.false_eq_true, if_false]
        linarith
  rcases le_total m c with hc | hc
  · have h1 := up M hp hc
    have h2 := (mono1 M lo m hp (by rw [e]; linarith)).1
    have h3 : 0 ≤ (c - m) * (2 * weightUpTo M m - wsum M) :=
      mul_nonneg (by linarith) (by linarith)
    linarith
  · have h1 := down M hp hc
    have h2 := (mono1 M m hi hp (by rw [e]; linarith)).2
    have h3 : 0 ≤ (m - c) * (2 * weightFrom M m - wsum M) :=
      mul_nonneg (by linarith) (by linarith)
    linarith

/-! ### The criterion -/

theorem good_empty_inv {M : List (K × K)} {s : St K} (hg : MedGood M s) (h : s.samples = []) :
    M = [] := by
  have := hg.1; rw [h] at this; exact this.symm.eq_nil

theorem pour_good (w : K) (hw : 0 < w) (n : Nat) (A B : List (K × K)) (a b : St K)
    (ha : MedGood A a) (hb : MedGood B b) (hA : ∀ r ∈ A, r.2 = w) (hn : a.samples.length = n) :
    ∃ a' b', pour n a b = some (a', b') ∧ MedGood [] a' ∧ MedGood (A ++ B) b' := by
  induction n generalizing A B a b with
  | zero =>
    have hl : a.samples = [] := List.length_eq_zero_iff.mp hn
    have := good_empty_inv ha hl
    subst this
    exact ⟨a, b, rfl, ha, hb⟩
  | succ n ih =>
    cases hl : a.samples with
    | nil => rw [hl] at hn; cases hn
    | cons r rs =>
      have hperm : A.Perm (r :: rs) := by rw [← hl]; exact ha.1.symm
      have hg := medGood_perm ha hperm
      have hu : ∀ q ∈ r :: rs, q.2 = w := fun q hq => hA q (hperm.symm.subset hq)
      have hr : r.2 = w := hu r (List.mem_cons_self ..)
      have hs := ha.2.1
      rw [hl] at hs
      obtain ⟨a1, h1, g1⟩ := pop_good rs a r.1 r.2 hg (List.pairwise_cons.mp hs).1
        (Or.inr fun q hq => by rw [hu q (List.mem_cons_of_mem _ hq), hr])
      obtain ⟨b1, h2, g2⟩ := push_good B b hb r.1 r.2 (by rw [hr]; exact hw)
      have hlen : a1.samples.length = n := by
        rw [g1.1.length_eq]
        rw [hl, List.length_cons] at hn
        omega
      obtain ⟨a2, b2, h3, g3, g4⟩ := ih rs ((r.1, r.2) :: B) a1 b1 g1 g2
        (fun q hq => hu q (List.mem_cons_of_mem _ hq)) hlen
      refine ⟨a2, b2, ?_, g3, medGood_perm g4 ?_⟩
      · simp only [pour, h1, h2]; exact h3
      · refine List.perm_middle.trans ?_
        exact (List.Perm.append_right B hperm).symm

theorem recordsOf_append (y wt : Nat → K) (a b : List Nat) :
    recordsOf y wt (a ++ b) = recordsOf y wt a ++ recordsOf y wt b := by simp [recordsOf]

theorem recordsOf_perm (y wt : Nat → K) {a b : List Nat} (h : a.Perm b) :
    (recordsOf y wt a).Perm (recordsOf y wt b) := h.map _

theorem moveAll_good (y wt : Nat → K) (w : K) (hw : 0 < w) (is : List Nat)
    (A B : List (K × K)) (a b : St K) (ha : MedGood (recordsOf y wt is ++ A) a) (hb : MedGood B b)
    (hA : ∀ r ∈ A, r.2 = w) (hi : ∀ i ∈ is, wt i = w) :
    ∃ a' b', moveAll y wt is a b = some (a', b') ∧ MedGood A a' ∧
      MedGood (recordsOf y wt is ++ B) b' := by
  induction is generalizing B a b with
  | nil => exact ⟨a, b, rfl, ha, hb⟩
  | cons i is ih =>
    have hwi := hi i (List.mem_cons_self ..)
    obtain ⟨a1, h1, g1⟩ := remove_good (recordsOf y wt is ++ A) a (y i) (wt i) ha (Or.inr (by
      intro r hr
      rcases List.mem_append.mp hr with hr | hr
      · obtain ⟨j, hj, rfl⟩ := List.mem_map.mp hr
        simp only
        rw [hi j (List.mem_cons_of_mem _ hj), hwi]
      · rw [hA r hr, hwi]))
    obtain ⟨b1, h2, g2⟩ := push_good B b hb (y i) (wt i) (by rw [hwi]; exact hw)
    obtain ⟨a2, b2, h3, g3, g4⟩ := ih ((y i, wt i) :: B) a1 b1 g1 g2
      (fun j hj => hi j (List.mem_cons_of_mem _ hj))
    refine ⟨a2, b2, ?_, g3, medGood_perm g4 ?_⟩
    · simp only [moveAll, h1, h2]; exact h3
    · exact List.perm_middle

/-- The invariant of the criterion. -/
def MaeGood (y wt : Nat → K) (node xs : List Nat) (p : Nat) (c : Mae K) : Prop :=
  xs.Perm node ∧ p ≤ xs.length ∧ c.samples = xs ∧ c.pos = p ∧
  MedGood (recordsOf y wt (xs.take p)) c.left ∧ MedGood (recordsOf y wt (xs.drop p)) c.right ∧
  c.wNode = weightOf wt node ∧ c.wLeft = weightOf wt (xs.take p) ∧
  c.wRight = weightOf wt (xs.drop p) ∧ WeightedMedian (recordsOf y wt node) c.median

theorem weightOf_append (wt : Nat → K) (a b : List Nat) :
    weightOf wt (a ++ b) = weightOf wt a + weightOf wt b := by simp [weightOf]

theorem weightOf_perm (wt : Nat → K) {a b : List Nat} (h : a.Perm b) :
    weightOf wt a = weightOf wt b := (h.map _).sum_eq

theorem uniform_records (y wt : Nat → K) (w : K) (is : List Nat) (h : ∀ i ∈ is, wt i = w) :
    ∀ r ∈ recordsOf y wt is, r.2 = w := by
  intro r hr
  obtain ⟨i, hi, rfl⟩ := List.mem_map.mp hr
  exact h i hi

theorem mae_good (y wt : Nat → K) (w : K) (hw : 0 < w) (node : List Nat) (hne : node ≠ [])
    (hu : ∀ i ∈ node, wt i = w) (xs : List Nat) (p : Nat) (o : Option (Mae K))
    (h : MaeHistory y wt node xs p o) : ∃ c, o = some c ∧ MaeGood y wt node xs p c := by
  induction h with
  | init xs hx =>
    have hux : ∀ i ∈ xs, wt i = w := fun i hi => hu i (hx.subset hi)
    have key : ∀ (is : List Nat) (M : List (K × K)) (s : St K), MedGood M s →
        (∀ i ∈ is, 0 < wt i) →
        ∃ s', pushAll y wt is s = some s' ∧ MedGood (recordsOf y wt is ++ M) s' := by
      intro is
      induction is with
      | nil => intro M s hg _; exact ⟨s, rfl, hg⟩
      | cons i is ih =>
        intro M s hg hw
        obtain ⟨s1, h1, g1⟩ := push_good M s hg (y i) (wt i) (hw i (List.mem_cons_self ..))
        obtain ⟨s2, h2, g2⟩ := ih _ s1 g1 (fun j hj => hw j (List.mem_cons_of_mem _ hj))
        refine ⟨s2, ?_, medGood_perm g2 List.perm_middle⟩
        simp only [pushAll, h1]; exact h2
    obtain ⟨s, h1, hg⟩ := key xs [] empty empty_good (fun i hi => by rw [hux i hi]; exact hw)
    rw [List.append_nil] at hg
    have hxne : xs ≠ [] := by rintro rfl; exact hne hx.symm.eq_nil
    obtain ⟨m, hm, hwm⟩ := good_median _ s hg (by simpa [recordsOf] using hxne)
    refine ⟨⟨xs, 0, empty, s, (xs.map wt).sum, 0, (xs.map wt).sum, m⟩, ?_, hx, Nat.zero_le _, rfl,
      rfl, empty_good, hg, ?_, ?_, ?_, weightedMedian_perm (recordsOf_perm y wt hx) hwm⟩
    · unfold Med.init
      rw [h1]
      simp only [hm]
      rfl
    · exact weightOf_perm wt hx
    · simp [weightOf]
    · simp [weightOf]
  | @reset xs p c xs' _ hx ih =>
    obtain ⟨c', e, h0, hp, h1, h2, h3, h4, h5, h6, h7, h8⟩ := ih
    injection e with e; subst e
    have hxx : xs.Perm xs' := h0.trans hx.symm
    obtain ⟨a', b', e1, g1, g2⟩ := pour_good w hw c.left.samples.length _ _ c.left c.right h3 h4
      (uniform_records y wt w _ (fun i hi => hu i (h0.subset (List.mem_of_mem_take hi)))) rfl
    rw [← recordsOf_append, List.take_append_drop] at g2
    refine ⟨⟨xs', 0, a', b', c.wNode, 0, c.wNode, c.median⟩, ?_, hx, Nat.zero_le _, ?_, ?_, ?_, ?_, ?_,
      ?_, ?_, ?_⟩
    · unfold Med.reset reorder
      simp only
      rw [e1]
      rfl
    · rfl
    · rfl
    · exact g1
    · exact medGood_perm g2 (recordsOf_perm y wt hxx)
    · exact h5
    · simp [weightOf]
    · simp only [List.drop_zero]
      rw [h5, weightOf_perm wt hx]
    · exact h8
  | @update xs p c p' _ hpp hp' ih =>
    obtain ⟨c', e, h0, hp, h1, h2, h3, h4, h5, h6, h7, h8⟩ := ih
    injection e with e; subst e
    have hlen : xs.length = node.length := h0.length_eq
    have hux : ∀ i ∈ xs, wt i = w := fun i hi => hu i (h0.subset hi)
    have hmid : xs.drop p = (xs.drop p).take (p' - p) ++ xs.drop p' := by
      conv_lhs => rw [← List.take_append_drop (p' - p) (xs.drop p)]
      rw [List.drop_drop, show p + (p' - p) = p' by omega]
    have hleft : xs.take p' = xs.take p ++ (xs.drop p).take (p' - p) := by
      rw [← List.take_add, show p + (p' - p) = p' by omega]
    have htot : weightOf wt node = weightOf wt (xs.take p') + weightOf wt (xs.drop p') := by
      rw [← weightOf_append, List.take_append_drop, weightOf_perm wt h0]
    by_cases hdir : p' - c.pos ≤ c.samples.length - p'
    · have hdir2 := hdir
      rw [h1, h2] at hdir2
      obtain ⟨a', b', e1, g1, g2⟩ := moveAll_good y wt w hw ((xs.drop p).take (p' - p))
        (recordsOf y wt (xs.drop p')) (recordsOf y wt (xs.take p)) c.right c.left
        (by rw [← recordsOf_append, ← hmid]; exact h4) h3
        (uniform_records y wt w _ (fun i hi => hux i (List.mem_of_mem_drop hi)))
        (fun i hi => hux i (List.mem_of_mem_drop (List.mem_of_mem_take hi)))
      have hwl : c.wLeft + (((xs.drop p).take (p' - p)).map wt).sum
          = weightOf wt (xs.take p') := by
        rw [h6, hleft, weightOf_append]; rfl
      refine ⟨⟨xs, p', b', a', c.wNode, weightOf wt (xs.take p'), c.wNode - weightOf wt (xs.take p'),
        c.median⟩, ?_, h0, by omega, ?_, ?_, ?_, ?_, ?_, ?_, ?_, ?_⟩
      · unfold Med.update
        rw [if_pos hdir, h1, h2]
        simp only
        rw [e1, hwl]
        rfl
      · rfl
      · rfl
      · rw [hleft, recordsOf_append]
        exact medGood_perm g2 List.perm_append_comm
      · exact g1
      · exact h5
      · rfl
      · simp only
        rw [h5, htot]; ring
      · exact h8
    · obtain ⟨a1, b1, e1, g1, g2⟩ := pour_good w hw c.right.samples.length _ _ c.right c.left h4 h3
        (uniform_records y wt w _ (fun i hi => hux i (List.mem_of_mem_drop hi))) rfl
      have hall : MedGood (recordsOf y wt (xs.drop p').reverse ++ recordsOf y wt (xs.take p')) b1 := by
        refine medGood_perm g2 ?_
        rw [← recordsOf_append, ← recordsOf_append]
        apply recordsOf_perm
        refine (List.perm_append_comm.trans ?_ : (xs.drop p ++ xs.take p).Perm _)
        rw [List.take_append_drop]
        refine List.Perm.trans ?_ (List.Perm.append_right _ (List.reverse_perm _).symm)
        refine List.Perm.trans ?_ List.perm_append_comm
        rw [List.take_append_drop]
      obtain ⟨a2, b2, e2, g3, g4⟩ := moveAll_good y wt w hw (xs.drop p').reverse
        (recordsOf y wt (xs.take p')) [] b1 a1 hall g1
        (uniform_records y wt w _ (fun i hi => hux i (List.mem_of_mem_take hi)))
        (fun i hi => hux i (List.mem_of_mem_drop (List.mem_reverse.mp hi)))
      have hwl : c.wNode - (((xs.drop p').reverse).map wt).sum = weightOf wt (xs.take p') := by
        have : (((xs.drop p').reverse).map wt).sum = weightOf wt (xs.drop p') :=
          weightOf_perm wt (List.reverse_perm _)
        rw [this, h5, htot]; ring
      refine ⟨⟨xs, p', a2, b2, c.wNode, weightOf wt (xs.take p'), c.wNode - weightOf wt (xs.take p'),
        c.median⟩, ?_, h0, by omega, ?_, ?_, ?_, ?_, ?_, ?_, ?_, ?_⟩
      · unfold Med.update
        rw [if_neg hdir]
        unfold reverseReset
        rw [e1]
        simp only [Option.map_some]
        rw [h1, e2, hwl]
        rfl
      · rfl
      · rfl
      · exact g3
      · rw [List.append_nil] at g4
        exact medGood_perm g4 (recordsOf_perm y wt (List.reverse_perm _))
      · exact h5
      · rfl
      · simp only
        rw [h5, htot]; ring
      · exact h8

theorem deviation_absDev (y wt : Nat → K) (m : K) (is : List Nat) :
    deviation y wt m is = absDev (recordsOf y wt is) m := by
  unfold deviation absDev recordsOf
  rw [List.map_map]
  rfl

/-- **C174.** For samples of the same weight, whatever the splitter did before: the criterion
answers without reading foreign memory; the impurity of the node, and for a split with two
non-empty children the impurities of the samples before and after the split, are the least
weighted mean absolute deviations of these samples from a constant, and the constant is the
weighted median. -/
theorem C174_mae_partial (y wt : Nat → K) (w : K) (hw : 0 < w) (node : List Nat)
    (hne : node ≠ []) (hu : ∀ i ∈ node, wt i = w) (xs : List Nat) (p : Nat) (o : Option (Mae K))
    (h : MaeHistory y wt node xs p o) :
    ∃ c, o = some c ∧
      (WeightedMedian (recordsOf y wt node) c.median ∧
        nodeImpurity y wt c = absDev (recordsOf y wt node) c.median / weightOf wt node ∧
        ∀ z, nodeImpurity y wt c ≤ absDev (recordsOf y wt node) z / weightOf wt node) ∧
      (0 < p → p < node.length → ∃ l r,
        childrenImpurity y wt c
          = some (absDev (recordsOf y wt (xs.take p)) l / weightOf wt (xs.take p),
              absDev (recordsOf y wt (xs.drop p)) r / weightOf wt (xs.drop p)) ∧
        WeightedMedian (recordsOf y wt (xs.take p)) l ∧
        WeightedMedian (recordsOf y wt (xs.drop p)) r ∧
        (∀ z, absDev (recordsOf y wt (xs.take p)) l ≤ absDev (recordsOf y wt (xs.take p)) z) ∧
        ∀ z, absDev (recordsOf y wt (xs.drop p)) r ≤ absDev (recordsOf y wt (xs.drop p)) z) := by
  obtain ⟨c, e, h0, hp, h1, h2, h3, h4, h5, h6, h7, h8⟩ := mae_good y wt w hw node hne hu xs p o h
  have hlen : xs.length = node.length := h0.length_eq
  have hpos : ∀ is : List Nat, (∀ i ∈ is, i ∈ node) → ∀ r ∈ recordsOf y wt is, 0 < r.2 := by
    intro is hi r hr
    rw [uniform_records y wt w is (fun i hi' => hu i (hi i hi')) r hr]
    exact hw
  have hni : nodeImpurity y wt c
      = absDev (recordsOf y wt node) c.median / weightOf wt node := by
    unfold nodeImpurity
    rw [deviation_absDev, h1, h5]
    congr 1
    exact ((recordsOf_perm y wt h0).map _).sum_eq
  refine ⟨c, e, ⟨h8, hni, ?_⟩, ?_⟩
  · intro z
    rw [hni]
    apply div_le_div_of_nonneg_right (C174_best_constant _ (hpos node (fun i hi => hi)) _ h8 z)
    have := wsum_nonneg (recordsOf y wt node) (hpos node (fun i hi => hi))
    unfold wsum recordsOf at this
    rw [List.map_map] at this
    exact this
  · intro hp0 hp1
    have hl : recordsOf y wt (xs.take p) ≠ [] := by
      intro e
      have : (recordsOf y wt (xs.take p)).length = 0 := by rw [e]; rfl
      simp only [recordsOf, List.length_map, List.length_take] at this
      omega
    have hr : recordsOf y wt (xs.drop p) ≠ [] := by
      intro e
      have : (recordsOf y wt (xs.drop p)).length = 0 := by rw [e]; rfl
      simp only [recordsOf, List.length_map, List.length_drop] at this
      omega
    obtain ⟨l, e1, w1⟩ := good_median _ _ h3 hl
    obtain ⟨r, e2, w2⟩ := good_median _ _ h4 hr
    refine ⟨l, r, ?_, w1, w2, ?_, ?_⟩
    · unfold childrenImpurity
      rw [e1, e2]
      simp only
      rw [deviation_absDev, deviation_absDev, h1, h2, h6, h7]
    · exact C174_best_constant _
        (hpos _ (fun i hi => h0.subset (List.mem_of_mem_take hi))) _ w1
    · exact C174_best_constant _
        (hpos _ (fun i hi => h0.subset (List.mem_of_mem_drop hi))) _ w2

/-! ### Findings -/

/-- The calculator after pushes. -/
def pushes (l : List (ℚ × ℚ)) : Option (St ℚ) :=
  l.foldl (fun o r => o.bind (fun s => push s r.1 r.2)) (some empty)

/-- **C174, finding.** With different weights the median can be wrong after the median has been
removed: of 1, 2, 3 with weights 1, 3, 1 the record 2 goes, and the median of 1 and 3 is not 2
but 1. -/
theorem C174_removed_median_refuted :
    (((pushes [(1, 1), (2, 3), (3, 1)]).bind (fun s => remove s 2 3)).bind getMedian = some 1) ∧
    ((pushes [(1, 1), (3, 1)]).bind getMedian = some 2) := by
  constructor <;> decide +kernel

/-- **C174, finding.** So the criterion measures a child from a constant that is not its median:
samples 2, 1, 3 with weights 3, 1, 1, split after the first one; the right child 1, 3 is measured
from 1, not from 2. -/
theorem C174_weights_refuted :
    ((init (fun i => [2, 1, 3].getD i (0 : ℚ)) (fun i => [3, 1, 1].getD i 1) [0, 1, 2]).bind
      (fun c => (update (fun i => [2, 1, 3].getD i (0 : ℚ)) (fun i => [3, 1, 1].getD i 1) c
        1).bind (fun c => getMedian c.right))) = some 1 := by decide +kernel

/-- **C174, finding.** With different weights a removal reads outside of the records. -/
theorem C174_memory_refuted :
    ((pushes [(1, 1), (2, 1), (3, 5)]).bind (fun s => remove s 3 5)).isNone = true := by
  decide +kernel

/-- **C174, finding.** Removing a record that is not there changes the median of the others. -/
theorem C174_absent_refuted :
    (((pushes [(1, 1), (2, 1), (3, 1)]).bind (fun s => remove s 5 2)).bind getMedian
      = some 1) := by decide +kernel

/-- Non-vacuity: a removal with different weights, of a record that is not the median. -/
example : ((pushes [(1, 1), (2, 3), (3, 1)]).bind (fun s => remove s 1 1)).bind getMedian
    = some 2 := by decide +kernel

/-- Non-vacuity: the criterion at a node of three samples, split after two. -/
example : ∃ c, MaeHistory (fun i => ((i : Nat) : ℚ)) (fun _ => 1) [0, 1, 2] [2, 0, 1] 2 c ∧
    c.bind (fun c => childrenImpurity (fun i => ((i : Nat) : ℚ)) (fun _ => 1) c) = some (1, 0) := by
  refine ⟨_, .update (c := (init (fun i => ((i : Nat) : ℚ)) (fun _ => 1) [2, 0, 1]).get
    (by decide +kernel)) 2 ?_ (Nat.zero_le _) (by decide), by decide +kernel⟩
  rw [Option.some_get]
  exact .init _ (by decide)

end YL.Props
