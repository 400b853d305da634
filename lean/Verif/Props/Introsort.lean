import Verif.Model.Introsort
import Verif.Props.Tree
import Mathlib.Logic.Equiv.Basic
import Mathlib.Data.List.Perm.Basic

/-!
# C94: the splitter's introsort sorts
-/

set_option linter.unusedSectionVars false

namespace YL.Props
open YL.Sort YL.Tree YL.Spec YL.Crit

variable {A K : Type} [LinearOrder K]

/-- `b` is `a` with the cells in `[lo, hi)` rearranged -/
def Rearr (a b : Nat → A) (lo hi : Nat) : Prop :=
  ∃ e : Equiv.Perm Nat, (∀ k, b k = a (e k)) ∧ ∀ k, ¬(lo ≤ k ∧ k < hi) → e k = k

theorem Rearr.refl (a : Nat → A) (lo hi : Nat) : Rearr a a lo hi := ⟨Equiv.refl _, fun _ => rfl, fun _ _ => rfl⟩

theorem Rearr.trans {a b c : Nat → A} {lo hi : Nat} (h1 : Rearr a b lo hi) (h2 : Rearr b c lo hi) : Rearr a c lo hi := by
  obtain ⟨e1, p1, q1⟩ := h1
  obtain ⟨e2, p2, q2⟩ := h2
  refine ⟨e2.trans e1, ?_, ?_⟩
  · intro k; rw [p2, p1]; rfl
  · intro k hk
    show e1 (e2 k) = k
    rw [q2 k hk, q1 k hk]

theorem Rearr.mono {a b : Nat → A} {lo hi lo' hi' : Nat} (h : Rearr a b lo hi) (h1 : lo' ≤ lo) (h2 : hi ≤ hi') :
    Rearr a b lo' hi' := by
  obtain ⟨e, p, q⟩ := h
  exact ⟨e, p, fun k hk => q k (by omega)⟩

theorem Rearr.outside {a b : Nat → A} {lo hi : Nat} (h : Rearr a b lo hi) {k : Nat} (hk : ¬(lo ≤ k ∧ k < hi)) :
    b k = a k := by
  obtain ⟨e, p, q⟩ := h
  rw [p, q k hk]

theorem Rearr.from {a b : Nat → A} {lo hi : Nat} (h : Rearr a b lo hi) {k : Nat} (h1 : lo ≤ k) (h2 : k < hi) :
    ∃ j, lo ≤ j ∧ j < hi ∧ b k = a j := by
  obtain ⟨e, p, q⟩ := h
  refine ⟨e k, ?_⟩
  have : lo ≤ e k ∧ e k < hi := by
    by_contra hn
    have h3 := q (e k) hn
    have h4 : e k = k := e.injective h3
    rw [h4] at hn
    exact hn ⟨h1, h2⟩
  exact ⟨this.1, this.2, p k⟩

theorem swap_eq (a : Nat → A) (i j k : Nat) : Sort.swap a i j k = a (Equiv.swap i j k) := by
  unfold Sort.swap
  rw [Equiv.swap_apply_def]
  split
  · rfl
  · split <;> rfl

theorem swap_rearr (a : Nat → A) {i j lo hi : Nat} (h1 : lo ≤ i) (h2 : i < hi) (h3 : lo ≤ j) (h4 : j < hi) :
    Rearr a (Sort.swap a i j) lo hi :=
  ⟨Equiv.swap i j, swap_eq a i j, fun k hk => Equiv.swap_apply_of_ne_of_ne (by rintro rfl; exact hk ⟨h1, h2⟩)
    (by rintro rfl; exact hk ⟨h3, h4⟩)⟩

theorem swap_left (a : Nat → A) (i j : Nat) : Sort.swap a i j i = a j := by unfold Sort.swap; simp
theorem swap_right (a : Nat → A) (i j : Nat) : Sort.swap a i j j = a i := by
  unfold Sort.swap
  by_cases h : j = i
  · subst h; simp
  · simp [h]
theorem swap_other (a : Nat → A) {i j k : Nat} (h1 : k ≠ i) (h2 : k ≠ j) : Sort.swap a i j k = a k := by
  unfold Sort.swap; simp [h1, h2]

/-! ### the partition -/

theorem partition3_spec (key : A → K) (pivot : K) (base n : Nat) : ∀ (fuel : Nat) (a : Nat → A) (i l r : Nat),
    l ≤ i → i ≤ r → r ≤ n → r - i ≤ fuel →
    (∀ j, j < l → key (a (base + j)) < pivot) → (∀ j, l ≤ j → j < i → key (a (base + j)) = pivot) →
    (∀ j, r ≤ j → j < n → pivot < key (a (base + j))) →
    let p := partition3 key pivot base fuel a i l r
    Rearr a p.1 base (base + n) ∧ p.2.1 ≤ p.2.2 ∧ p.2.2 ≤ n ∧
      (∀ j, j < p.2.1 → key (p.1 (base + j)) < pivot) ∧
      (∀ j, p.2.1 ≤ j → j < p.2.2 → key (p.1 (base + j)) = pivot) ∧
      (∀ j, p.2.2 ≤ j → j < n → pivot < key (p.1 (base + j))) := by
  intro fuel
  induction fuel with
  | zero =>
    intro a i l r h1 h2 h3 h4 k1 k2 k3
    have : i = r := by omega
    subst this
    exact ⟨Rearr.refl _ _ _, h1, h3, k1, k2, k3⟩
  | succ fuel ih =>
    intro a i l r h1 h2 h3 h4 k1 k2 k3
    unfold partition3
    by_cases hir : i < r
    · rw [if_pos hir]
      by_cases hlt : key (a (base + i)) < pivot
      · rw [if_pos hlt]
        obtain ⟨r1, r2, r3, r4, r5, r6⟩ := ih (Sort.swap a (base + i) (base + l)) (i + 1) (l + 1) r (by omega) (by omega)
          h3 (by omega) (by
            intro j hj
            by_cases hjl : j = l
            · subst hjl; rw [swap_right]; exact hlt
            · rw [swap_other _ (by omega) (by omega)]; exact k1 j (by omega)) (by
            intro j hj1 hj2
            by_cases hji : j = i
            · subst hji; rw [swap_left]; exact k2 l (by omega) (by omega)
            · rw [swap_other _ (by omega) (by omega)]; exact k2 j (by omega) (by omega)) (by
            intro j hj1 hj2
            rw [swap_other _ (by omega) (by omega)]; exact k3 j hj1 hj2)
        exact ⟨(swap_rearr a (by omega) (by omega) (by omega) (by omega)).trans r1, r2, r3, r4, r5, r6⟩
      · rw [if_neg hlt]
        by_cases hgt : pivot < key (a (base + i))
        · rw [if_pos hgt]
          obtain ⟨r1, r2, r3, r4, r5, r6⟩ := ih (Sort.swap a (base + i) (base + (r - 1))) i l (r - 1) h1 (by omega)
            (by omega) (by omega) (by
              intro j hj
              rw [swap_other _ (by omega) (by omega)]; exact k1 j hj) (by
              intro j hj1 hj2
              rw [swap_other _ (by omega) (by omega)]; exact k2 j hj1 hj2) (by
              intro j hj1 hj2
              by_cases hjr : j = r - 1
              · subst hjr; rw [swap_right]; exact hgt
              · rw [swap_other _ (by omega) (by omega)]; exact k3 j (by omega) hj2)
          exact ⟨(swap_rearr a (by omega) (by omega) (by omega) (by omega)).trans r1, r2, r3, r4, r5, r6⟩
        · rw [if_neg hgt]
          exact ih a (i + 1) l r (by omega) (by omega) h3 (by omega) k1 (by
            intro j hj1 hj2
            by_cases hji : j = i
            · subst hji; exact le_antisymm (not_lt.mp hgt) (not_lt.mp hlt)
            · exact k2 j hj1 (by omega)) k3
    · rw [if_neg hir]
      have : i = r := by omega
      subst this
      exact ⟨Rearr.refl _ _ _, h1, h3, k1, k2, k3⟩

/-! ### heapsort -/

/-- the children of `i` in `[0, e)` are at most `i`, for all `i ≥ s` -/
def Heap (key : A → K) (base s e : Nat) (a : Nat → A) : Prop :=
  ∀ i c, s ≤ i → c < e → (c = i * 2 + 1 ∨ c = i * 2 + 2) → key (a (base + c)) ≤ key (a (base + i))

theorem maxInd_spec (key : A → K) (base : Nat) (a : Nat → A) (root e : Nat) :
    let m := maxInd key base a root e
    (m = root ∨ ((m = root * 2 + 1 ∨ m = root * 2 + 2) ∧ m < e)) ∧ key (a (base + root)) ≤ key (a (base + m)) ∧
    ∀ c, c < e → (c = root * 2 + 1 ∨ c = root * 2 + 2) → key (a (base + c)) ≤ key (a (base + m)) := by
  intro m
  have hm : m = maxInd key base a root e := rfl
  unfold maxInd at hm
  simp only at hm
  by_cases h1 : root * 2 + 1 < e ∧ key (a (base + root)) < key (a (base + (root * 2 + 1)))
  · rw [if_pos h1] at hm
    by_cases h2 : root * 2 + 1 + 1 < e ∧ key (a (base + (root * 2 + 1))) < key (a (base + (root * 2 + 1 + 1)))
    · rw [if_pos h2] at hm
      rw [hm]
      refine ⟨Or.inr ⟨Or.inr rfl, h2.1⟩, (h1.2.trans h2.2).le, ?_⟩
      rintro c hc (rfl | rfl)
      · exact h2.2.le
      · exact le_rfl
    · rw [if_neg h2] at hm
      rw [hm]
      refine ⟨Or.inr ⟨Or.inl rfl, h1.1⟩, h1.2.le, ?_⟩
      rintro c hc (rfl | rfl)
      · exact le_rfl
      · by_contra hn
        exact h2 ⟨hc, not_le.mp hn⟩
  · rw [if_neg h1] at hm
    by_cases h2 : root * 2 + 1 + 1 < e ∧ key (a (base + root)) < key (a (base + (root * 2 + 1 + 1)))
    · rw [if_pos h2] at hm
      rw [hm]
      refine ⟨Or.inr ⟨Or.inr rfl, h2.1⟩, h2.2.le, ?_⟩
      rintro c hc (rfl | rfl)
      · have : key (a (base + (root * 2 + 1))) ≤ key (a (base + root)) := by
          by_contra hn
          exact h1 ⟨hc, not_le.mp hn⟩
        exact this.trans h2.2.le
      · exact le_rfl
    · rw [if_neg h2] at hm
      rw [hm]
      refine ⟨Or.inl rfl, le_rfl, ?_⟩
      rintro c hc (rfl | rfl)
      · by_contra hn
        exact h1 ⟨hc, not_le.mp hn⟩
      · by_contra hn
        exact h2 ⟨hc, not_le.mp hn⟩

theorem siftDown_spec (key : A → K) (base s e : Nat) : ∀ (fuel : Nat) (a : Nat → A) (root : Nat), s ≤ root →
    e - root ≤ fuel →
    (∀ i c, s ≤ i → c < e → (c = i * 2 + 1 ∨ c = i * 2 + 2) → i ≠ root → key (a (base + c)) ≤ key (a (base + i))) →
    (∀ c p, c < e → (c = root * 2 + 1 ∨ c = root * 2 + 2) → s ≤ p → (root = p * 2 + 1 ∨ root = p * 2 + 2) →
      key (a (base + c)) ≤ key (a (base + p))) →
    Heap key base s e (siftDown key base fuel a root e) ∧
      Rearr a (siftDown key base fuel a root e) (base + s) (base + e) := by
  intro fuel
  induction fuel with
  | zero =>
    intro a root hs hf h1 h2
    refine ⟨?_, Rearr.refl _ _ _⟩
    intro i c hi hc hch
    by_cases hir : i = root
    · subst hir; omega
    · exact h1 i c hi hc hch hir
  | succ fuel ih =>
    intro a root hs hf h1 h2
    unfold siftDown
    obtain ⟨m1, m2, m3⟩ := maxInd_spec key base a root e
    generalize maxInd key base a root e = m at *
    simp only
    by_cases hm : m = root
    · rw [if_pos hm]
      subst hm
      refine ⟨?_, Rearr.refl _ _ _⟩
      intro i c hi hc hch
      by_cases hir : i = m
      · subst hir; exact m3 c hc hch
      · exact h1 i c hi hc hch hir
    · rw [if_neg hm]
      obtain ⟨mc, me⟩ := m1.resolve_left hm
      have hlt : root < m := by omega
      obtain ⟨q1, q2⟩ := ih (Sort.swap a (base + root) (base + m)) m (by omega) (by omega) (by
        intro i c hi hc hch him
        by_cases hir : i = root
        · subst hir
          rw [swap_left]
          by_cases hcm : c = m
          · subst hcm; rw [swap_right]; exact m2
          · rw [swap_other _ (by omega) (by omega)]; exact m3 c hc hch
        · rw [swap_other a (k := base + i) (by omega) (by omega)]
          by_cases hcr : c = root
          · subst hcr; rw [swap_left]; exact h2 m i me mc hi hch
          · have : c ≠ m := by omega
            rw [swap_other _ (by omega) (by omega)]
            exact h1 i c hi hc hch hir) (by
        intro c p hc hch hp hpc
        have : p = root := by omega
        subst this
        rw [swap_left, swap_other _ (by omega) (by omega)]
        exact h1 m c (by omega) hc hch (by omega))
      exact ⟨q1, (swap_rearr a (by omega) (by omega) (by omega) (by omega)).trans q2⟩

theorem heapify_spec (key : A → K) (base n : Nat) : ∀ (start : Nat) (a : Nat → A), Heap key base (start + 1) n a →
    Heap key base 0 n (heapify key base n start a) ∧ Rearr a (heapify key base n start a) base (base + n) := by
  intro start
  induction start with
  | zero =>
    intro a h
    obtain ⟨q1, q2⟩ := siftDown_spec key base 0 n n a 0 le_rfl (by omega)
      (fun i c hi hc hch hne => h i c (by omega) hc hch) (by intro c p hc hch hp hpc; omega)
    exact ⟨q1, q2⟩
  | succ start ih =>
    intro a h
    obtain ⟨q1, q2⟩ := siftDown_spec key base (start + 1) n n a (start + 1) le_rfl (by omega)
      (fun i c hi hc hch hne => h i c (by omega) hc hch) (by intro c p hc hch hp hpc; omega)
    obtain ⟨q3, q4⟩ := ih _ q1
    exact ⟨q3, (q2.mono (by omega) le_rfl).trans q4⟩

theorem heap_max {key : A → K} {base e : Nat} {a : Nat → A} (h : Heap key base 0 e a) : ∀ j, j < e →
    key (a (base + j)) ≤ key (a (base + 0)) := by
  intro j
  induction j using Nat.strong_induction_on with
  | _ j ih =>
    intro hj
    by_cases h0 : j = 0
    · subst h0; exact le_rfl
    · exact (h ((j - 1) / 2) j (Nat.zero_le _) hj (by omega)).trans (ih ((j - 1) / 2) (by omega) (by omega))

theorem shrink_spec (key : A → K) (base n : Nat) : ∀ (stop : Nat) (a : Nat → A), stop < n →
    Heap key base 0 (stop + 1) a →
    (∀ i j, i ≤ j → stop < j → j < n → key (a (base + i)) ≤ key (a (base + j))) →
    (∀ i j, i ≤ j → j < n → key (shrink key base n stop a (base + i)) ≤ key (shrink key base n stop a (base + j))) ∧
      Rearr a (shrink key base n stop a) base (base + n) := by
  intro stop
  induction stop with
  | zero =>
    intro a hn h hs
    refine ⟨?_, Rearr.refl _ _ _⟩
    intro i j hij hj
    by_cases h0 : j = 0
    · subst h0
      have : i = 0 := by omega
      subst this
      exact le_rfl
    · exact hs i j hij (by omega) hj
  | succ stop ih =>
    intro a hn h hs
    have sw := swap_rearr a (i := base) (j := base + (stop + 1)) (lo := base) (hi := base + (stop + 2)) le_rfl (by omega)
      (by omega) (by omega)
    obtain ⟨q1, q2⟩ := siftDown_spec key base 0 (stop + 1) n (Sort.swap a base (base + (stop + 1))) 0 le_rfl (by omega)
      (by
        intro i c hi hc hch hne
        rw [swap_other _ (by omega) (by omega), swap_other _ (by omega) (by omega)]
        exact h i c (by omega) (by omega) hch) (by intro c p hc hch hp hpc; omega)
    have q2' : Rearr a (siftDown key base n (Sort.swap a base (base + (stop + 1))) 0 (stop + 1)) base
        (base + (stop + 2)) := sw.trans (q2.mono (by omega) (by omega))
    have hmax := heap_max h
    obtain ⟨r1, r2⟩ := ih _ (by omega) q1 (by
      intro i j hij hj1 hj2
      have hcase : j = stop + 1 ∨ stop + 2 ≤ j := by omega
      rcases hcase with rfl | hj3
      · rw [q2.outside (k := base + (stop + 1)) (by omega), swap_right]
        obtain ⟨k, k1, k2, k3⟩ := q2'.from (k := base + i) (by omega) (by omega)
        rw [k3]
        have := hmax (k - base) (by omega)
        rw [show base + (k - base) = k by omega] at this
        exact this
      · rw [q2'.outside (k := base + j) (by omega)]
        by_cases hi : i < stop + 2
        · obtain ⟨k, k1, k2, k3⟩ := q2'.from (k := base + i) (by omega) (by omega)
          rw [k3]
          have := hs (k - base) j (by omega) (by omega) hj2
          rw [show base + (k - base) = k by omega] at this
          exact this
        · rw [q2'.outside (k := base + i) (by omega)]
          exact hs i j hij (by omega) hj2)
    exact ⟨r1, (q2'.mono le_rfl (by omega)).trans r2⟩

theorem heapsort_spec (key : A → K) (a : Nat → A) (base n : Nat) (hn : 1 < n) :
    (∀ i j, i ≤ j → j < n → key (heapsort key a base n (base + i)) ≤ key (heapsort key a base n (base + j))) ∧
      Rearr a (heapsort key a base n) base (base + n) := by
  unfold heapsort
  obtain ⟨h1, h2⟩ := heapify_spec key base n ((n - 2) / 2) a (by intro i c hi hc hch; omega)
  obtain ⟨h3, h4⟩ := shrink_spec key base n (n - 1) _ (by omega) (by rw [show n - 1 + 1 = n by omega]; exact h1)
    (by intro i j hij hj1 hj2; omega)
  exact ⟨h3, h2.trans h4⟩

/-- **C94.** `introsort` sorts the segment it is given and only rearranges it, whatever the depth limit is: whether the
limit is reached or not, for every length and every pattern of equal keys. -/
theorem introsort_spec (key : A → K) : ∀ (maxd : Nat) (a : Nat → A) (base n : Nat),
    (∀ i j, i ≤ j → j < n → key (introsort key maxd a base n (base + i)) ≤ key (introsort key maxd a base n (base + j))) ∧
      Rearr a (introsort key maxd a base n) base (base + n) := by
  intro maxd
  induction maxd with
  | zero =>
    intro a base n
    unfold introsort
    by_cases hn : 1 < n
    · rw [if_pos hn]; exact heapsort_spec key a base n hn
    · rw [if_neg hn]
      refine ⟨?_, Rearr.refl _ _ _⟩
      intro i j hij hj
      have : i = j := by omega
      subst this; exact le_rfl
  | succ maxd ih =>
    intro a base n
    unfold introsort
    by_cases hn : 1 < n
    · rw [if_pos hn]
      simp only
      generalize median3 (key (a base)) (key (a (base + n / 2))) (key (a (base + (n - 1)))) = pivot
      obtain ⟨p1, p2, p3, p4, p5, p6⟩ := partition3_spec key pivot base n n a 0 0 n le_rfl (by omega) le_rfl (by omega)
        (by intro j hj; omega) (by intro j h1 h2; omega) (by intro j h1 h2; omega)
      generalize partition3 key pivot base n a 0 0 n = p at *
      obtain ⟨s1, s2⟩ := ih p.1 base p.2.1
      generalize introsort key maxd p.1 base p.2.1 = b at *
      obtain ⟨t1, t2⟩ := ih b (base + p.2.2) (n - p.2.2)
      generalize introsort key maxd b (base + p.2.2) (n - p.2.2) = c at *
      have low : ∀ j, j < p.2.1 → key (c (base + j)) < pivot := by
        intro j hj
        rw [t2.outside (by omega)]
        obtain ⟨k, k1, k2, k3⟩ := s2.from (k := base + j) (by omega) (by omega)
        rw [k3]
        have := p4 (k - base) (by omega)
        rw [show base + (k - base) = k by omega] at this
        exact this
      have midl : ∀ j, p.2.1 ≤ j → j < p.2.2 → key (c (base + j)) = pivot := by
        intro j h1 h2
        rw [t2.outside (by omega), s2.outside (by omega)]
        exact p5 j h1 h2
      have high : ∀ j, p.2.2 ≤ j → j < n → pivot < key (c (base + j)) := by
        intro j h1 h2
        obtain ⟨k, k1, k2, k3⟩ := t2.from (k := base + j) (by omega) (by omega)
        rw [k3, s2.outside (by omega)]
        have := p6 (k - base) (by omega) (by omega)
        rw [show base + (k - base) = k by omega] at this
        exact this
      refine ⟨?_, (p1.trans (s2.mono le_rfl (by omega))).trans (t2.mono (by omega) (by omega))⟩
      intro i j hij hj
      by_cases hj1 : j < p.2.1
      · rw [t2.outside (k := base + i) (by omega), t2.outside (k := base + j) (by omega)]
        exact s1 i j hij hj1
      · by_cases hj2 : j < p.2.2
        · rw [midl j (by omega) hj2]
          by_cases hi1 : i < p.2.1
          · exact (low i hi1).le
          · exact (midl i (by omega) (by omega)).le
        · by_cases hi2 : i < p.2.2
          · have hp := high j (by omega) hj
            by_cases hi1 : i < p.2.1
            · exact ((low i hi1).trans hp).le
            · rw [midl i (by omega) hi2]; exact hp.le
          · have := t1 (i - p.2.2) (j - p.2.2) (by omega) (by omega)
            rw [show base + p.2.2 + (i - p.2.2) = base + i by omega,
              show base + p.2.2 + (j - p.2.2) = base + j by omega] at this
            exact this
    · rw [if_neg hn]
      refine ⟨?_, Rearr.refl _ _ _⟩
      intro i j hij hj
      have : i = j := by omega
      subst this; exact le_rfl

theorem rearr_perm {a b : Nat → A} {n : Nat} (h : Rearr a b 0 n) : ((List.range n).map b).Perm ((List.range n).map a) := by
  have h' := h
  obtain ⟨e, p, q⟩ := h
  have : (List.range n).map b = ((List.range n).map e).map a := by
    rw [List.map_map]
    apply List.map_congr_left
    intro k _
    exact p k
  rw [this]
  apply List.Perm.map
  rw [List.perm_ext_iff_of_nodup ((List.nodup_range).map e.injective) List.nodup_range]
  intro k
  rw [List.mem_map, List.mem_range]
  constructor
  · rintro ⟨j, hj, rfl⟩
    by_contra hn
    have := e.injective (q (e j) (by omega))
    rw [List.mem_range] at hj
    omega
  · intro hk
    refine ⟨e.symm k, ?_, by simp⟩
    rw [List.mem_range]
    by_contra hn
    have := q (e.symm k) (by omega)
    simp only [Equiv.apply_symm_apply] at this
    omega

/-- **C94.** The splitter's sort returns the same samples in the order of the keys, for every list and every depth
limit. -/
theorem C94_sort (key : A → K) (maxd : Nat → Nat) (l : List A) :
    (sortList key maxd l).Perm l ∧ (sortList key maxd l).Pairwise (fun a b => key a ≤ key b) := by
  cases l with
  | nil => exact ⟨List.Perm.nil, List.Pairwise.nil⟩
  | cons x xs =>
    obtain ⟨h1, h2⟩ := introsort_spec key (maxd (xs.length + 1)) (fun k => (x :: xs).getD k x) 0 (xs.length + 1)
    rw [Nat.zero_add] at h2
    constructor
    · refine (rearr_perm h2).trans (List.Perm.of_eq ?_)
      apply List.ext_getElem
      · simp
      · intro i h3 h4
        rw [List.getElem_map, List.getElem_range, List.getD_eq_getElem?_getD, List.getElem?_eq_getElem h4]
        rfl
    · show ((List.range (xs.length + 1)).map _).Pairwise _
      rw [List.pairwise_map]
      refine List.Pairwise.imp_of_mem ?_ List.pairwise_lt_range
      intro i j hi hj hij
      have := h1 i j hij.le (List.mem_range.mp hj)
      simpa using this

/-- a list with repeated keys, sorted by quicksort steps and by heapsort (depth limit 0) -/
example : sortList (fun x : Nat × Nat => x.1) (fun _ => 4) [(3, 0), (1, 1), (2, 2), (1, 3), (5, 4), (3, 5)] =
      [(1, 1), (1, 3), (2, 2), (3, 0), (3, 5), (5, 4)] ∧
    (sortList (fun x : Nat × Nat => x.1) (fun _ => 0) [(3, 0), (1, 1), (2, 2), (1, 3), (5, 4), (3, 5)]).map (fun x => x.1) =
      [1, 1, 2, 3, 3, 5] := by decide +kernel

/-- **C94.** What the tree theorems C81-C89 assume of sorting and thresholds is met by the code's routines. -/
theorem C94_sound [Field K] [IsStrictOrderedRing K] (maxd : Nat → Nat) (mss msl md : Nat) (mwl dec eps thr : K) (ht : 0 ≤ thr) :
    SoundParams (codeParams (A := A) maxd mss msl md mwl dec eps thr) where
  perm g l := (C94_sort g maxd l).1
  sorted g l := (C94_sort g maxd l).2
  mid a b h := by
    show a ≤ codeMid a b ∧ codeMid a b ≤ b
    unfold codeMid
    split
    · exact ⟨le_rfl, h.le⟩
    · constructor <;> linarith
  thr := ht

end YL.Props
