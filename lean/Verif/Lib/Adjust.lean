import Verif.Lib.Bayes

/-! The back-door adjustment formula. -/

set_option linter.unusedSectionVars false
set_option linter.unusedVariables false

namespace YL.Spec

open Function

variable {α : Type} [DecidableEq α] {Ω : α → Type} [∀ i, Fintype (Ω i)] {K : Type}

theorem acyclic_cutOut {E : α → α → Prop} (hac : Acyclic E) (X : Set α) : Acyclic (CutOut E X) :=
  fun a h => hac a (Relation.TransGen.mono (fun _ _ h => h.1) _ _ h)

theorem acyclic_cutIn {E : α → α → Prop} (hac : Acyclic E) (X : Set α) : Acyclic (CutIn E X) :=
  fun a h => hac a (Relation.TransGen.mono (fun _ _ h => h.1) _ _ h)

theorem sumOut_congr [AddCommMonoid K] {S : Finset α} {f g : (∀ i, Ω i) → K} {v : ∀ i, Ω i}
    (h : ∀ u, (∀ i, i ∉ S → u i = v i) → f u = g u) : sumOut S f v = sumOut S g v := by
  refine Finset.sum_congr rfl (fun w _ => h _ ?_)
  intro i hi
  simp [updateFinset, hi]

section
variable [Field K] [LinearOrder K] [IsStrictOrderedRing K] {V : Finset α} {E : α → α → Prop}

theorem sumOut_nonneg {S : Finset α} {f : (∀ i, Ω i) → K} (h : ∀ v, 0 ≤ f v) (v : ∀ i, Ω i) :
    0 ≤ sumOut S f v := Finset.sum_nonneg (fun _ _ => h _)

theorem sumOut_pos {S : Finset α} {f : (∀ i, Ω i) → K} (h : ∀ v, 0 < f v) (v : ∀ i, Ω i) :
    0 < sumOut S f v := Finset.sum_pos (fun _ _ => h _) ⟨fun i => v i, Finset.mem_univ _⟩

/-- A term of a sum of non-negative terms vanishes with the sum. -/
theorem eq_zero_of_sumOut {S : Finset α} {f : (∀ i, Ω i) → K} (h : ∀ v, 0 ≤ f v) (v : ∀ i, Ω i)
    (h0 : sumOut S f v = 0) : f v = 0 := by
  have := (Finset.sum_eq_zero_iff_of_nonneg (fun w _ => h (updateFinset v S w))).1 h0 (fun i => v i)
    (Finset.mem_univ _)
  have e : updateFinset v S (fun i => v i) = v := by funext i; simp [updateFinset]
  rwa [e] at this

variable (M : BayesNet (K := K) V E Ω)

theorem BayesNet.P_nonneg (S : Finset α) (v : ∀ i, Ω i) : 0 ≤ M.P S v :=
  sumOut_nonneg (fun _ => Finset.prod_nonneg (fun i hi => M.nonneg i hi _)) v

theorem BayesNet.Pdo_nonneg (X S : Finset α) (v : ∀ i, Ω i) : 0 ≤ M.Pdo X S v :=
  sumOut_nonneg (fun _ => Finset.prod_nonneg (fun i hi => M.nonneg i (Finset.mem_sdiff.1 hi).1 _)) v

variable {M}

theorem BayesNet.Positive.P_pos (h : M.Positive) (S : Finset α) (v : ∀ i, Ω i) : 0 < M.P S v :=
  sumOut_pos (fun _ => Finset.prod_pos (fun i hi => h i hi _)) v

theorem BayesNet.Pdo_sum {X S T : Finset α} (hT : T ⊆ V) (hX : Disjoint X T)
    (hST : Disjoint S T) : sumOut T (M.Pdo X (S ∪ T)) = M.Pdo X S := by
  have h1 : V \ (X ∪ S) = T ∪ (V \ (X ∪ (S ∪ T))) := by
    ext i
    have a1 : i ∈ T → i ∈ V := fun h => hT h
    have a2 : i ∈ X → i ∉ T := fun h => Finset.disjoint_left.1 hX h
    have a3 : i ∈ S → i ∉ T := fun h => Finset.disjoint_left.1 hST h
    simp only [Finset.mem_sdiff, Finset.mem_union]; tauto
  have hd : Disjoint T (V \ (X ∪ (S ∪ T))) := by
    rw [Finset.disjoint_left]; intro i hi h; simp only [Finset.mem_sdiff, Finset.mem_union] at h; tauto
  funext v
  unfold BayesNet.Pdo
  rw [h1, sumOut_union hd]

theorem BayesNet.P_sum {S T : Finset α} (hT : T ⊆ V) (hST : Disjoint S T) :
    sumOut T (M.P (S ∪ T)) = M.P S := by
  have h1 : V \ S = T ∪ (V \ (S ∪ T)) := by
    ext i
    have a1 : i ∈ T → i ∈ V := fun h => hT h
    have a3 : i ∈ S → i ∉ T := fun h => Finset.disjoint_left.1 hST h
    simp only [Finset.mem_sdiff, Finset.mem_union]; tauto
  have hd : Disjoint T (V \ (S ∪ T)) := by
    rw [Finset.disjoint_left]; intro i hi h; simp only [Finset.mem_sdiff, Finset.mem_union] at h; tauto
  funext v
  unfold BayesNet.P
  rw [h1, sumOut_union hd]

theorem BayesNet.P_empty (hac : Acyclic E) (v : ∀ i, Ω i) : M.P ∅ v = 1 := by
  unfold BayesNet.P
  rw [Finset.sdiff_empty, sumOut_barren hac _ V V rfl M.kernels (Finset.Subset.refl _) (fun _ _ j hj _ => hj)]
  simp

/-- The kernels in which everybody else sees the treatment values `v`. -/
def cutKernel (k : α → (∀ i, Ω i) → K) (X : Finset α) (v : ∀ i, Ω i) (i : α) (u : ∀ i, Ω i) : K :=
  k i (fun j => if j ∈ X ∧ j ≠ i then v j else u j)

theorem cutKernel_kernels {k : α → (∀ i, Ω i) → K} (hk : Kernels V E k) (X : Finset α) (v : ∀ i, Ω i) :
    Kernels V (CutOut E {x | x ∈ X}) (cutKernel k X v) := by
  constructor
  · intro i hi u u' h
    apply hk.loc i hi
    intro j hj
    by_cases hjX : j ∈ X ∧ j ≠ i
    · simp [hjX]
    · simp only [hjX, if_false]
      apply h
      rcases hj with rfl | hj
      · exact .inl rfl
      · by_cases hji : j = i
        · exact .inl hji
        · exact .inr ⟨hj, fun hX => hjX ⟨hX, hji⟩⟩
  · intro i hi u
    rw [← hk.one i hi (fun j => if j ∈ X ∧ j ≠ i then v j else u j)]
    refine Finset.sum_congr rfl (fun a _ => ?_)
    unfold cutKernel
    congr 1
    funext j
    by_cases hji : j = i
    · subst hji; simp
    · simp [hji]

theorem cutKernel_eq {k : α → (∀ i, Ω i) → K} {X : Finset α} {v u : ∀ i, Ω i}
    (h : ∀ j ∈ X, u j = v j) (i : α) : cutKernel k X v i u = k i u := by
  unfold cutKernel
  congr 1
  funext j
  split
  · rename_i hj; exact (h j hj.1).symm
  · rfl

open Classical in
theorem backdoor_do_eq (hac : Acyclic E) (hV : ∀ i, ∀ j ∈ V, E i j → i ∈ V) {X Z : Finset α}
    (hX : X ⊆ V) (hZ : Z ⊆ V) (hnd : ∀ z ∈ Z, ∀ x ∈ X, ¬ Reach E x z) (v : ∀ i, Ω i) :
    sumOut (V \ Z) (fun u => ∏ i ∈ V, cutKernel M.kernel X v i u) v = M.P Z v := by
  have hk := cutKernel_kernels M.kernels X v
  set A := V.filter (fun a => ∃ z ∈ Z, Reach E a z) with hA
  have hAV : A ⊆ V := Finset.filter_subset _ _
  have hZA : Z ⊆ A := fun z hz => Finset.mem_filter.2 ⟨hZ hz, z, hz, .refl⟩
  have hcl : ∀ j ∈ A, ∀ i ∈ V, E i j → i ∈ A := by
    intro j hj i hi hij
    obtain ⟨_, t, ht, hr⟩ := Finset.mem_filter.1 hj
    exact Finset.mem_filter.2 ⟨hi, t, ht, hr.head hij⟩
  have hAX : ∀ a ∈ A, a ∉ X := by
    intro a ha hax
    obtain ⟨_, z, hz, hr⟩ := Finset.mem_filter.1 ha
    exact hnd z hz a hax hr
  rw [sumOut_ancestral (acyclic_cutOut hac _) hk hAV (fun j hj i hi hij => hcl j hj i hi hij.1) hZA,
    BayesNet.P, sumOut_ancestral hac M.kernels hAV hcl hZA]
  congr 1
  funext u
  refine Finset.prod_congr rfl (fun i hi => ?_)
  apply M.isLocal i (hAV hi)
  intro j hj
  have hjA : j ∈ A := by
    rcases hj with rfl | hj
    · exact hi
    · exact hcl i hi j (hV j i (hAV hi) hj) hj
  simp [hAX j hjA]

theorem backdoor_do_joint (hac : Acyclic E) {X S : Finset α} (hX : X ⊆ V) (hXS : Disjoint X S) (v : ∀ i, Ω i) :
    sumOut (V \ S) (fun u => ∏ i ∈ V, cutKernel M.kernel X v i u) v = M.Pdo X S v := by
  have hk := cutKernel_kernels M.kernels X v
  have h1 : V \ S = (V \ (X ∪ S)) ∪ X := by
    ext i
    have a1 : i ∈ X → i ∈ V := fun h => hX h
    have a2 : i ∈ X → i ∉ S := fun h => Finset.disjoint_left.1 hXS h
    simp only [Finset.mem_sdiff, Finset.mem_union]; tauto
  have hd : Disjoint (V \ (X ∪ S)) X := by
    rw [Finset.disjoint_left]; intro i hi h; simp only [Finset.mem_sdiff, Finset.mem_union] at hi; tauto
  rw [h1, sumOut_union hd, sumOut_barren (acyclic_cutOut hac _) _ X V rfl hk hX
    (fun i hi j hj hij => absurd hi hij.2)]
  unfold BayesNet.Pdo
  refine sumOut_congr (fun u hu => Finset.prod_congr rfl (fun i hi => cutKernel_eq ?_ i))
  intro j hj
  refine hu j ?_
  simp [hj]

theorem backdoor_joint {X S : Finset α} (hXS : X ⊆ S) (v : ∀ i, Ω i) :
    sumOut (V \ S) (fun u => ∏ i ∈ V, cutKernel M.kernel X v i u) v = M.P S v := by
  unfold BayesNet.P
  refine sumOut_congr (fun u hu => Finset.prod_congr rfl (fun i hi => cutKernel_eq ?_ i))
  intro j hj
  refine hu j ?_
  have := hXS hj
  simp [this]

/-- The identity behind the back-door adjustment formula; no positivity needed. -/
theorem backdoor_key (hac : Acyclic E) (hV : ∀ i, ∀ j ∈ V, E i j → i ∈ V) {X Y Z : Finset α}
    (hX : X ⊆ V) (hY : Y ⊆ V) (hZ : Z ⊆ V) (hXY : Disjoint X Y) (hXZ : Disjoint X Z)
    (hsep : ∀ x ∈ X, ∀ y ∈ Y, ¬ Relation.ReflTransGen
      (Adj (MDG.SepEdge (CutOut E {x | x ∈ X}) {t | t ∈ X ∪ Y ∪ Z} {t | t ∈ Z})) x y)
    (hnd : ∀ z ∈ Z, ∀ x ∈ X, ¬ Reach E x z) (v : ∀ i, Ω i) :
    M.P (X ∪ Y ∪ Z) v * M.P Z v = M.P (X ∪ Z) v * M.Pdo X (Y ∪ Z) v := by
  have hci := indep_of_disconnected (acyclic_cutOut hac _) (cutKernel_kernels M.kernels X v)
    (fun i j hj hij => hV i j hj hij.1) hX hY hZ hsep v
  have hXYZ : Disjoint X (Y ∪ Z) := Finset.disjoint_union_right.2 ⟨hXY, hXZ⟩
  rw [backdoor_joint (by intro i; simp; tauto), backdoor_do_eq hac hV hX hZ hnd,
    backdoor_joint (by intro i; simp; tauto), backdoor_do_joint hac hX hXYZ] at hci
  exact hci

/-- the adjustment formula for one value of the treatments, with overlap for this value -/
theorem backdoor_adjust_at (hac : Acyclic E) (hV : ∀ i, ∀ j ∈ V, E i j → i ∈ V) {X Y Z : Finset α}
    (hX : X ⊆ V) (hY : Y ⊆ V) (hZ : Z ⊆ V) (hXY : Disjoint X Y) (hXZ : Disjoint X Z) (hYZ : Disjoint Y Z)
    (hsep : ∀ x ∈ X, ∀ y ∈ Y, ¬ Relation.ReflTransGen
      (Adj (MDG.SepEdge (CutOut E {x | x ∈ X}) {t | t ∈ X ∪ Y ∪ Z} {t | t ∈ Z})) x y)
    (hnd : ∀ z ∈ Z, ∀ x ∈ X, ¬ Reach E x z) (v : ∀ i, Ω i)
    (hpos : ∀ u : ∀ i, Ω i, (∀ i ∈ X, u i = v i) → M.P Z u ≠ 0 → M.P (X ∪ Z) u ≠ 0) :
    sumOut Z (fun v => M.cond Y (X ∪ Z) v * M.P Z v) v = M.Pdo X Y v := by
  have key : ∀ u : ∀ i, Ω i, (∀ i, i ∉ Z → u i = v i) → M.cond Y (X ∪ Z) u * M.P Z u = M.Pdo X (Y ∪ Z) u := by
    intro u hu
    have hci := backdoor_key (M := M) hac hV hX hY hZ hXY hXZ hsep hnd u
    have hset : Y ∪ (X ∪ Z) = X ∪ Y ∪ Z := by ext i; simp; tauto
    unfold BayesNet.cond
    rw [hset, div_mul_eq_mul_div, hci]
    by_cases h0 : M.P (X ∪ Z) u = 0
    · have hz : M.P Z u = 0 := by
        by_contra hne; exact hpos u (fun i hi => hu i (Finset.disjoint_left.1 hXZ hi)) hne h0
      have hdo : M.Pdo X Z u = 0 := by
        rw [← backdoor_do_joint hac hX hXZ, backdoor_do_eq hac hV hX hZ hnd, hz]
      have : sumOut Y (M.Pdo X (Z ∪ Y)) u = 0 := by
        rw [BayesNet.Pdo_sum hY hXY hYZ.symm]; exact hdo
      have h2 := eq_zero_of_sumOut (fun v => M.Pdo_nonneg X _ v) u this
      rw [Finset.union_comm] at h2
      rw [h0, h2]; simp
    · rw [mul_div_assoc, mul_div_cancel₀ _ h0]
  rw [sumOut_congr key, BayesNet.Pdo_sum hZ hXZ hYZ]

/-- The back-door adjustment formula. -/
theorem backdoor_adjust (hac : Acyclic E) (hV : ∀ i, ∀ j ∈ V, E i j → i ∈ V) {X Y Z : Finset α}
    (hX : X ⊆ V) (hY : Y ⊆ V) (hZ : Z ⊆ V) (hXY : Disjoint X Y) (hXZ : Disjoint X Z) (hYZ : Disjoint Y Z)
    (hsep : ∀ x ∈ X, ∀ y ∈ Y, ¬ Relation.ReflTransGen
      (Adj (MDG.SepEdge (CutOut E {x | x ∈ X}) {t | t ∈ X ∪ Y ∪ Z} {t | t ∈ Z})) x y)
    (hnd : ∀ z ∈ Z, ∀ x ∈ X, ¬ Reach E x z)
    (hpos : ∀ v, M.P Z v ≠ 0 → M.P (X ∪ Z) v ≠ 0) (v : ∀ i, Ω i) :
    sumOut Z (fun v => M.cond Y (X ∪ Z) v * M.P Z v) v = M.Pdo X Y v :=
  backdoor_adjust_at hac hV hX hY hZ hXY hXZ hYZ hsep hnd v (fun u _ => hpos u)

end

end YL.Spec
