import Verif.Spec.Bayes
import Verif.Lib.Prune

/-! Sum-product algebra of discrete Bayesian networks. -/

set_option linter.unusedSectionVars false
set_option linter.unusedVariables false

namespace YL.Spec

open Function

variable {α : Type} [DecidableEq α] {Ω : α → Type} [∀ i, Fintype (Ω i)] {K : Type}

section Sum
variable [CommSemiring K]

theorem sumOut_empty (f : (∀ i, Ω i) → K) : sumOut ∅ f = f := by
  funext v
  simp [sumOut]

theorem sumOut_union {S T : Finset α} (h : Disjoint S T) (f : (∀ i, Ω i) → K) :
    sumOut (S ∪ T) f = sumOut S (sumOut T f) := by
  funext v
  simp only [sumOut, updateFinset_updateFinset h]
  rw [← Fintype.sum_prod_type' (f := fun a b => f (updateFinset v (S ∪ T) (Equiv.piFinsetUnion Ω h (a, b))))]
  exact (Fintype.sum_equiv (Equiv.piFinsetUnion Ω h) _ _ (fun _ => rfl)).symm

theorem sumOut_comm {S T : Finset α} (h : Disjoint S T) (f : (∀ i, Ω i) → K) :
    sumOut S (sumOut T f) = sumOut T (sumOut S f) := by
  rw [← sumOut_union h, ← sumOut_union h.symm, Finset.union_comm]

theorem sumOut_singleton (i : α) (f : (∀ i, Ω i) → K) (v : ∀ i, Ω i) :
    sumOut {i} f v = ∑ a : Ω i, f (update v i a) := by
  rw [sumOut]
  refine Fintype.sum_equiv (Equiv.piUnique (fun j : ({i} : Finset α) => Ω j)) _ _ ?_
  intro w
  rw [updateFinset_singleton]; rfl

theorem dependsOn_updateFinset {f : (∀ i, Ω i) → K} {S : Finset α} {D : Set α} (hf : DependsOn f D)
    (hd : ∀ i ∈ D, i ∉ S) (v : ∀ i, Ω i) (w : ∀ i : S, Ω i) : f (updateFinset v S w) = f v := by
  apply hf
  intro i hi
  simp [updateFinset, hd i hi]

/-- A factor that does not depend on the summed variables can be pulled out. -/
theorem sumOut_mul_left {g : (∀ i, Ω i) → K} {S : Finset α} {D : Set α} (hg : DependsOn g D)
    (hd : ∀ i ∈ D, i ∉ S) (f : (∀ i, Ω i) → K) :
    sumOut S (fun v => g v * f v) = fun v => g v * sumOut S f v := by
  funext v
  simp only [sumOut, Finset.mul_sum, dependsOn_updateFinset hg hd]

theorem sumOut_mul_right {g : (∀ i, Ω i) → K} {S : Finset α} {D : Set α} (hg : DependsOn g D)
    (hd : ∀ i ∈ D, i ∉ S) (f : (∀ i, Ω i) → K) :
    sumOut S (fun v => f v * g v) = fun v => sumOut S f v * g v := by
  funext v
  simp only [sumOut, Finset.sum_mul, dependsOn_updateFinset hg hd]

theorem dependsOn_sumOut {f : (∀ i, Ω i) → K} {D : Set α} (hf : DependsOn f D) (S : Finset α) :
    DependsOn (sumOut S f) (D \ S) := by
  intro x y h
  simp only [sumOut]
  refine Finset.sum_congr rfl (fun w _ => hf ?_)
  intro i hi
  simp only [updateFinset]
  split_ifs with hs
  · rfl
  · exact h i ⟨hi, hs⟩

theorem dependsOn_mul {f g : (∀ i, Ω i) → K} {D D' : Set α} (hf : DependsOn f D) (hg : DependsOn g D') :
    DependsOn (fun v => f v * g v) (D ∪ D') := by
  intro x y h
  simp only
  rw [hf (fun i hi => h i (.inl hi)), hg (fun i hi => h i (.inr hi))]

theorem dependsOn_prod {s : Finset α} {f : α → (∀ i, Ω i) → K} {D : Set α}
    (h : ∀ i ∈ s, DependsOn (f i) D) : DependsOn (fun v => ∏ i ∈ s, f i v) D := by
  intro x y hxy
  exact Finset.prod_congr rfl (fun i hi => h i hi hxy)

/-- Sums of independent factors split. -/
theorem sumOut_mul_split {f g : (∀ i, Ω i) → K} {S T : Finset α} {D D' : Set α} (hST : Disjoint S T)
    (hf : DependsOn f D) (hg : DependsOn g D') (hd : ∀ i ∈ D, i ∉ T) (hd' : ∀ i ∈ D', i ∉ S) :
    sumOut (S ∪ T) (fun v => f v * g v) = fun v => sumOut S f v * sumOut T g v := by
  rw [sumOut_union hST, sumOut_mul_left hf hd]
  refine sumOut_mul_right (dependsOn_sumOut hg T) ?_ f
  intro i hi; exact hd' i hi.1

theorem sumOut_const_of_dependsOn {f : (∀ i, Ω i) → K} {S : Finset α} {D : Set α} (hf : DependsOn f D)
    (T : Finset α) (hd : ∀ i ∈ D, i ∉ T) (v : ∀ i, Ω i) (w : ∀ i : T, Ω i) (hST : Disjoint S T) :
    sumOut S f (updateFinset v T w) = sumOut S f v :=
  dependsOn_updateFinset (dependsOn_sumOut hf S) (fun i hi => hd i hi.1) v w

end Sum

/-- A family of kernels over the variables `V`. -/
structure Kernels [CommSemiring K] (V : Finset α) (E : α → α → Prop) (k : α → (∀ i, Ω i) → K) : Prop where
  loc : ∀ i ∈ V, DependsOn (k i) (insert i {j | E j i})
  one : ∀ i ∈ V, ∀ v, ∑ a : Ω i, k i (Function.update v i a) = 1

theorem BayesNet.kernels [Field K] [LinearOrder K] {V : Finset α} {E : α → α → Prop}
    (M : BayesNet (K := K) V E Ω) : Kernels V E M.kernel := ⟨M.isLocal, M.sum_one⟩

section Barren
variable [CommSemiring K] {V : Finset α} {E : α → α → Prop} {k : α → (∀ i, Ω i) → K}

theorem Kernels.mono (h : Kernels V E k) {W : Finset α} (hW : W ⊆ V) : Kernels W E k :=
  ⟨fun i hi => h.loc i (hW hi), fun i hi => h.one i (hW hi)⟩

theorem Kernels.one' (h : Kernels V E k) {i : α} (hi : i ∈ V) (v : ∀ i, Ω i) : sumOut {i} (k i) v = 1 := by
  rw [sumOut_singleton]; exact h.one i hi v

/-- Some element of a non-empty finite set has no successor in it. -/
theorem exists_sink (hac : Acyclic E) (D : Finset α) (hne : D.Nonempty) :
    ∃ i ∈ D, ∀ j ∈ D, ¬ E i j := by
  by_contra hcon
  push Not at hcon
  -- follow successors within D
  obtain ⟨a, ha⟩ := hne
  choose! s hs using hcon
  have hit : ∀ n, s^[n] a ∈ D := by
    intro n
    induction n with
    | zero => exact ha
    | succ n ih => rw [Function.iterate_succ_apply']; exact (hs _ ih).1
  have hpath : ∀ n m, n < m → Reach1 E (s^[n] a) (s^[m] a) := by
    intro n m hnm
    induction m with
    | zero => omega
    | succ m ih =>
      have hstep : E (s^[m] a) (s^[m+1] a) := by
        rw [Function.iterate_succ_apply']; exact (hs _ (hit m)).2
      rcases Nat.lt_or_ge n m with h | h
      · exact (ih h).tail hstep
      · have : n = m := by omega
        subst this; exact .single hstep
  have hninj : ¬ Function.Injective (fun n : ℕ => (⟨s^[n] a, hit n⟩ : D)) :=
    not_injective_infinite_finite _
  simp only [Function.Injective, not_forall] at hninj
  obtain ⟨n, m, h, hne⟩ := hninj
  have h' : s^[n] a = s^[m] a := congrArg Subtype.val h
  rcases Nat.lt_or_gt_of_ne hne with hlt | hlt
  · have := hpath n m hlt; rw [h'] at this; exact hac _ this
  · have := hpath m n hlt; rw [h'] at this; exact hac _ this

/-- Barren variables: summing out a set closed under effects removes its factors. -/
theorem sumOut_barren (hac : Acyclic E) : ∀ (n : ℕ) (D V : Finset α), D.card = n → Kernels V E k → D ⊆ V →
    (∀ i ∈ D, ∀ j ∈ V, E i j → j ∈ D) →
    sumOut D (fun v => ∏ i ∈ V, k i v) = fun v => ∏ i ∈ V \ D, k i v := by
  intro n
  induction n with
  | zero =>
    intro D V hc _ _ _
    rw [Finset.card_eq_zero.1 hc, sumOut_empty, Finset.sdiff_empty]
  | succ n ih =>
    intro D V hc hk hDV hcl
    obtain ⟨i, hiD, hi⟩ := exists_sink hac D (Finset.card_pos.1 (by omega))
    have hiV := hDV hiD
    have hD : D = (D.erase i) ∪ {i} := by ext j; simp; grind
    have hdisj : Disjoint (D.erase i) {i} := by simp
    have hfac : (fun v => ∏ j ∈ V, k j v) = fun v => (∏ j ∈ V.erase i, k j v) * k i v := by
      funext v; rw [Finset.prod_erase_mul _ _ hiV]
    have hdep : DependsOn (fun v => ∏ j ∈ V.erase i, k j v) ({i}ᶜ : Set α) := by
      apply dependsOn_prod
      intro j hj
      refine (hk.loc j (Finset.mem_of_mem_erase hj)).mono ?_
      intro l hl
      rcases hl with rfl | hl
      · simpa using Finset.ne_of_mem_erase hj
      · rintro rfl
        exact hi j (hcl _ hiD j (Finset.mem_of_mem_erase hj) hl) hl
    rw [hD, sumOut_union hdisj, hfac, sumOut_mul_left hdep (by intro j hj hj'; simp at hj hj'; exact hj hj')]
    have h1 : (fun v => (∏ j ∈ V.erase i, k j v) * sumOut {i} (k i) v) = fun v => ∏ j ∈ V.erase i, k j v := by
      funext v; rw [hk.one' hiV, mul_one]
    rw [h1, ih (D.erase i) (V.erase i) (by rw [Finset.card_erase_of_mem hiD]; omega)
      (hk.mono (Finset.erase_subset _ _)) (Finset.erase_subset_erase _ hDV)]
    · funext v; congr 1; ext j; simp; grind
    · intro a ha b hb hab
      have hb' := Finset.mem_of_mem_erase hb
      exact Finset.mem_erase.2 ⟨Finset.ne_of_mem_erase hb, hcl a (Finset.mem_of_mem_erase ha) b hb' hab⟩

/-- Marginalising onto `S ⊆ A` where `A ⊆ V` contains all causes (within `V`) of its members. -/
theorem sumOut_ancestral (hac : Acyclic E) (hk : Kernels V E k) {A S : Finset α} (hA : A ⊆ V)
    (hcl : ∀ j ∈ A, ∀ i ∈ V, E i j → i ∈ A) (hS : S ⊆ A) :
    sumOut (V \ S) (fun v => ∏ i ∈ V, k i v) = sumOut (A \ S) (fun v => ∏ i ∈ A, k i v) := by
  have h1 : V \ S = (A \ S) ∪ (V \ A) := by ext j; simp; grind
  have hd : Disjoint (A \ S) (V \ A) := by
    rw [Finset.disjoint_left]; intro j; simp; grind
  rw [h1, sumOut_union hd, sumOut_barren hac _ (V \ A) V rfl hk Finset.sdiff_subset, Finset.sdiff_sdiff_eq_self hA]
  intro i hi j hj hij
  rw [Finset.mem_sdiff] at hi ⊢
  exact ⟨hj, fun hjA => hi.2 (hcl j hjA i hi.1 hij)⟩

theorem mul4 (a b c d : K) : a * b * (c * d) = a * d * (c * b) := by
  rw [mul_mul_mul_comm, mul_mul_mul_comm a d, mul_comm b d]

set_option maxHeartbeats 800000 in
open Classical in
/-- Conditional independence from disconnection in the pruned graph. -/
theorem indep_of_disconnected (hac : Acyclic E) (hk : Kernels V E k) (hV : ∀ i, ∀ j ∈ V, E i j → i ∈ V)
    {X Y Z : Finset α} (hX : X ⊆ V) (hY : Y ⊆ V) (hZ : Z ⊆ V)
    (hsep : ∀ x ∈ X, ∀ y ∈ Y, ¬ Relation.ReflTransGen
      (Adj (MDG.SepEdge E {t | t ∈ X ∪ Y ∪ Z} {t | t ∈ Z})) x y) (v : ∀ i, Ω i) :
    sumOut (V \ (X ∪ Y ∪ Z)) (fun v => ∏ i ∈ V, k i v) v * sumOut (V \ Z) (fun v => ∏ i ∈ V, k i v) v =
    sumOut (V \ (X ∪ Z)) (fun v => ∏ i ∈ V, k i v) v * sumOut (V \ (Y ∪ Z)) (fun v => ∏ i ∈ V, k i v) v := by
  set T := X ∪ Y ∪ Z with hT
  set A := V.filter (fun a => ∃ t ∈ T, Reach E a t) with hA
  set R := Relation.ReflTransGen (Adj (MDG.SepEdge E {t | t ∈ T} {t | t ∈ Z})) with hR
  set C := A.filter (fun a => ∃ x ∈ X, R x a) with hC
  have hAV : A ⊆ V := Finset.filter_subset _ _
  have hTA : T ⊆ A := by
    intro t ht
    refine Finset.mem_filter.2 ⟨?_, t, ht, .refl⟩
    rw [hT] at ht; simp only [Finset.mem_union] at ht
    rcases ht with (h | h) | h
    · exact hX h
    · exact hY h
    · exact hZ h
  have hcl : ∀ j ∈ A, ∀ i ∈ V, E i j → i ∈ A := by
    intro j hj i hi hij
    obtain ⟨_, t, ht, hr⟩ := Finset.mem_filter.1 hj
    exact Finset.mem_filter.2 ⟨hi, t, ht, hr.head hij⟩
  have hXC : X ⊆ C := by
    intro x hx
    exact Finset.mem_filter.2 ⟨hTA (by simp [hT, hx]), x, hx, .refl⟩
  have hYC : ∀ y ∈ Y, y ∉ C := by
    intro y hy h
    obtain ⟨_, x, hx, hr⟩ := Finset.mem_filter.1 h
    exact hsep x hx y hy hr
  have hCA : C ⊆ A := Finset.filter_subset _ _
  have hpar : ∀ i ∈ A, ∀ j, E j i → j ∈ A := fun i hi j hji => hcl i hi j (hV j i (hAV hi) hji) hji
  have hsame : ∀ i ∈ A, ∀ j, E j i → j ∉ Z → (j ∈ C ↔ i ∈ C) := by
    intro i hi j hji hjZ
    obtain ⟨_, t, ht, hr⟩ := Finset.mem_filter.1 hi
    have hsep' : MDG.SepEdge E {t | t ∈ T} {t | t ∈ Z} j i := ⟨hji, hjZ, t, ht, hr⟩
    constructor
    · intro h
      obtain ⟨_, x, hx, hxr⟩ := Finset.mem_filter.1 h
      exact Finset.mem_filter.2 ⟨hi, x, hx, hxr.tail (.inl hsep')⟩
    · intro h
      obtain ⟨_, x, hx, hxr⟩ := Finset.mem_filter.1 h
      exact Finset.mem_filter.2 ⟨hpar i hi j hji, x, hx, hxr.tail (.inr hsep')⟩
  have hF1 : DependsOn (fun v => ∏ i ∈ C, k i v) {j | j ∈ C ∨ j ∈ Z} := by
    apply dependsOn_prod
    intro i hi
    refine (hk.loc i (hAV (hCA hi))).mono ?_
    rintro j (rfl | hj)
    · exact .inl hi
    · by_cases hjZ : j ∈ Z
      · exact .inr hjZ
      · exact .inl ((hsame i (hCA hi) j hj hjZ).2 hi)
  have hF2 : DependsOn (fun v => ∏ i ∈ A \ C, k i v) {j | j ∉ C ∨ j ∈ Z} := by
    apply dependsOn_prod
    intro i hi
    rw [Finset.mem_sdiff] at hi
    refine (hk.loc i (hAV hi.1)).mono ?_
    rintro j (rfl | hj)
    · exact .inl hi.2
    · by_cases hjZ : j ∈ Z
      · exact .inr hjZ
      · exact .inl (fun h => hi.2 ((hsame i hi.1 j hj hjZ).1 h))
  have key : ∀ S, Z ⊆ S → S ⊆ T → sumOut (V \ S) (fun v => ∏ i ∈ V, k i v) =
      fun v => sumOut (C \ S) (fun v => ∏ i ∈ C, k i v) v * sumOut ((A \ C) \ S) (fun v => ∏ i ∈ A \ C, k i v) v := by
    intro S hZS hST
    rw [sumOut_ancestral hac hk hAV hcl (hST.trans hTA)]
    have h1 : (fun v => ∏ i ∈ A, k i v) = fun v => (∏ i ∈ C, k i v) * ∏ i ∈ A \ C, k i v := by
      funext v; rw [mul_comm, Finset.prod_sdiff hCA]
    have h2 : A \ S = (C \ S) ∪ ((A \ C) \ S) := by
      ext j; simp only [Finset.mem_sdiff, Finset.mem_union]
      have := @hCA j
      tauto
    rw [h1, h2]
    refine sumOut_mul_split ?_ hF1 hF2 ?_ ?_
    · rw [Finset.disjoint_left]; intro j; simp only [Finset.mem_sdiff]; tauto
    · rintro j (h | h) h' <;> simp only [Finset.mem_sdiff] at h'
      · exact h'.1.2 h
      · exact h'.2 (hZS h)
    · rintro j (h | h) h' <;> simp only [Finset.mem_sdiff] at h'
      · exact h h'.1
      · exact h'.2 (hZS h)
  have e1 := congrFun (key T (by intro z; simp [hT]; tauto) (Finset.Subset.refl _)) v
  have e2 := congrFun (key Z (Finset.Subset.refl _) (by intro z; simp [hT]; tauto)) v
  have e3 := congrFun (key (X ∪ Z) (by intro z; simp; tauto) (by intro z; simp [hT]; tauto)) v
  have e4 := congrFun (key (Y ∪ Z) (by intro z; simp; tauto) (by intro z; simp [hT]; tauto)) v
  rw [e1, e2, e3, e4]
  have c1 : C \ T = C \ (X ∪ Z) := by
    ext j; simp only [Finset.mem_sdiff, Finset.mem_union, hT]
    have := hYC j
    tauto
  have c2 : C \ (Y ∪ Z) = C \ Z := by
    ext j; simp only [Finset.mem_sdiff, Finset.mem_union]
    have := hYC j
    tauto
  have c3 : (A \ C) \ T = (A \ C) \ (Y ∪ Z) := by
    ext j; simp only [Finset.mem_sdiff, Finset.mem_union, hT]
    have := @hXC j
    tauto
  have c4 : (A \ C) \ (X ∪ Z) = (A \ C) \ Z := by
    ext j; simp only [Finset.mem_sdiff, Finset.mem_union]
    have := @hXC j
    tauto
  rw [c1, c2, c3, c4]
  exact mul4 _ _ _ _

end Barren

end YL.Spec
