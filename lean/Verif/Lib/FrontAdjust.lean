import Verif.Lib.Adjust

/-! The front-door adjustment formula. -/

set_option linter.unusedSectionVars false
set_option linter.unusedVariables false

namespace YL.Spec

open Function

variable {α : Type} [DecidableEq α] {Ω : α → Type} [∀ i, Fintype (Ω i)] {K : Type}
variable [Field K] [LinearOrder K] [IsStrictOrderedRing K] {V : Finset α} {E : α → α → Prop}

/-- The network after `do(x = u x)`, as a network on the other variables. -/
def BayesNet.doNet (M : BayesNet (K := K) V E Ω) (x : α) (u : ∀ i, Ω i) :
    BayesNet (K := K) (V.erase x) (fun a b => E a b ∧ a ≠ x ∧ b ≠ x) Ω where
  kernel i w := M.kernel i (update w x (u x))
  isLocal := by
    intro i hi w w' h
    rw [Finset.mem_erase] at hi
    apply M.isLocal i hi.2
    intro j hj
    by_cases hjx : j = x
    · subst hjx; simp
    · rw [update_of_ne hjx, update_of_ne hjx]
      apply h
      rcases hj with rfl | hj
      · exact .inl rfl
      · exact .inr ⟨hj, hjx, hi.1⟩
  nonneg := fun i hi v => M.nonneg i (Finset.mem_of_mem_erase hi) _
  sum_one := by
    intro i hi w
    rw [Finset.mem_erase] at hi
    rw [← M.sum_one i hi.2 (update w x (u x))]
    refine Finset.sum_congr rfl (fun a _ => ?_)
    rw [update_comm hi.1]

variable {M : BayesNet (K := K) V E Ω}

theorem BayesNet.doNet_P {x : α} {u w : ∀ i, Ω i} (h : w x = u x) (S : Finset α) :
    (M.doNet x u).P S w = M.Pdo {x} S w := by
  unfold BayesNet.P BayesNet.Pdo
  have h1 : V.erase x \ S = V \ ({x} ∪ S) := by ext i; simp; tauto
  rw [h1]
  refine sumOut_congr (fun w' hw' => ?_)
  have hx : w' x = u x := by rw [hw' x (by simp), h]
  have h2 : V.erase x = V \ {x} := by ext i; simp; tauto
  refine Finset.prod_congr h2 (fun i _ => ?_)
  show M.kernel i (update w' x (u x)) = _
  rw [← hx, update_eq_self]

theorem BayesNet.doNet_Pdo {x : α} {u w : ∀ i, Ω i} (h : w x = u x) (X S : Finset α) :
    (M.doNet x u).Pdo X S w = M.Pdo ({x} ∪ X) S w := by
  unfold BayesNet.Pdo
  have h1 : V.erase x \ (X ∪ S) = V \ ({x} ∪ X ∪ S) := by ext i; simp; tauto
  rw [h1]
  refine sumOut_congr (fun w' hw' => ?_)
  have hx : w' x = u x := by rw [hw' x (by simp), h]
  have h2 : V.erase x \ X = V \ ({x} ∪ X) := by ext i; simp; tauto
  rw [h2]
  refine Finset.prod_congr rfl (fun i _ => ?_)
  show M.kernel i (update w' x (u x)) = _
  rw [← hx, update_eq_self]

open Classical in
/-- Intervening on something that has no directed path to `Y` around the other interventions changes
nothing. -/
theorem BayesNet.Pdo_irrelevant (hac : Acyclic E) (hV : ∀ i, ∀ j ∈ V, E i j → i ∈ V) {X Z Y : Finset α}
    (hY : Y ⊆ V) (hXY : Disjoint X Y) (hYZ : Disjoint Y Z)
    (h1 : ∀ x ∈ X, ∀ y ∈ Y, ¬ Relation.ReflTransGen (fun a b => E a b ∧ a ∉ Z ∧ b ∉ Z) x y) :
    M.Pdo (X ∪ Z) Y = M.Pdo Z Y := by
  set A := (V \ Z).filter (fun a => ∃ y ∈ Y, Relation.ReflTransGen (fun a b => E a b ∧ a ∉ Z ∧ b ∉ Z) a y) with hA
  have hAV : A ⊆ V \ Z := Finset.filter_subset _ _
  have hAX : ∀ a ∈ A, a ∉ X := by
    intro a ha hx
    obtain ⟨_, y, hy, hr⟩ := Finset.mem_filter.1 ha
    exact h1 a hx y hy hr
  have hYA : Y ⊆ A := fun y hy => Finset.mem_filter.2
    ⟨Finset.mem_sdiff.2 ⟨hY hy, Finset.disjoint_left.1 hYZ hy⟩, y, hy, .refl⟩
  have hcl : ∀ j ∈ A, ∀ i ∈ V \ Z, E i j → i ∈ A := by
    intro j hj i hi hij
    obtain ⟨hj1, y, hy, hr⟩ := Finset.mem_filter.1 hj
    exact Finset.mem_filter.2 ⟨hi, y, hy, hr.head ⟨hij, (Finset.mem_sdiff.1 hi).2, (Finset.mem_sdiff.1 hj1).2⟩⟩
  have hAV' : A ⊆ V \ (X ∪ Z) := by
    intro a ha
    have := Finset.mem_sdiff.1 (hAV ha)
    simp [this.1, this.2, hAX a ha]
  have hk : Kernels (V \ Z) E M.kernel := M.kernels.mono Finset.sdiff_subset
  have hk' : Kernels (V \ (X ∪ Z)) E M.kernel := M.kernels.mono Finset.sdiff_subset
  unfold BayesNet.Pdo
  have e1 : V \ (X ∪ Z ∪ Y) = (V \ (X ∪ Z)) \ Y := by ext; simp; tauto
  have e2 : V \ (Z ∪ Y) = (V \ Z) \ Y := by ext; simp; tauto
  rw [e1, e2, sumOut_ancestral hac hk hAV hcl hYA, sumOut_ancestral hac hk' hAV' (fun j hj i hi => hcl j hj i
    (by simp at hi ⊢; tauto)) hYA]

theorem BayesNet.dependsOn_P (hV : ∀ i, ∀ j ∈ V, E i j → i ∈ V) (S : Finset α) :
    DependsOn (M.P S) S := by
  have h1 : DependsOn (fun v => ∏ i ∈ V, M.kernel i v) (V : Set α) :=
    dependsOn_prod (fun i hi => by
      intro v w h
      apply M.isLocal i hi
      intro j hj
      apply h
      rcases hj with rfl | hj
      · exact hi
      · exact hV j i hi hj)
  have h2 := dependsOn_sumOut h1 (V \ S)
  intro v w h
  apply h2
  intro i hi
  apply h
  have := hi.2
  simp at this hi
  exact this hi.1

/-- The front-door adjustment formula. -/
theorem frontdoor_adjust (hac : Acyclic E) (hV : ∀ i, ∀ j ∈ V, E i j → i ∈ V) {x : α} {Y Z : Finset α}
    (hx : x ∈ V) (hY : Y ⊆ V) (hZ : Z ⊆ V) (hxY : x ∉ Y) (hxZ : x ∉ Z) (hYZ : Disjoint Y Z)
    (h1 : ∀ y ∈ Y, ¬ Relation.ReflTransGen (fun a b => E a b ∧ a ∉ Z ∧ b ∉ Z) x y)
    (h2 : ∀ z ∈ Z, ¬ Relation.ReflTransGen
      (Adj (MDG.SepEdge (CutOut E {t | t ∈ ({x} : Finset α)}) {t | t ∈ {x} ∪ Z ∪ (∅ : Finset α)} {t | t ∈ (∅ : Finset α)})) x z)
    (h3 : ∀ z ∈ Z, ∀ y ∈ Y, ¬ Relation.ReflTransGen
      (Adj (MDG.SepEdge (CutOut E {t | t ∈ Z}) {t | t ∈ Z ∪ Y ∪ {x}} {t | t ∈ ({x} : Finset α)})) z y)
    (hnd : ∀ z ∈ Z, ¬ Reach E z x)
    (hov : ∀ u, M.P {x} u ≠ 0 → M.P (Z ∪ {x}) u ≠ 0) (v : ∀ i, Ω i) (hpx : M.P {x} v ≠ 0) :
    sumOut Z (fun u => M.cond Z {x} u * sumOut {x} (fun w => M.cond Y (Z ∪ {x}) w * M.P {x} w) u) v =
      M.Pdo {x} Y v := by
  have hxs : ({x} : Finset α) ⊆ V := Finset.singleton_subset_iff.2 hx
  have dxY : Disjoint ({x} : Finset α) Y := Finset.disjoint_singleton_left.2 hxY
  have dxZ : Disjoint ({x} : Finset α) Z := Finset.disjoint_singleton_left.2 hxZ
  -- (a)
  have ha : ∀ u, M.P {x} u ≠ 0 → M.cond Z {x} u = M.Pdo {x} Z u := by
    intro u hu
    have := backdoor_key (M := M) hac hV hxs hZ (Finset.empty_subset V) dxZ (Finset.disjoint_empty_right _)
      (fun a ha z hz => by rw [Finset.mem_singleton] at ha; subst ha; exact h2 z hz) (by simp) u
    rw [BayesNet.P_empty hac, mul_one, Finset.union_empty, Finset.union_empty, Finset.union_empty] at this
    rw [BayesNet.cond, Finset.union_comm, this, mul_div_cancel_left₀ _ hu]
  -- (b)
  have hb : ∀ u, sumOut {x} (fun w => M.cond Y (Z ∪ {x}) w * M.P {x} w) u = M.Pdo Z Y u := by
    intro u
    exact backdoor_adjust (M := M) hac hV hZ hY hxs hYZ.symm dxZ.symm dxY.symm h3
      (fun a ha z hz => by rw [Finset.mem_singleton] at ha; subst ha; exact hnd z hz) hov u
  -- (c)
  have hc : ∀ u, M.Pdo {x} (Y ∪ Z) u = M.Pdo {x} Z u * M.Pdo ({x} ∪ Z) Y u := by
    intro u
    have hac' : Acyclic (fun a b => E a b ∧ a ≠ x ∧ b ≠ x) := fun a h =>
      hac a (Relation.TransGen.mono (fun _ _ h => h.1) _ _ h)
    have := backdoor_key (M := M.doNet x u) hac'
      (fun i j hj hij => Finset.mem_erase.2 ⟨hij.2.1, hV i j (Finset.mem_of_mem_erase hj) hij.1⟩)
      (X := Z) (Y := Y) (Z := ∅)
      (fun z hz => Finset.mem_erase.2 ⟨fun h => hxZ (h ▸ hz), hZ hz⟩)
      (fun z hz => Finset.mem_erase.2 ⟨fun h => hxY (h ▸ hz), hY hz⟩) (Finset.empty_subset _)
      hYZ.symm (Finset.disjoint_empty_right _)
      (fun z hz y hy hr => h3 z hz y hy (Relation.ReflTransGen.mono (fun a b hab => ?_) _ _ hr)) (by simp) u
    · rw [BayesNet.P_empty hac', mul_one, Finset.union_empty, Finset.union_empty, Finset.union_empty,
        BayesNet.doNet_P rfl, BayesNet.doNet_P rfl, BayesNet.doNet_Pdo rfl] at this
      rw [Finset.union_comm Y Z, this]
    · have key : ∀ a b, MDG.SepEdge (CutOut (fun a b => E a b ∧ a ≠ x ∧ b ≠ x) {t | t ∈ Z})
          {t | t ∈ Z ∪ Y ∪ ∅} {t | t ∈ (∅ : Finset α)} a b →
          MDG.SepEdge (CutOut E {t | t ∈ Z}) {t | t ∈ Z ∪ Y ∪ {x}} {t | t ∈ ({x} : Finset α)} a b := by
        rintro a b ⟨k1, k2, t, ht, hr⟩
        refine ⟨⟨k1.1.1, k1.2⟩, by simpa using k1.1.2.1, t, ?_,
          Relation.ReflTransGen.mono (fun _ _ h => ⟨h.1.1, h.2⟩) _ _ hr⟩
        simp at ht ⊢; tauto
      exact hab.imp (key _ _) (key _ _)
  -- (d)
  have hd : M.Pdo ({x} ∪ Z) Y = M.Pdo Z Y :=
    BayesNet.Pdo_irrelevant hac hV hY dxY hYZ
      (fun a ha y hy => by rw [Finset.mem_singleton] at ha; subst ha; exact h1 y hy)
  rw [← BayesNet.Pdo_sum (M := M) hZ dxZ hYZ]
  refine sumOut_congr (fun u hu => ?_)
  have hux : M.P {x} u ≠ 0 := by
    rw [BayesNet.dependsOn_P hV {x} (fun i hi => by
      simp at hi; subst hi; exact hu i hxZ)]
    exact hpx
  rw [ha u hux, hb, hc, hd]

end YL.Spec
