import Verif.Model.Gen
import Verif.Lib.MMatrix
import Mathlib.Tactic.FinCases
import Mathlib.Data.Finset.Prod

/-!
# C133-C134: the generators of synthetic graphs and data and the accuracy measures
-/

set_option linter.unusedSectionVars false

namespace YL.Props

open YL Spec Gen

section Graphs
variable {d n : Nat}

theorem randomPermutation_apply (σ : Equiv.Perm (Fin d)) (M : Gen.Mx d) (i j : Fin d) :
    randomPermutation σ M i j = M (σ.symm i) (σ.symm j) := by
  unfold randomPermutation permEye
  rw [Matrix.mul_apply]
  simp only [Matrix.mul_apply, Matrix.transpose_apply, Matrix.of_apply]
  rw [Finset.sum_eq_single (σ.symm j)]
  · rw [Finset.sum_eq_single (σ.symm i)]
    · simp
    · intro b _ hb
      have : σ b ≠ i := fun h => hb (by rw [← h]; simp)
      simp [this]
    · intro h; exact absurd (Finset.mem_univ _) h
  · intro b _ hb
    have : σ b ≠ j := fun h => hb (by rw [← h]; simp)
    simp [this]
  · intro h; exact absurd (Finset.mem_univ _) h

theorem acyclic_of_rank {E : Fin d → Fin d → Prop} (rank : Fin d → Nat) (h : ∀ i j, E i j → rank i < rank j) : Acyclic E := by
  intro i hi
  have : ∀ a b, Relation.TransGen E a b → rank a < rank b := by
    intro a b hab
    induction hab with
    | single h1 => exact h _ _ h1
    | tail _ h1 ih => exact lt_trans ih (h _ _ h1)
  exact absurd (this i i hi) (lt_irrefl _)

theorem acyclic_perm (σ : Equiv.Perm (Fin d)) {M : Gen.Mx d} (h : Acyclic (Edge M)) : Acyclic (Edge (randomPermutation σ M)) := by
  obtain ⟨rank, hr⟩ := exists_rank h
  refine acyclic_of_rank (fun i => rank (σ.symm i)) (fun i j hij => hr _ _ ?_)
  unfold Edge at hij ⊢
  rwa [randomPermutation_apply] at hij

theorem acyclic_tril (M : Gen.Mx d) : Acyclic (Edge (tril (-1) M)) := by
  refine acyclic_of_rank (fun i => d - i) (fun i j hij => ?_)
  unfold Edge tril at hij
  simp only [Matrix.of_apply, ne_eq, ite_eq_right_iff, Classical.not_imp] at hij
  have := hij.1
  have hi := i.2
  show d - (i : Nat) < d - (j : Nat)
  omega

/-- C133. `simulate_dag(..., 'ER')` never fails its assertion: whatever graph and permutations are drawn, the result has no directed
cycle. -/
theorem C133_er_dag (G : Gen.Mx d) (σ τ : Equiv.Perm (Fin d)) :
    ∃ B, simulateDag .ER G σ τ = .ok B ∧ Acyclic (Edge B) := by
  have h := acyclic_perm τ (acyclic_tril (randomPermutation σ G))
  exact ⟨_, by rw [simulateDag, simulateDag.check, if_pos h], h⟩

/-- C133. `simulate_dag(..., 'ER')` orients every edge of the drawn undirected graph exactly once, up to a renaming of the variables, and adds no
other edge. -/
theorem C133_er_orientation (G : Gen.Mx d) (hsymm : ∀ i j, G i j = G j i) (hdiag : ∀ i, G i i = 0) (σ τ : Equiv.Perm (Fin d))
    (B : Gen.Mx d) (h : simulateDag .ER G σ τ = .ok B) :
    ∃ π : Equiv.Perm (Fin d), ∀ i j, (B i j = 0 ∨ B j i = 0) ∧ B i j + B j i = G (π i) (π j) := by
  have hd := acyclic_perm τ (acyclic_tril (randomPermutation σ G))
  rw [simulateDag, simulateDag.check, if_pos hd] at h
  cases h
  refine ⟨τ.symm.trans σ.symm, fun i j => ?_⟩
  rw [randomPermutation_apply, randomPermutation_apply]
  simp only [tril, Matrix.of_apply, randomPermutation_apply, Equiv.trans_apply]
  rcases lt_trichotomy (τ.symm i) (τ.symm j) with h | h | h
  · have h1 : ¬ (((τ.symm j : Fin d) : Nat) : Int) - ((τ.symm i : Fin d) : Nat) ≤ -1 := by
      have := Fin.lt_def.1 h; omega
    have h2 : (((τ.symm i : Fin d) : Nat) : Int) - ((τ.symm j : Fin d) : Nat) ≤ -1 := by
      have := Fin.lt_def.1 h; omega
    rw [if_neg h1, if_pos h2, zero_add]
    exact ⟨.inl rfl, hsymm _ _⟩
  · rw [h, hdiag]; simp
  · have h1 : ¬ (((τ.symm i : Fin d) : Nat) : Int) - ((τ.symm j : Fin d) : Nat) ≤ -1 := by
      have := Fin.lt_def.1 h; omega
    have h2 : (((τ.symm j : Fin d) : Nat) : Int) - ((τ.symm i : Fin d) : Nat) ≤ -1 := by
      have := Fin.lt_def.1 h; omega
    rw [if_neg h1, if_pos h2, add_zero]
    exact ⟨.inr rfl, rfl⟩

/-- C133. For the other types the assertion fails exactly if the drawn graph has a cycle, and the answer is the drawn graph with the
variables renamed. -/
theorem C133_other_dag (G : Gen.Mx d) (σ τ : Equiv.Perm (Fin d)) :
    (Acyclic (Edge G) → ∃ B, simulateDag .SF G σ τ = .ok B ∧ simulateDag .BP G σ τ = .ok B ∧ Acyclic (Edge B) ∧
      ∃ π : Equiv.Perm (Fin d), ∀ i j, B i j = G (π i) (π j)) ∧
    (¬ Acyclic (Edge G) → simulateDag .SF G σ τ = .error .assertion) := by
  constructor
  · intro h
    have h1 := acyclic_perm τ h
    exact ⟨_, by rw [simulateDag, simulateDag.check, if_pos h1], by rw [simulateDag, simulateDag.check, if_pos h1], h1, τ.symm,
      fun i j => randomPermutation_apply τ G i j⟩
  · intro h
    have h1 : ¬ Acyclic (Edge (randomPermutation τ G)) := fun hc => h (by
      have := acyclic_perm τ.symm hc
      have he : randomPermutation τ.symm (randomPermutation τ G) = G := by
        ext i j; rw [randomPermutation_apply, randomPermutation_apply]; simp
      rwa [he] at this)
    rw [simulateDag, simulateDag.check, if_neg h1]

/-- C133, `simulate_er_dag`, the generator of the lag matrices, does not make a DAG, although its name says so: `k = 1` keeps the diagonal above the main one. -/
theorem C133_simulate_er_dag_refuted : ∃ A : Gen.Mx 2, (∀ i j, A i j = A j i) ∧ (∀ i, A i i = 0) ∧
    ¬ Acyclic (Edge (simulateErDag 1 A)) := by
  refine ⟨Matrix.of ![![0, 1], ![1, 0]], ?_, ?_, fun h => ?_⟩
  · intro i j; fin_cases i <;> fin_cases j <;> simp
  · intro i; fin_cases i <;> simp
  · exact h 0 (.tail (.single (by unfold Edge simulateErDag tril; norm_num : Edge _ 0 1)) (by unfold Edge simulateErDag tril; norm_num : Edge _ 1 0))

theorem foldl_param (m : Nat) (B : Gen.Mx d) (S : Fin d → Fin d → Nat) (U : Nat → Gen.Mx d) (i j : Fin d) :
    simulateParameter m B S U i j = if S i j < m then B i j * U (S i j) i j else 0 := by
  unfold simulateParameter
  induction m with
  | zero => simp
  | succ m ih =>
    rw [List.range_succ, List.foldl_append]
    simp only [List.foldl_cons, List.foldl_nil, Matrix.add_apply, Matrix.of_apply]
    rw [ih]
    rcases lt_trichotomy (S i j) m with h | h | h
    · rw [if_pos h, if_neg (by omega), if_pos (by omega)]; ring
    · rw [if_neg (by omega), if_pos h, if_pos (by omega), h]; ring
    · rw [if_neg (by omega), if_neg (by omega), if_neg (by omega)]; ring

/-- C133. `simulate_parameter`: a non-edge keeps weight zero, the weight of an edge is the number drawn for it from the range chosen for it; so if
no range contains zero the weights have the same edges as `B`. -/
theorem C133_parameter (m : Nat) (B : Gen.Mx d) (hB : ∀ i j, B i j = 0 ∨ B i j = 1) (S : Fin d → Fin d → Nat) (hS : ∀ i j, S i j < m)
    (U : Nat → Gen.Mx d) (low high : Nat → ℝ) (hU : ∀ k i j, low k ≤ U k i j ∧ U k i j ≤ high k)
    (h0 : ∀ k, 0 < low k ∨ high k < 0) (i j : Fin d) :
    (Edge (simulateParameter m B S U) i j ↔ Edge B i j) ∧
      (Edge B i j → low (S i j) ≤ simulateParameter m B S U i j ∧ simulateParameter m B S U i j ≤ high (S i j)) := by
  unfold Edge
  rw [foldl_param, if_pos (hS i j)]
  have hU' := hU (S i j) i j
  have hne : U (S i j) i j ≠ 0 := by
    rcases h0 (S i j) with h | h
    · exact (lt_of_lt_of_le h hU'.1).ne'
    · exact (lt_of_le_of_lt hU'.2 h).ne
  rcases hB i j with h | h
  · simp [h]
  · simp [h, hne, hU']

/-! ### The structural equations -/

theorem predictor_eq (W : Gen.Mx d) (X : Matrix (Fin n) (Fin d) ℝ) (j : Fin d) (a : Fin n) : predictor W X j a = ∑ i, X a i * W i j := by
  unfold predictor parents
  rw [← List.sum_toFinset _ ((List.nodup_finRange d).filter _)]
  have : ((List.finRange d).filter (fun i => decide (W i j ≠ 0))).toFinset = Finset.univ.filter (fun i => W i j ≠ 0) := by
    ext i; simp
  rw [this, Finset.sum_filter]
  refine Finset.sum_congr rfl (fun i _ => ?_)
  by_cases h : W i j = 0 <;> simp [h]

theorem simLoop_frame (W : Gen.Mx d) (eqn : Fin d → (Fin n → ℝ) → Fin n → ℝ) : ∀ (l : List (Fin d)) (X : Matrix (Fin n) (Fin d) ℝ) (k : Fin d),
    k ∉ l → ∀ a, simLoop W eqn l X a k = X a k
  | [], _, _, _, _ => rfl
  | j :: js, X, k, hk, a => by
    rw [simLoop, simLoop_frame W eqn js _ k (fun h => hk (List.mem_cons_of_mem _ h)) a, Matrix.updateCol_apply,
      if_neg (fun h => hk (by rw [h]; exact List.mem_cons_self))]

theorem simLoop_spec (W : Gen.Mx d) (eqn : Fin d → (Fin n → ℝ) → Fin n → ℝ) : ∀ (l : List (Fin d)) (X : Matrix (Fin n) (Fin d) ℝ),
    l.Nodup → (∀ l₁ v l₂, l = l₁ ++ v :: l₂ → ∀ u, W u v ≠ 0 → u ∈ v :: l₂ → False) →
    ∀ j ∈ l, ∀ a, simLoop W eqn l X a j = eqn j (predictor W (simLoop W eqn l X) j) a
  | [], _, _, _, j, hj, _ => by simp at hj
  | k :: ks, X, hnd, hord, j, hj, a => by
    have hnd' := List.nodup_cons.1 hnd
    rw [simLoop]
    rcases List.mem_cons.1 hj with h | h
    · subst h
      rw [simLoop_frame W eqn ks _ j hnd'.1 a, Matrix.updateCol_self]
      congr 1
      funext b
      rw [predictor_eq, predictor_eq]
      refine Finset.sum_congr rfl (fun i _ => ?_)
      by_cases hi : W i j = 0
      · simp [hi]
      · have hni : i ∉ j :: ks := fun hm => hord [] j ks rfl i hi hm
        rw [simLoop_frame W eqn ks _ i (fun h => hni (List.mem_cons_of_mem _ h)) b, Matrix.updateCol_apply,
          if_neg (fun h => hni (by rw [h]; exact List.mem_cons_self))]
    · exact simLoop_spec W eqn ks _ hnd'.2 (fun l₁ v l₂ hl u hu hm => hord (k :: l₁) v l₂ (by rw [hl]; rfl) u hu hm) j h a

/-- C133. `simulate_linear_sem` returns a solution of the structural equations: every column is drawn from the linear predictor formed with the
*final* columns and all weights; this holds for every topological order `igraph` may return. A graph with a cycle is rejected. -/
theorem C133_sem (W : Gen.Mx d) (hW : Acyclic (Edge W)) (eqn : Fin d → (Fin n → ℝ) → Fin n → ℝ) (order : List (Fin d))
    (ho : IsTopoOrder Set.univ (Edge W) order) :
    ∃ X, simulateLinearSem W eqn order = .ok X ∧
      ∀ j a, X a j = eqn j (fun b => ∑ i, X b i * W i j) a := by
  obtain ⟨hnd, hmem, hpar⟩ := ho
  have hlen : order.length = d := by
    have h1 : order.toFinset = Finset.univ := by ext i; simp [hmem i]
    have h2 := List.toFinset_card_of_nodup hnd
    rw [h1, Finset.card_univ, Fintype.card_fin] at h2
    exact h2.symm
  refine ⟨simLoop W eqn order 0, by rw [simulateLinearSem, if_pos hW, if_pos hlen], fun j a => ?_⟩
  have := simLoop_spec W eqn order 0 hnd (fun l₁ v l₂ hl u hu hm => by
    have h1 := hpar l₁ v l₂ hl u hu
    rw [hl] at hnd
    exact (List.disjoint_of_nodup_append hnd) h1 hm) j ((hmem j).2 trivial) a
  rw [this]
  congr 1
  funext b
  exact predictor_eq _ _ _ _

/-- C133. Linear equations with additive noise: the data are determined by the noise, `X (I - W) = Z`, so they are the same for every topological
order. -/
theorem C133_sem_unique (W : Gen.Mx d) (hW : Acyclic (Edge W)) (z : Fin d → Fin n → ℝ) (order order' : List (Fin d))
    (ho : IsTopoOrder Set.univ (Edge W) order) (ho' : IsTopoOrder Set.univ (Edge W) order') :
    simulateLinearSem W (additive z) order = simulateLinearSem W (additive z) order' ∧
      ∃ X, simulateLinearSem W (additive z) order = .ok X ∧ X * (1 - W) = Matrix.of (fun a j => z j a) := by
  have hdet : (1 - W).det ≠ 0 := by
    have := MMat.det_acyclic 1 W hW
    rw [one_smul, one_pow] at this
    rw [this]; exact one_ne_zero
  have key : ∀ l, IsTopoOrder Set.univ (Edge W) l →
      ∃ X, simulateLinearSem W (additive z) l = .ok X ∧ X * (1 - W) = Matrix.of (fun a j => z j a) := by
    intro l hl
    obtain ⟨X, hX, he⟩ := C133_sem W hW (additive z) l hl
    refine ⟨X, hX, ?_⟩
    ext a j
    rw [Matrix.mul_sub, Matrix.mul_one, Matrix.sub_apply, Matrix.mul_apply, Matrix.of_apply]
    have := he j a
    unfold additive at this
    linarith
  obtain ⟨X, hX, he⟩ := key order ho
  obtain ⟨Y, hY, he'⟩ := key order' ho'
  have : X = Y := by
    have h1 : X * (1 - W) * (1 - W)⁻¹ = Y * (1 - W) * (1 - W)⁻¹ := by rw [he, he']
    rwa [Matrix.mul_nonsing_inv_cancel_right _ _ hdet.isUnit, Matrix.mul_nonsing_inv_cancel_right _ _ hdet.isUnit] at h1
  refine ⟨by rw [hX, hY, this], X, hX, he⟩

/-- C133. Population data (`n = inf`): the second moments `XᵀX / d` are the covariance of the model, that is the residuals `X - X W` are
uncorrelated with the required variances. -/
theorem C133_population (W : Gen.Mx d) (hW : Acyclic (Edge W)) (scale : Fin d → ℝ) :
    ∃ X, population W scale = .ok X ∧
      (1 - W).transpose * (((1 : ℝ) / d) • (X.transpose * X)) * (1 - W) = Matrix.diagonal (fun j => scale j ^ 2) := by
  refine ⟨_, by rw [population, if_pos hW], ?_⟩
  have hdet : (1 - W).det ≠ 0 := by
    have := MMat.det_acyclic 1 W hW
    rw [one_smul, one_pow] at this
    rw [this]; exact one_ne_zero
  rcases Nat.eq_zero_or_pos d with h0 | hd
  · subst h0; ext i; exact i.elim0
  have h1 : (Real.sqrt d • Matrix.diagonal scale * (1 - W)⁻¹) * (1 - W) = Real.sqrt d • Matrix.diagonal scale :=
    Matrix.nonsing_inv_mul_cancel_right _ _ hdet.isUnit
  generalize Real.sqrt d • Matrix.diagonal scale * (1 - W)⁻¹ = X at h1 ⊢
  have h2 : (1 - W).transpose * (((1 : ℝ) / d) • (X.transpose * X)) * (1 - W) =
      ((1 : ℝ) / d) • ((X * (1 - W)).transpose * (X * (1 - W))) := by
    rw [Matrix.transpose_mul X (1 - W), Matrix.mul_smul, Matrix.smul_mul]
    simp only [Matrix.mul_assoc]
  rw [h2, h1]
  have h3 : Real.sqrt d * Real.sqrt d = (d : ℝ) := Real.mul_self_sqrt (Nat.cast_nonneg d)
  have h4 : (d : ℝ) ≠ 0 := Nat.cast_ne_zero.2 hd.ne'
  rw [Matrix.transpose_smul, Matrix.diagonal_transpose, Matrix.smul_mul, Matrix.mul_smul, smul_smul, smul_smul, Matrix.diagonal_mul_diagonal]
  rw [show (1 : ℝ) / d * Real.sqrt d * Real.sqrt d = 1 by rw [mul_assoc, h3]; field_simp]
  rw [one_smul]
  congr 1; funext j; ring

/-- non-vacuity: a chain of two variables -/
example : Acyclic (Edge (Matrix.of ![![0, 1], ![0, 0]] : Gen.Mx 2)) ∧
    IsTopoOrder Set.univ (Edge (Matrix.of ![![0, 1], ![0, 0]] : Gen.Mx 2)) [0, 1] := by
  refine ⟨acyclic_of_rank (fun i => i) (fun i j hij => ?_), by simp, fun v => by fin_cases v <;> simp, ?_⟩
  · fin_cases i <;> fin_cases j <;> simp [Edge] at hij ⊢
  · intro l₁ v l₂ h u hu
    rcases l₁ with _ | ⟨x, _ | ⟨y, l⟩⟩
    · simp only [List.nil_append, List.cons.injEq] at h
      rw [← h.1] at hu
      fin_cases u <;> simp [Edge] at hu
    · simp only [List.cons_append, List.nil_append, List.cons.injEq] at h
      obtain ⟨h1, h2, -⟩ := h
      subst h1 h2
      fin_cases u <;> simp [Edge] at hu ⊢
    · simp at h

theorem nonlinear_frame (B : Gen.Mx d) (eqn : Fin d → List (Fin n → ℝ) → Fin n → ℝ) : ∀ (l : List (Fin d)) (X : Matrix (Fin n) (Fin d) ℝ) (k : Fin d),
    k ∉ l → ∀ a, nonlinearLoop B eqn l X a k = X a k
  | [], _, _, _, _ => rfl
  | j :: js, X, k, hk, a => by
    rw [nonlinearLoop, nonlinear_frame B eqn js _ k (fun h => hk (List.mem_cons_of_mem _ h)) a, Matrix.updateCol_apply,
      if_neg (fun h => hk (by rw [h]; exact List.mem_cons_self))]

theorem nonlinear_spec (B : Gen.Mx d) (eqn : Fin d → List (Fin n → ℝ) → Fin n → ℝ) : ∀ (l : List (Fin d)) (X : Matrix (Fin n) (Fin d) ℝ),
    l.Nodup → (∀ l₁ v l₂, l = l₁ ++ v :: l₂ → ∀ u, B u v ≠ 0 → u ∈ v :: l₂ → False) →
    ∀ j ∈ l, ∀ a, nonlinearLoop B eqn l X a j = eqn j ((parents B j).map (fun i b => nonlinearLoop B eqn l X b i)) a
  | [], _, _, _, j, hj, _ => by simp at hj
  | k :: ks, X, hnd, hord, j, hj, a => by
    have hnd' := List.nodup_cons.1 hnd
    rw [nonlinearLoop]
    rcases List.mem_cons.1 hj with h | h
    · subst h
      rw [nonlinear_frame B eqn ks _ j hnd'.1 a, Matrix.updateCol_self]
      congr 1
      refine List.map_congr_left (fun i hi => ?_)
      funext b
      have hi' : B i j ≠ 0 := by simpa [parents] using hi
      have hni : i ∉ j :: ks := fun hm => hord [] j ks rfl i hi' hm
      rw [nonlinear_frame B eqn ks _ i (fun h => hni (List.mem_cons_of_mem _ h)) b, Matrix.updateCol_apply,
        if_neg (fun h => hni (by rw [h]; exact List.mem_cons_self))]
    · exact nonlinear_spec B eqn ks _ hnd'.2 (fun l₁ v l₂ hl u hu hm => hord (k :: l₁) v l₂ (by rw [hl]; rfl) u hu hm) j h a

/-- C133. `simulate_nonlinear_sem`: every column is the value of its equation at the final columns of its parents, for every topological order. -/
theorem C133_nonlinear (B : Gen.Mx d) (eqn : Fin d → List (Fin n → ℝ) → Fin n → ℝ) (order : List (Fin d))
    (ho : IsTopoOrder Set.univ (Edge B) order) (j : Fin d) (a : Fin n) :
    nonlinearLoop B eqn order 0 a j = eqn j ((parents B j).map (fun i b => nonlinearLoop B eqn order 0 b i)) a ∧
      ∀ i, i ∈ parents B j ↔ Edge B i j := by
  obtain ⟨hnd, hmem, hpar⟩ := ho
  refine ⟨nonlinear_spec B eqn order 0 hnd (fun l₁ v l₂ hl u hu hm => ?_) j ((hmem j).2 trivial) a, fun i => by simp [parents, Edge]⟩
  have h1 := hpar l₁ v l₂ hl u hu
  rw [hl] at hnd
  exact (List.disjoint_of_nodup_append hnd) h1 hm

theorem lag_frame (A : Nat → Gen.Mx d) (B : Gen.Mx d) (lagX : Nat → Matrix (Fin n) (Fin d) ℝ) (z0 : Fin d → Fin n → ℝ)
    (z : Nat → Fin d → Fin n → ℝ) (order : Nat) : ∀ (l : List (Fin d)) (X : Matrix (Fin n) (Fin d) ℝ) (k : Fin d),
    k ∉ l → ∀ a, lagLoop A B lagX z0 z order l X a k = X a k
  | [], _, _, _, _ => rfl
  | j :: js, X, k, hk, a => by
    rw [lagLoop, lag_frame A B lagX z0 z order js _ k (fun h => hk (List.mem_cons_of_mem _ h)) a, Matrix.updateCol_apply,
      if_neg (fun h => hk (by rw [h]; exact List.mem_cons_self))]

theorem lag_spec (A : Nat → Gen.Mx d) (B : Gen.Mx d) (lagX : Nat → Matrix (Fin n) (Fin d) ℝ) (z0 : Fin d → Fin n → ℝ)
    (z : Nat → Fin d → Fin n → ℝ) (order : Nat) : ∀ (l : List (Fin d)) (X : Matrix (Fin n) (Fin d) ℝ),
    l.Nodup → (∀ l₁ v l₂, l = l₁ ++ v :: l₂ → ∀ u, B u v ≠ 0 → u ∈ v :: l₂ → False) →
    ∀ j ∈ l, ∀ a, lagLoop A B lagX z0 z order l X a j =
      predictor B (lagLoop A B lagX z0 z order l X) j a + lagSum A lagX z order j a
  | [], _, _, _, j, hj, _ => by simp at hj
  | k :: ks, X, hnd, hord, j, hj, a => by
    have hnd' := List.nodup_cons.1 hnd
    rw [lagLoop]
    rcases List.mem_cons.1 hj with h | h
    · subst h
      rw [lag_frame A B lagX z0 z order ks _ j hnd'.1 a, Matrix.updateCol_self, zero_mul, add_zero]
      congr 1
      rw [predictor_eq, predictor_eq]
      refine Finset.sum_congr rfl (fun i _ => ?_)
      by_cases hi : B i j = 0
      · simp [hi]
      · have hni : i ∉ j :: ks := fun hm => hord [] j ks rfl i hi hm
        rw [lag_frame A B lagX z0 z order ks _ i (fun h => hni (List.mem_cons_of_mem _ h)) a, Matrix.updateCol_apply,
          if_neg (fun h => hni (by rw [h]; exact List.mem_cons_self))]
    · exact lag_spec A B lagX z0 z order ks _ hnd'.2 (fun l₁ v l₂ hl u hu hm => hord (k :: l₁) v l₂ (by rw [hl]; rfl) u hu hm) j h a

/-- C133. The time series generator: each new row solves `x = x B + Σₖ lagₖ Aₖ + Σₖ zₖ`. The noise of a row is the *sum* of one draw per lag: its
variance grows with the order, and with order 0 there is no noise at all. -/
theorem C133_lags (A : Nat → Gen.Mx d) (B : Gen.Mx d) (lagX : Nat → Matrix (Fin n) (Fin d) ℝ) (z0 : Fin d → Fin n → ℝ)
    (z : Nat → Fin d → Fin n → ℝ) (order : Nat) (l : List (Fin d)) (ho : IsTopoOrder Set.univ (Edge B) l) (j : Fin d) (a : Fin n) :
    lagLoop A B lagX z0 z order l 0 a j =
      ∑ i, lagLoop A B lagX z0 z order l 0 a i * B i j + ∑ k ∈ Finset.range order, ∑ i, lagX k a i * A k i j +
        ∑ k ∈ Finset.range order, z k j a := by
  obtain ⟨hnd, hmem, hpar⟩ := ho
  have h := lag_spec A B lagX z0 z order l 0 hnd (fun l₁ v l₂ hl u hu hm => by
    have h1 := hpar l₁ v l₂ hl u hu
    rw [hl] at hnd
    exact (List.disjoint_of_nodup_append hnd) h1 hm) j ((hmem j).2 trivial) a
  rw [h, predictor_eq, add_assoc]
  congr 1
  unfold lagSum
  rw [← Finset.sum_add_distrib, ← List.sum_toFinset _ List.nodup_range, List.toFinset_range]
  refine Finset.sum_congr rfl (fun k _ => ?_)
  rw [predictor_eq, one_mul]
end Graphs

/-! ### `count_accuracy` -/

section Accuracy
variable {d : Nat}

/-- how two vertices are joined in a graph: by which of the two possible edges -/
def joins (E : Fin d → Fin d → Prop) (e : Fin d × Fin d) : Prop × Prop := (E e.1 e.2, E e.2 e.1)

open Classical in
/-- the structural Hamming distance of two graphs: the number of (unordered) pairs of vertices that are joined differently -/
noncomputable def hamming (E F : Fin d → Fin d → Prop) : Nat :=
  (Finset.univ.filter (fun e : Fin d × Fin d => e.2 ≤ e.1 ∧ joins E e ≠ joins F e)).card

theorem mem_where {p : Fin d → Fin d → Prop} {e : Fin d × Fin d} : e ∈ where' p ↔ p e.1 e.2 := by
  classical
  simp [where']

/-- binary entries -/
def Bin (E : Gen.Mx d) : Prop := ∀ i j, E i j = 0 ∨ E i j = 1

/-- no pair of opposite edges and no loop -/
def Simple (E : Gen.Mx d) : Prop := ∀ i j, Edge E i j → ¬ Edge E j i

theorem simple_of_acyclic {E : Gen.Mx d} (h : Acyclic (Edge E)) : Simple E :=
  fun i _ hij hji => h i (.tail (.single hij) hji)

theorem bin_one {E : Gen.Mx d} (h : Bin E) (i j : Fin d) : E i j = 1 ↔ Edge E i j := by
  unfold Edge
  rcases h i j with h | h <;> rw [h] <;> norm_num

theorem bin_neg {E : Gen.Mx d} (h : Bin E) (i j : Fin d) : E i j ≠ -1 := by
  rcases h i j with h | h <;> rw [h] <;> norm_num

/-- an edge of the symmetric sum -/
theorem sum_ne {E : Gen.Mx d} (h : Simple E) (i j : Fin d) : (E + E.transpose) i j ≠ 0 ↔ Edge E i j ∨ Edge E j i := by
  rw [Matrix.add_apply, Matrix.transpose_apply]
  unfold Edge
  by_cases h1 : E i j = 0
  · rw [h1, zero_add]; simp
  · have h2 : E j i = 0 := by
      by_contra hc
      exact h i j h1 hc
    rw [h2, add_zero]; simp

theorem tril_ne {E : Gen.Mx d} (i j : Fin d) : tril 0 E i j ≠ 0 ↔ j ≤ i ∧ E i j ≠ 0 := by
  unfold tril
  simp only [Matrix.of_apply, ne_eq, ite_eq_right_iff, Classical.not_imp]
  rw [Fin.le_def]
  constructor
  · rintro ⟨h1, h2⟩; exact ⟨by omega, h2⟩
  · rintro ⟨h1, h2⟩; exact ⟨by omega, h2⟩

/-- C134. For a binary estimate and a true graph without opposite edges, every reported edge is right, reversed or false, exclusively: the
false discovery rate is one minus the share of right edges, and both rates are between 0 and 1. -/
theorem C134_rates (T E : Gen.Mx d) (hT : Simple T) (hE : Bin E) :
    let right := (where' (fun i j => Edge E i j ∧ Edge T i j)).card
    let r := countAccuracy T E
    r.nnz = (where' (Edge E)).card ∧
      (0 < r.nnz → r.fdr = 1 - (right : ℝ) / r.nnz) ∧
      (0 < (where' (Edge T)).card → r.tpr = (right : ℝ) / (where' (Edge T)).card) ∧
      0 ≤ r.fdr ∧ r.fdr ≤ 1 ∧ 0 ≤ r.tpr ∧ r.tpr ≤ 1 := by
  classical
  intro right r
  have hpred : where' (fun i j => E i j = 1) = where' (Edge E) := by
    ext e; rw [mem_where, mem_where, bin_one hE]
  have hund : where' (fun i j => E i j = -1) = ∅ := by
    ext e; rw [mem_where]; simp [bin_neg hE]
  have hcond : where' (fun i j => T i j ≠ 0) = where' (Edge T) := rfl
  have hright : (where' (Edge E) ∩ where' (Edge T)).card = right := by
    congr 1
    ext e; simp [mem_where]
  -- the reported edges split into three parts
  have hsplit : ((where' (Edge E) \ where' (Edge T)) ∩ where' (fun i j => T.transpose i j ≠ 0)).card +
      (where' (Edge E) \ (where' (Edge T) ∪ where' (fun i j => T.transpose i j ≠ 0))).card + right = (where' (Edge E)).card := by
    rw [← hright, ← Finset.card_inter_add_card_sdiff (where' (Edge E)) (where' (Edge T))]
    rw [← Finset.card_inter_add_card_sdiff (where' (Edge E) \ where' (Edge T)) (where' (fun i j => T.transpose i j ≠ 0))]
    have he : (where' (Edge E) \ where' (Edge T)) \ where' (fun i j => T.transpose i j ≠ 0) =
        where' (Edge E) \ (where' (Edge T) ∪ where' (fun i j => T.transpose i j ≠ 0)) := by
      ext e; simp only [Finset.mem_sdiff, Finset.mem_union]; tauto
    rw [he]
    omega
  have hr : r = countAccuracy T E := rfl
  unfold countAccuracy at hr
  simp only [hpred, hund, hcond, Finset.card_empty, add_zero, Finset.empty_inter, Finset.empty_sdiff, hright] at hr
  have hle : right ≤ (where' (Edge E)).card := by omega
  have hle2 : right ≤ (where' (Edge T)).card := by rw [← hright]; exact Finset.card_le_card Finset.inter_subset_right
  have hbad : (((where' (Edge E) \ where' (Edge T)) ∩ where' (fun i j => T.transpose i j ≠ 0)).card +
      (where' (Edge E) \ (where' (Edge T) ∪ where' (fun i j => T.transpose i j ≠ 0))).card : Nat) = (where' (Edge E)).card - right := by omega
  rw [hbad] at hr
  rw [hr]
  refine ⟨rfl, fun h => ?_, fun h => ?_, ?_, ?_, ?_, ?_⟩
  · simp only at h ⊢
    have h1 : 1 ≤ (where' (Edge E)).card := h
    rw [max_eq_left h1, Nat.cast_sub hle]
    have : ((where' (Edge E)).card : ℝ) ≠ 0 := by positivity
    field_simp
  · simp only
    have h1 : 1 ≤ (where' (Edge T)).card := h
    rw [max_eq_left h1]
  · positivity
  · simp only
    rw [div_le_one (by positivity)]
    exact_mod_cast (Nat.sub_le _ _).trans (le_max_left _ _)
  · positivity
  · simp only
    rw [div_le_one (by positivity)]
    exact_mod_cast hle2.trans (le_max_left _ _)

/-- C134. The `shd` of two graphs without opposite edges is their structural Hamming distance. -/
theorem C134_shd (T E : Gen.Mx d) (hT : Simple T) (hE : Bin E) (hE2 : Simple E) :
    (countAccuracy T E).shd = hamming (Edge E) (Edge T) := by
  classical
  have hpl : where' (fun i j => tril 0 (E + E.transpose) i j ≠ 0) = where' (fun i j => j ≤ i ∧ (Edge E i j ∨ Edge E j i)) := by
    ext e; rw [mem_where, mem_where, tril_ne, sum_ne hE2]
  have hcl : where' (fun i j => tril 0 (T + T.transpose) i j ≠ 0) = where' (fun i j => j ≤ i ∧ (Edge T i j ∨ Edge T j i)) := by
    ext e; rw [mem_where, mem_where, tril_ne, sum_ne hT]
  have hrev : ((where' (fun i j => E i j = 1) \ where' (fun i j => T i j ≠ 0)) ∩ where' (fun i j => T.transpose i j ≠ 0)) =
      where' (fun i j => Edge E i j ∧ Edge T j i) := by
    ext e
    simp only [Finset.mem_inter, Finset.mem_sdiff, mem_where, bin_one hE, Matrix.transpose_apply]
    constructor
    · rintro ⟨⟨h1, -⟩, h2⟩; exact ⟨h1, h2⟩
    · rintro ⟨h1, h2⟩; exact ⟨⟨h1, fun h => hT _ _ h h2⟩, h2⟩
  have hshd : (countAccuracy T E).shd =
      (where' (fun i j => j ≤ i ∧ (Edge E i j ∨ Edge E j i)) \ where' (fun i j => j ≤ i ∧ (Edge T i j ∨ Edge T j i))).card +
      (where' (fun i j => j ≤ i ∧ (Edge T i j ∨ Edge T j i)) \ where' (fun i j => j ≤ i ∧ (Edge E i j ∨ Edge E j i))).card +
      (where' (fun i j => Edge E i j ∧ Edge T j i)).card := by
    unfold countAccuracy
    simp only [hpl, hcl, hrev]
  rw [hshd]
  -- a reversed edge, seen from the larger vertex
  have hrevcard : (where' (fun i j => Edge E i j ∧ Edge T j i)).card =
      (where' (fun i j : Fin d => j ≤ i ∧ ((Edge E i j ∧ Edge T j i) ∨ (Edge E j i ∧ Edge T i j)))).card := by
    refine Finset.card_bij' (fun e _ => if e.2 ≤ e.1 then e else e.swap)
      (fun e _ => if Edge E e.1 e.2 then e else e.swap) ?_ ?_ ?_ ?_
    · intro e he
      rw [mem_where] at he ⊢
      by_cases h : e.2 ≤ e.1
      · simp only [if_pos h]; exact ⟨h, .inl he⟩
      · simp only [if_neg h, Prod.fst_swap, Prod.snd_swap]
        exact ⟨(not_le.1 h).le, .inr he⟩
    · intro e he
      rw [mem_where] at he ⊢
      by_cases h : Edge E e.1 e.2
      · simp only [if_pos h]
        rcases he.2 with h2 | h2
        · exact h2
        · exact absurd h2.1 (hE2 _ _ h)
      · simp only [if_neg h, Prod.fst_swap, Prod.snd_swap]
        rcases he.2 with h2 | h2
        · exact absurd h2.1 h
        · exact h2
    · intro e he
      rw [mem_where] at he
      by_cases h : e.2 ≤ e.1
      · simp only [if_pos h, he.1, if_true]
      · simp only [if_neg h, Prod.fst_swap, Prod.snd_swap]
        rw [if_neg (hE2 _ _ he.1), Prod.swap_swap]
    · intro e he
      rw [mem_where] at he
      by_cases h : Edge E e.1 e.2
      · simp only [if_pos h, he.1, if_true]
      · simp only [if_neg h, Prod.fst_swap, Prod.snd_swap]
        have hne : ¬ e.1 ≤ e.2 := by
          intro hle
          have heq : e.1 = e.2 := le_antisymm hle he.1
          rcases he.2 with h2 | h2
          · exact h h2.1
          · rw [← heq] at h2 h
            exact h h2.1
        rw [if_neg hne, Prod.swap_swap]
  rw [hrevcard]
  unfold hamming
  rw [← Finset.card_union_of_disjoint, ← Finset.card_union_of_disjoint]
  · congr 1
    ext ⟨i, j⟩
    simp only [Finset.mem_union, Finset.mem_sdiff, mem_where, Finset.mem_filter, Finset.mem_univ, true_and, joins, ne_eq, Prod.mk.injEq, eq_iff_iff]
    have a1 := hE2 i j
    have a2 := hT i j
    tauto
  · rw [Finset.disjoint_left]
    intro e h1 h2
    simp only [Finset.mem_union, Finset.mem_sdiff, mem_where] at h1 h2
    tauto
  · rw [Finset.disjoint_left]
    intro e h1 h2
    simp only [Finset.mem_sdiff, mem_where] at h1 h2
    tauto

/-- C134. So `shd` is a distance on the graphs without opposite edges: zero exactly for equal edges, symmetric, with the triangle inequality. -/
theorem C134_shd_metric (A B C : Gen.Mx d) (hA : Bin A) (hB : Bin B) (hC : Bin C) (sA : Simple A) (sB : Simple B) (sC : Simple C) :
    ((countAccuracy A B).shd = 0 ↔ A = B) ∧ (countAccuracy A B).shd = (countAccuracy B A).shd ∧
      (countAccuracy A C).shd ≤ (countAccuracy A B).shd + (countAccuracy B C).shd := by
  classical
  rw [C134_shd A B sA hB sB, C134_shd B A sB hA sA, C134_shd A C sA hC sC, C134_shd B C sB hC sC]
  unfold hamming
  refine ⟨?_, ?_, ?_⟩
  · rw [Finset.card_eq_zero, Finset.filter_eq_empty_iff]
    constructor
    · intro h
      ext i j
      have hedge : Edge A i j ↔ Edge B i j := by
        rcases le_total j i with hij | hij
        · have := h (Finset.mem_univ (i, j))
          simp only [not_and, not_not] at this
          have := congrArg Prod.fst (this hij)
          simp only [joins, eq_iff_iff] at this
          exact this.symm
        · have := h (Finset.mem_univ (j, i))
          simp only [not_and, not_not] at this
          have := congrArg Prod.snd (this hij)
          simp only [joins, eq_iff_iff] at this
          exact this.symm
      rw [← bin_one hA, ← bin_one hB] at hedge
      rcases hA i j with h1 | h1 <;> rcases hB i j with h2 | h2 <;> rw [h1, h2] at hedge <;> simp [h1, h2] at hedge ⊢
    · rintro rfl e _
      simp
  · congr 1
    ext e
    simp only [Finset.mem_filter, Finset.mem_univ, true_and, ne_eq, eq_comm]
  · refine le_trans (Finset.card_le_card ?_) (Finset.card_union_le _ _)
    intro e he
    simp only [Finset.mem_union, Finset.mem_filter, Finset.mem_univ, true_and] at he ⊢
    by_cases h : joins (Edge B) e = joins (Edge A) e
    · right; refine ⟨he.1, ?_⟩; rw [h]; exact he.2
    · left; exact ⟨he.1, h⟩

/-- the complete graph on three vertices, `i → j` for `i < j`, and its reverse -/
def upper3 : Gen.Mx 3 := Matrix.of ![![0, 1, 1], ![0, 0, 1], ![0, 0, 0]]

theorem upper3_bin : Bin upper3 ∧ Bin upper3.transpose ∧ Simple upper3 ∧ Simple upper3.transpose := by
  refine ⟨?_, ?_, ?_, ?_⟩ <;> intro i j <;> fin_cases i <;> fin_cases j <;> simp [upper3, Edge]

/-- C134, the false positive rate can exceed one: reversed edges are counted among the false positives, but not among the negatives. -/
theorem C134_fpr_refuted : (countAccuracy upper3 upper3.transpose).fpr = 3 := by
  classical
  have hbin := upper3_bin
  have hpred : where' (fun i j => upper3.transpose i j = 1) = {((1 : Fin 3), (0 : Fin 3)), (2, 0), (2, 1)} := by
    ext ⟨i, j⟩; rw [mem_where]; fin_cases i <;> fin_cases j <;> simp [upper3]
  have hund : where' (fun i j => upper3.transpose i j = -1) = ∅ := by
    ext e; rw [mem_where]; simpa using bin_neg hbin.1 e.2 e.1
  have hcond : where' (fun i j => upper3 i j ≠ 0) = {((0 : Fin 3), (1 : Fin 3)), (0, 2), (1, 2)} := by
    ext ⟨i, j⟩; rw [mem_where]; fin_cases i <;> fin_cases j <;> simp [upper3]
  have hrev : where' (fun i j => upper3.transpose i j ≠ 0) = {((1 : Fin 3), (0 : Fin 3)), (2, 0), (2, 1)} := by
    ext ⟨i, j⟩; rw [mem_where]; fin_cases i <;> fin_cases j <;> simp [upper3]
  unfold countAccuracy
  simp only [hpred, hund, hcond, hrev]
  have h1 : ((({((1 : Fin 3), (0 : Fin 3)), (2, 0), (2, 1)} : Finset (Fin 3 × Fin 3)) \ {((0 : Fin 3), (1 : Fin 3)), (0, 2), (1, 2)}) ∩
      {((1 : Fin 3), (0 : Fin 3)), (2, 0), (2, 1)}).card = 3 := by decide
  have h2 : (({((1 : Fin 3), (0 : Fin 3)), (2, 0), (2, 1)} : Finset (Fin 3 × Fin 3)) \ ({((0 : Fin 3), (1 : Fin 3)), (0, 2), (1, 2)} ∪
      {((1 : Fin 3), (0 : Fin 3)), (2, 0), (2, 1)})).card = 0 := by decide
  have h3 : ({((0 : Fin 3), (1 : Fin 3)), (0, 2), (1, 2)} : Finset (Fin 3 × Fin 3)).card = 3 := by decide
  rw [h1, h2, h3]
  norm_num
end Accuracy
end YL.Props
