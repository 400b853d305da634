import Verif.Props.DoubleML
import Mathlib.LinearAlgebra.Matrix.Rank
import Mathlib.Algebra.Order.Chebyshev
import Mathlib.Tactic.Linarith
import Mathlib.Tactic.FieldSimp

/-!
# C141: the error of DoubleML is of second order in the errors of its first stage models
-/

set_option linter.unusedSectionVars false

namespace YL.Props

open YL Meta

variable {W K : Type} [Field K]

/-- Least squares with intercept: the residuals sum to zero and are orthogonal to every combination of the columns. -/
def LeastSquares (fitR : List (List K) → List K → List K) : Prop :=
  ∀ (L : List (List K × K)) (n : Nat), L ≠ [] → (∀ p ∈ L, p.1.length = n) →
    (fitR (L.map (·.1)) (L.map (·.2))).length = n ∧ ∃ c : K,
      (L.map (fun p => p.2 - c - DML.dot p.1 (fitR (L.map (·.1)) (L.map (·.2))))).sum = 0 ∧
      ∀ δ : List K, δ.length = n →
        (L.map (fun p => DML.dot p.1 δ * (p.2 - c - DML.dot p.1 (fitR (L.map (·.1)) (L.map (·.2)))))).sum = 0

/-- sum over a list as a sum over positions -/
theorem sum_list_fin {ι : Type} (l : List ι) (f : ι → K) : (l.map f).sum = ∑ i : Fin l.length, f l[i.1] :=
  (Fin.sum_univ_fun_getElem l f).symm

/-- the algebra of the normal equations when the residual of the treatment is orthogonal to functions of the covariates -/
theorem bias_core {n : Nat} (A B A' B' ε h : Fin n → K) (c : K)
    (h1 : ∑ i, (ε i + h i - c - (A i + B i)) = 0)
    (h2 : ∑ i, (A' i + B' i) * (ε i + h i - c - (A i + B i)) = 0)
    (a1 : ∑ i, A i = 0) (a2 : ∑ i, A' i = 0) (a3 : ∑ i, A' i * h i = 0) (a4 : ∑ i, A' i * B i = 0) (a5 : ∑ i, A i * B' i = 0)
    (e1 : ∑ i, ε i = 0) (e2 : ∑ i, A' i * ε i = 0) (e3 : ∑ i, B' i * ε i = 0) :
    (n : K) * (∑ i, A' i * A i + ∑ i, B' i * B i) - (∑ i, B' i) * ∑ i, B i =
      (n : K) * ∑ i, B' i * h i - (∑ i, B' i) * ∑ i, h i := by
  have k1 : ∑ i, (ε i + h i - c - (A i + B i)) = ∑ i, ε i + ∑ i, h i - (n : K) * c - (∑ i, A i + ∑ i, B i) := by
    simp [Finset.sum_sub_distrib, Finset.sum_add_distrib]
  have k2 : ∑ i, (A' i + B' i) * (ε i + h i - c - (A i + B i)) =
      ∑ i, A' i * ε i + ∑ i, A' i * h i - c * ∑ i, A' i - ∑ i, A' i * A i - ∑ i, A' i * B i +
      ∑ i, B' i * ε i + ∑ i, B' i * h i - c * ∑ i, B' i - ∑ i, A i * B' i - ∑ i, B' i * B i := by
    simp only [Finset.mul_sum, ← Finset.sum_sub_distrib, ← Finset.sum_add_distrib]
    refine Finset.sum_congr rfl (fun i _ => by ring)
  rw [k1, a1, e1] at h1
  rw [k2, a2, a3, a4, a5, e2, e3] at h2
  linear_combination (-(n : K)) * h2 + (∑ i, B' i) * h1

theorem range_sum_list (n : Nat) (t : Nat → K) : ((List.range n).map t).sum = ∑ j ∈ Finset.range n, t j := by
  induction n with
  | zero => simp
  | succ n ih => rw [List.range_succ, List.map_append, List.sum_append, ih, Finset.sum_range_succ]; simp

/-- one row of the design times a coefficient vector -/
theorem dot_xPrime {x xh v : List K} {xd p : Nat} (hx : x.length = xd) (hxh : xh.length = xd) (hv : v.length = p) (δ : List K) :
    DML.dot (DML.xPrime x xh v) δ =
      ∑ j ∈ Finset.range xd, (x.getD j 0 - xh.getD j 0) * DML.dot (DML.coefRow δ (p + 1) j) (1 :: v) := by
  unfold DML.xPrime
  rw [dot_kron, List.length_zipWith, hx, hxh, min_self, range_sum_list]
  refine Finset.sum_congr rfl (fun j hj => ?_)
  have hj' := Finset.mem_range.1 hj
  have h1 : j < x.length := by omega
  have h2 : j < xh.length := by omega
  rw [List.length_cons, hv, List.getElem?_zipWith, List.getElem?_eq_getElem h1, List.getElem?_eq_getElem h2]
  simp [List.getD_eq_getElem?_getD, h1, h2]

theorem mix_range {θ : Nat → List K} {x v : List K} {xd : Nat} (hx : x.length = xd) :
    mix θ x v = ∑ j ∈ Finset.range xd, x.getD j 0 * DML.dot (θ j) (1 :: v) := by
  unfold mix
  rw [hx, range_sum_list]
  refine Finset.sum_congr rfl (fun j _ => by rw [List.getD_eq_getElem?_getD])

/-- C141. The exact error of DoubleML with least squares in the second stage (continuous treatments). The outcome is
`Σ_j x_j θ_j(v) + g(w) + noise`, the noise is uncorrelated with every function of the treatments and covariates, `m` is the mean of the
treatments given the covariates, and the first stage models predict `pr` and `yh`, whatever these are. Then, for every linear direction `γ`, the
errors `e` of the estimated effects satisfy a linear equation whose right-hand side is the covariance of the error of the treatment
model (`m - pr`, in direction `γ`) and the error `h` of the outcome model. -/
theorem C141_error_identity {fitX : List (W × List K) → W → List K} {fitY : List (W × K) → W → K}
    {fitR : List (List K) → List K → List K} (hR : LeastSquares fitR) (f : W → List K) {cf p xd : Nat}
    {rows : List (W × List K × K)} (hne : rows ≠ []) (hx : ∀ r ∈ rows, r.2.1.length = xd) (hf : ∀ r ∈ rows, (f r.1).length = p)
    (θ : Nat → List K) (hθ : ∀ j, (θ j).length = p + 1) (g : W → K) (m : W → List K)
    (hnoise : ∀ q : W → List K → K, (rows.map (fun r => q r.1 r.2.1 * (r.2.2 - (mix θ r.2.1 (f r.1) + g r.1)))).sum = 0)
    (hmean : ∀ j < xd, ∀ q : W → K, (rows.map (fun r => (r.2.1.getD j 0 - (m r.1).getD j 0) * q r.1)).sum = 0)
    (pr : W → List K) (hpr : ∀ r ∈ rows, (pr r.1).length = xd) (yh : W → K)
    (hfx : CF.crossFit fitX cf (rows.map (fun r => (r.1, r.2.1))) = .ok (rows.map (fun r => some (pr r.1))))
    (hfy : CF.crossFit fitY cf (rows.map (fun r => (r.1, r.2.2))) = .ok (rows.map (fun r => some (yh r.1)))) :
    ∃ coef, DML.fitCont fitX fitY fitR (some f) cf xd rows = .ok coef ∧ coef.length = xd * (p + 1) ∧
      ∀ e : Nat → W → K, (∀ j < xd, ∀ w, e j w = (DML.estCont coef xd none (f w) (some 1) (some 0)).1.getD j 0 - DML.dot (θ j) (1 :: f w)) →
      ∀ γ : Nat → List K, (∀ j, (γ j).length = p + 1) →
        let A := fun r : W × List K × K => ∑ j ∈ Finset.range xd, (r.2.1.getD j 0 - (m r.1).getD j 0) * e j r.1
        let B := fun r : W × List K × K => ∑ j ∈ Finset.range xd, ((m r.1).getD j 0 - (pr r.1).getD j 0) * e j r.1
        let A' := fun r : W × List K × K => ∑ j ∈ Finset.range xd, (r.2.1.getD j 0 - (m r.1).getD j 0) * DML.dot (γ j) (1 :: f r.1)
        let B' := fun r : W × List K × K => ∑ j ∈ Finset.range xd, ((m r.1).getD j 0 - (pr r.1).getD j 0) * DML.dot (γ j) (1 :: f r.1)
        let h := fun r : W × List K × K => mix θ (pr r.1) (f r.1) + g r.1 - yh r.1
        (rows.length : K) * ((rows.map (fun r => A' r * A r)).sum + (rows.map (fun r => B' r * B r)).sum) -
            (rows.map B').sum * (rows.map B).sum =
          (rows.length : K) * (rows.map (fun r => B' r * h r)).sum - (rows.map B').sum * (rows.map h).sum := by
  let L : List (List K × K) := rows.map (fun r => (DML.xPrime r.2.1 (pr r.1) (f r.1), r.2.2 - yh r.1))
  have hL1 : L.map (·.1) = rows.map (fun r => DML.xPrime r.2.1 (pr r.1) (f r.1)) := by
    simp only [L, List.map_map]; rfl
  have hL2 : L.map (·.2) = rows.map (fun r => r.2.2 - yh r.1) := by
    simp only [L, List.map_map]; rfl
  have hlen : ∀ q ∈ L, q.1.length = xd * (p + 1) := by
    intro q hq
    obtain ⟨r, hr, rfl⟩ := List.mem_map.1 hq
    simp only [DML.xPrime]
    rw [kron_length, List.length_zipWith, hx r hr, hpr r hr, min_self, List.length_cons, hf r hr]
  obtain ⟨hcl, c, h1, h2⟩ := hR L (xd * (p + 1)) (by simpa [L] using hne) hlen
  rw [hL1, hL2] at hcl h1 h2
  set coef := fitR (rows.map (fun r => DML.xPrime r.2.1 (pr r.1) (f r.1))) (rows.map (fun r => r.2.2 - yh r.1)) with hcoef
  refine ⟨coef, ?_, hcl, ?_⟩
  · unfold DML.fitCont
    simp only [hfx, hfy]
    rw [collectX_map rows (fun r => pr r.1) hpr, collectY_map rows (fun r => yh r.1)]
    simp only [DML.secondStage]
    rw [List.zip_map', List.zip_map', List.map_map, List.zipWith_map, List.zipWith_self]
    rfl
  · intro e he γ hγ A B A' B' h
    let ε : W × List K × K → K := fun r => r.2.2 - (mix θ r.2.1 (f r.1) + g r.1)
    have hest : ∀ r ∈ rows, ∀ j < xd, e j r.1 = DML.dot (DML.coefRow coef (p + 1) j) (1 :: f r.1) - DML.dot (θ j) (1 :: f r.1) := by
      intro r hr j hj
      rw [he j hj, DML.estCont]
      simp only [List.getD_eq_getElem?_getD, List.getElem?_map, fij_get hj, Option.map_some, Option.getD_some, hf r hr]
      ring
    -- the residual of a row
    have hres : ∀ r ∈ rows, r.2.2 - yh r.1 - c - DML.dot (DML.xPrime r.2.1 (pr r.1) (f r.1)) coef = ε r + h r - c - (A r + B r) := by
      intro r hr
      have k1 : A r + B r = DML.dot (DML.xPrime r.2.1 (pr r.1) (f r.1)) coef -
          (mix θ r.2.1 (f r.1) - mix θ (pr r.1) (f r.1)) := by
        rw [dot_xPrime (hx r hr) (hpr r hr) (hf r hr), mix_range (hx r hr), mix_range (hpr r hr)]
        simp only [A, B, ← Finset.sum_sub_distrib, ← Finset.sum_add_distrib]
        refine Finset.sum_congr rfl (fun j hj => ?_)
        rw [hest r hr j (Finset.mem_range.1 hj)]
        ring
      rw [k1]
      simp only [ε, h]
      ring
    have hdir : ∀ r ∈ rows, DML.dot (DML.xPrime r.2.1 (pr r.1) (f r.1)) ((List.range xd).flatMap γ) = A' r + B' r := by
      intro r hr
      rw [dot_xPrime (hx r hr) (hpr r hr) (hf r hr)]
      simp only [A', B', ← Finset.sum_add_distrib]
      refine Finset.sum_congr rfl (fun j hj => ?_)
      rw [coefRow_flatMap hγ (Finset.mem_range.1 hj)]
      ring
    -- sums over rows
    have S1 : (rows.map (fun r => ε r + h r - c - (A r + B r))).sum = 0 := by
      rw [← h1]
      simp only [L, List.map_map]
      congr 1
      refine List.map_congr_left (fun r hr => ?_)
      simp only [Function.comp_apply]
      rw [hres r hr]
    have S2 : (rows.map (fun r => (A' r + B' r) * (ε r + h r - c - (A r + B r)))).sum = 0 := by
      rw [← h2 ((List.range xd).flatMap γ) (flatMap_length hγ xd)]
      simp only [L, List.map_map]
      congr 1
      refine List.map_congr_left (fun r hr => ?_)
      simp only [Function.comp_apply]
      rw [hres r hr, hdir r hr]
    -- orthogonality
    have orth : ∀ (a : Nat → W → K) (q : W → K),
        (rows.map (fun r => (∑ j ∈ Finset.range xd, (r.2.1.getD j 0 - (m r.1).getD j 0) * a j r.1) * q r.1)).sum = 0 := by
      intro a q
      rw [sum_list_fin]
      simp only [Finset.sum_mul]
      rw [Finset.sum_comm]
      refine Finset.sum_eq_zero (fun j hj => ?_)
      have := hmean j (Finset.mem_range.1 hj) (fun w => a j w * q w)
      rw [sum_list_fin] at this
      exact (Finset.sum_congr rfl (fun i _ => by ring)).trans this
    have a1 := orth e (fun _ => 1)
    have a2 := orth (fun j w => DML.dot (γ j) (1 :: f w)) (fun _ => 1)
    have a3 := orth (fun j w => DML.dot (γ j) (1 :: f w)) (fun w => mix θ (pr w) (f w) + g w - yh w)
    have a4 := orth (fun j w => DML.dot (γ j) (1 :: f w)) (fun w => ∑ j ∈ Finset.range xd, ((m w).getD j 0 - (pr w).getD j 0) * e j w)
    have a5 := orth e (fun w => ∑ j ∈ Finset.range xd, ((m w).getD j 0 - (pr w).getD j 0) * DML.dot (γ j) (1 :: f w))
    have e1 := hnoise (fun _ _ => 1)
    have e2 := hnoise (fun w x => ∑ j ∈ Finset.range xd, (x.getD j 0 - (m w).getD j 0) * DML.dot (γ j) (1 :: f w))
    have e3 := hnoise (fun w _ => ∑ j ∈ Finset.range xd, ((m w).getD j 0 - (pr w).getD j 0) * DML.dot (γ j) (1 :: f w))
    simp only [one_mul, mul_one] at a1 a2 e1
    rw [sum_list_fin] at S1 S2 a1 a2 a3 a4 a5 e1 e2 e3
    simp only [sum_list_fin]
    exact bias_core (fun i => A rows[i.1]) (fun i => B rows[i.1]) (fun i => A' rows[i.1]) (fun i => B' rows[i.1])
      (fun i => ε rows[i.1]) (fun i => h rows[i.1]) c S1 S2 a1 a2 a3 a4 a5 e1 e2 e3

/-! ### Least squares exists -/

/-- what least squares returns for one data set -/
def SolvesLS (L : List (List K × K)) (n : Nat) (coef : List K) : Prop :=
  coef.length = n ∧ ∃ c : K, (L.map (fun p => p.2 - c - DML.dot p.1 coef)).sum = 0 ∧
    ∀ δ : List K, δ.length = n → (L.map (fun p => DML.dot p.1 δ * (p.2 - c - DML.dot p.1 coef))).sum = 0

theorem dot_fin {a b : List K} {n : Nat} (ha : a.length = n) (hb : b.length = n) :
    DML.dot a b = ∑ k : Fin n, a.getD k 0 * b.getD k 0 := by
  induction n generalizing a b with
  | zero => simp [List.length_eq_zero_iff.1 ha, DML.dot]
  | succ n ih =>
    obtain ⟨x, a, rfl⟩ := List.exists_cons_of_length_eq_add_one ha
    obtain ⟨y, b, rfl⟩ := List.exists_cons_of_length_eq_add_one hb
    have := ih (a := a) (b := b) (by simpa using ha) (by simpa using hb)
    unfold DML.dot at this ⊢
    rw [List.zipWith_cons_cons, List.sum_cons, this, Fin.sum_univ_succ]
    rfl

theorem solves_exists [LinearOrder K] [IsStrictOrderedRing K] (L : List (List K × K)) (n : Nat) (hL : ∀ p ∈ L, p.1.length = n) :
    ∃ coef, SolvesLS L n coef := by
  let A : Matrix (Fin L.length) (Option (Fin n)) K := fun i k => k.elim 1 (fun k => L[i.1].1.getD k 0)
  let t : Fin L.length → K := fun i => L[i.1].2
  have hrange : LinearMap.range (A.transpose * A).mulVecLin = LinearMap.range A.transpose.mulVecLin := by
    apply Submodule.eq_of_le_of_finrank_eq
    · rw [Matrix.mulVecLin_mul]; exact LinearMap.range_comp_le_range _ _
    · show (A.transpose * A).rank = A.transpose.rank
      rw [Matrix.rank_transpose_mul_self, Matrix.rank_transpose]
  obtain ⟨β, hβ⟩ : ∃ β, (A.transpose * A).mulVecLin β = A.transpose.mulVecLin t := by
    have : A.transpose.mulVecLin t ∈ LinearMap.range (A.transpose * A).mulVecLin := by
      rw [hrange]; exact ⟨t, rfl⟩
    exact this
  have hnorm : ∀ k, ∑ i, A i k * (t i - ∑ k', A i k' * β k') = 0 := by
    intro k
    have h1 := congrFun hβ k
    rw [Matrix.mulVecLin_mul] at h1
    simp only [LinearMap.comp_apply, Matrix.mulVecLin_apply, Matrix.mulVec, dotProduct, Matrix.transpose_apply] at h1
    simp only [mul_sub, Finset.sum_sub_distrib]
    rw [h1, sub_self]
  let coef : List K := List.ofFn (fun k : Fin n => β (some k))
  have hcl : coef.length = n := by simp [coef]
  have hdot : ∀ i : Fin L.length, t i - ∑ k', A i k' * β k' = L[i.1].2 - β none - DML.dot L[i.1].1 coef := by
    intro i
    rw [dot_fin (hL _ (List.getElem_mem _)) hcl, Fintype.sum_option]
    simp only [A, t, Option.elim, one_mul]
    have : ∀ k : Fin n, coef.getD k 0 = β (some k) := by
      intro k
      simp [coef, List.getD_eq_getElem?_getD]
    simp only [this]
    ring
  refine ⟨coef, hcl, β none, ?_, ?_⟩
  · rw [sum_list_fin, ← hnorm none]
    refine Finset.sum_congr rfl (fun i _ => ?_)
    rw [hdot i]
    simp [A]
  · intro δ hδ
    rw [sum_list_fin]
    have key : ∀ i : Fin L.length, DML.dot L[i.1].1 δ * (L[i.1].2 - β none - DML.dot L[i.1].1 coef) =
        ∑ k : Fin n, δ.getD k 0 * (A i (some k) * (t i - ∑ k', A i k' * β k')) := by
      intro i
      rw [hdot i, dot_fin (hL _ (List.getElem_mem _)) hδ, Finset.sum_mul]
      refine Finset.sum_congr rfl (fun k _ => ?_)
      simp only [A, Option.elim]
      ring
    simp only [key]
    rw [Finset.sum_comm]
    refine Finset.sum_eq_zero (fun k _ => ?_)
    rw [← Finset.mul_sum, hnorm, mul_zero]

/-- non-vacuity: least squares exists over every ordered field -/
theorem leastSquares_exists [LinearOrder K] [IsStrictOrderedRing K] : ∃ fitR : List (List K) → List K → List K, LeastSquares fitR := by
  classical
  refine ⟨fun D T => if h : ∃ n coef, (∀ p ∈ D.zip T, p.1.length = n) ∧ D.zip T ≠ [] ∧ SolvesLS (D.zip T) n coef then
    Classical.choose (Classical.choose_spec h) else [], ?_⟩
  intro L n hne hL
  have hz : (L.map (·.1)).zip (L.map (·.2)) = L := by
    rw [List.zip_map']; simp
  simp only [hz]
  obtain ⟨coef, hc⟩ := solves_exists L n hL
  have h : ∃ n coef, (∀ p ∈ L, p.1.length = n) ∧ L ≠ [] ∧ SolvesLS L n coef := ⟨n, coef, hL, hne, hc⟩
  rw [dif_pos h]
  obtain ⟨q1, q2, q3⟩ := Classical.choose_spec (Classical.choose_spec h)
  obtain ⟨q, hq⟩ := List.exists_mem_of_ne_nil _ hne
  have : Classical.choose h = n := by rw [← q1 q hq, hL q hq]
  obtain ⟨z1, c, z2, z3⟩ := q3
  exact ⟨z1.trans this, c, z2, fun δ hδ => z3 δ (hδ.trans this.symm)⟩

/-! ### Consequences -/

section
variable [LinearOrder K] [IsStrictOrderedRing K]

theorem dml_sum_sq_zero {ι : Type} (l : List ι) (A : ι → K) (h : (l.map (fun r => A r * A r)).sum = 0) : ∀ r ∈ l, A r = 0 := by
  induction l with
  | nil => intro r hr; cases hr
  | cons a l ih =>
    rw [List.map_cons, List.sum_cons] at h
    have h1 : 0 ≤ (l.map (fun r => A r * A r)).sum := List.sum_nonneg (by
      intro x hx
      obtain ⟨r, _, rfl⟩ := List.mem_map.1 hx
      exact mul_self_nonneg _)
    have h2 := mul_self_nonneg (A a)
    intro r hr
    rcases List.mem_cons.1 hr with rfl | hr
    · exact mul_self_eq_zero.1 (by linarith)
    · exact ih (by linarith) r hr

/-- C141. If the treatment model predicts the mean of the treatments given the covariates, the estimated effects are exact wherever the
treatment varies, whatever the outcome model predicts (one treatment column). -/
theorem C141_treatment_model_suffices {fitX : List (W × List K) → W → List K} {fitY : List (W × K) → W → K}
    {fitR : List (List K) → List K → List K} (hR : LeastSquares fitR) (f : W → List K) {cf p : Nat}
    {rows : List (W × List K × K)} (hne : rows ≠ []) (hx : ∀ r ∈ rows, r.2.1.length = 1) (hf : ∀ r ∈ rows, (f r.1).length = p)
    (θ : List K) (hθ : θ.length = p + 1) (g : W → K) (m : W → List K) (hm : ∀ r ∈ rows, (m r.1).length = 1)
    (hnoise : ∀ q : W → List K → K,
      (rows.map (fun r => q r.1 r.2.1 * (r.2.2 - (r.2.1.getD 0 0 * DML.dot θ (1 :: f r.1) + g r.1)))).sum = 0)
    (hmean : ∀ q : W → K, (rows.map (fun r => (r.2.1.getD 0 0 - (m r.1).getD 0 0) * q r.1)).sum = 0) (yh : W → K)
    (hfx : CF.crossFit fitX cf (rows.map (fun r => (r.1, r.2.1))) = .ok (rows.map (fun r => some (m r.1))))
    (hfy : CF.crossFit fitY cf (rows.map (fun r => (r.1, r.2.2))) = .ok (rows.map (fun r => some (yh r.1)))) :
    ∃ coef, DML.fitCont fitX fitY fitR (some f) cf 1 rows = .ok coef ∧
      ∀ r ∈ rows, r.2.1.getD 0 0 ≠ (m r.1).getD 0 0 → ∀ stored t c,
        (DML.estCont coef 1 stored (f r.1) (some t) (some c)).1 = [DML.dot θ (1 :: f r.1) * (t - c)] := by
  obtain ⟨coef, h1, hcl, h2⟩ := C141_error_identity hR f hne hx hf (fun _ => θ) (fun _ => hθ) g m (by
      intro q
      have : ∀ r ∈ rows, q r.1 r.2.1 * (r.2.2 - (mix (fun _ => θ) r.2.1 (f r.1) + g r.1)) =
          q r.1 r.2.1 * (r.2.2 - (r.2.1.getD 0 0 * DML.dot θ (1 :: f r.1) + g r.1)) := by
        intro r hr
        rw [mix_range (hx r hr)]; simp
      rw [List.map_congr_left this]
      exact hnoise q)
    (by intro j hj q; obtain rfl : j = 0 := by omega
        exact hmean q) m hm yh hfx hfy
  refine ⟨coef, h1, fun r hr hne' stored t c => ?_⟩
  have hrow : (DML.coefRow coef (p + 1) 0).length = p + 1 := by
    unfold DML.coefRow; simp [hcl]
  have key := h2 (fun j w => (DML.estCont coef 1 none (f w) (some 1) (some 0)).1.getD j 0 - DML.dot θ (1 :: f w)) (fun _ _ _ => rfl)
    (fun _ => List.zipWith (· - ·) (DML.coefRow coef (p + 1) 0) θ) (fun _ => by simp [hrow, hθ])
  simp only [Finset.range_one, Finset.sum_singleton, sub_self, zero_mul, List.map_const', List.sum_replicate, smul_zero,
    mul_zero, sub_zero, add_zero, zero_sub] at key
  have hn : (rows.length : K) ≠ 0 := by
    have : 0 < rows.length := List.length_pos_of_ne_nil hne
    exact_mod_cast this.ne'
  have hdir : ∀ r ∈ rows, DML.dot (List.zipWith (· - ·) (DML.coefRow coef (p + 1) 0) θ) (1 :: f r.1) =
      (DML.estCont coef 1 none (f r.1) (some 1) (some 0)).1.getD 0 0 - DML.dot θ (1 :: f r.1) := by
    intro r hr
    rw [dot_comm, dot_sub (by rw [hrow, hθ]), dot_comm _ (DML.coefRow coef (p + 1) 0), dot_comm _ θ]
    congr 1
    rw [DML.estCont]
    simp only [List.getD_eq_getElem?_getD, List.getElem?_map, fij_get (Nat.zero_lt_one), Option.map_some, Option.getD_some, hf r hr]
    ring
  have hz := (mul_eq_zero.1 key).resolve_left hn
  have hsq : (rows.map (fun r => ((r.2.1.getD 0 0 - (m r.1).getD 0 0) *
      ((DML.estCont coef 1 none (f r.1) (some 1) (some 0)).1.getD 0 0 - DML.dot θ (1 :: f r.1))) *
      ((r.2.1.getD 0 0 - (m r.1).getD 0 0) *
      ((DML.estCont coef 1 none (f r.1) (some 1) (some 0)).1.getD 0 0 - DML.dot θ (1 :: f r.1))))).sum = 0 := by
    refine Eq.trans ?_ hz
    congr 1
    refine List.map_congr_left (fun r hr => ?_)
    rw [hdir r hr]
  have h0 := dml_sum_sq_zero rows _ hsq r hr
  have h3 := (mul_eq_zero.1 h0).resolve_left (sub_ne_zero.2 hne')
  have h4 : DML.dot (DML.coefRow coef (p + 1) 0) (1 :: f r.1) = DML.dot θ (1 :: f r.1) := by
    have := hdir r hr
    rw [h3, dot_comm, dot_sub (by rw [hrow, hθ]), dot_comm _ (DML.coefRow coef (p + 1) 0), dot_comm _ θ] at this
    linear_combination this
  simp [DML.estCont, DML.fij, hf r hr, h4]

/-- C141. With one treatment and a constant effect `τ` (no effect modifiers), the error of the estimate is the covariance of the errors of the
two first stage models divided by the variance of the treatment residuals: it is exact. -/
theorem C141_constant_effect {fitX : List (W × List K) → W → List K} {fitY : List (W × K) → W → K}
    {fitR : List (List K) → List K → List K} (hR : LeastSquares fitR) {cf : Nat}
    {rows : List (W × List K × K)} (hne : rows ≠ []) (hx : ∀ r ∈ rows, r.2.1.length = 1) (τ : K) (g m pr yh : W → K)
    (hnoise : ∀ q : W → List K → K, (rows.map (fun r => q r.1 r.2.1 * (r.2.2 - (r.2.1.getD 0 0 * τ + g r.1)))).sum = 0)
    (hmean : ∀ q : W → K, (rows.map (fun r => (r.2.1.getD 0 0 - m r.1) * q r.1)).sum = 0)
    (hfx : CF.crossFit fitX cf (rows.map (fun r => (r.1, r.2.1))) = .ok (rows.map (fun r => some [pr r.1])))
    (hfy : CF.crossFit fitY cf (rows.map (fun r => (r.1, r.2.2))) = .ok (rows.map (fun r => some (yh r.1)))) :
    ∃ coef est, DML.fitCont fitX fitY fitR (some fun _ => []) cf 1 rows = .ok coef ∧
      (∀ stored t c, (DML.estCont coef 1 stored [] (some t) (some c)).1 = [est * (t - c)]) ∧
      let u := fun r : W × List K × K => r.2.1.getD 0 0 - m r.1
      let δ := fun r : W × List K × K => m r.1 - pr r.1
      let h := fun r : W × List K × K => pr r.1 * τ + g r.1 - yh r.1
      (est - τ) * ((rows.length : K) * ((rows.map (fun r => u r * u r)).sum + (rows.map (fun r => δ r * δ r)).sum) -
          (rows.map δ).sum * (rows.map δ).sum) =
        (rows.length : K) * (rows.map (fun r => δ r * h r)).sum - (rows.map δ).sum * (rows.map h).sum := by
  obtain ⟨coef, h1, hcl, h2⟩ := C141_error_identity hR (fun _ => []) (p := 0) hne hx (fun _ _ => rfl) (fun _ => [τ]) (fun _ => rfl) g
    (fun w => [m w]) (by
      intro q
      have : ∀ r ∈ rows, q r.1 r.2.1 * (r.2.2 - (mix (fun _ => [τ]) r.2.1 [] + g r.1)) =
          q r.1 r.2.1 * (r.2.2 - (r.2.1.getD 0 0 * τ + g r.1)) := by
        intro r hr
        rw [mix_range (hx r hr)]; simp [DML.dot]
      rw [List.map_congr_left this]
      exact hnoise q)
    (by intro j hj q; obtain rfl : j = 0 := by omega
        simpa using hmean q) (fun w => [pr w]) (fun _ _ => rfl) yh hfx hfy
  obtain ⟨est, rfl⟩ : ∃ est, coef = [est] := List.length_eq_one_iff.1 (by simpa using hcl)
  have hE : ∀ stored t c, (DML.estCont [est] 1 stored [] (some t) (some c)).1 = [est * (t - c)] := by
    intro stored t c
    simp [DML.estCont, DML.fij, DML.coefRow, DML.dot]
  refine ⟨[est], est, h1, hE, ?_⟩
  intro u δ h
  have key := h2 (fun _ _ => est - τ) (by
    intro j hj w
    obtain rfl : j = 0 := by omega
    rw [hE]
    simp [DML.dot]) (fun _ => [1]) (fun _ => rfl)
  simp only [Finset.range_one, Finset.sum_singleton, DML.dot, List.zipWith_cons_cons, List.zipWith_nil_right, List.sum_cons, List.sum_nil,
    mul_one, add_zero, List.getD_cons_zero, mix_range (θ := fun _ => [τ]) (x := [pr _]) (xd := 1) rfl] at key
  simp only [u, δ, h]
  simp only [← mul_assoc, List.sum_map_mul_right] at key
  linear_combination key

theorem list_double {ι : Type} (l : List ι) (a h : ι → K) :
    (l.length : K) * (l.map (fun r => a r * h r)).sum - (l.map a).sum * (l.map h).sum =
      (l.map (fun r => (l.map (fun s => a r * (h r - h s))).sum)).sum := by
  simp only [sum_list_fin, mul_sub, Finset.sum_sub_distrib, Finset.sum_const, Finset.card_univ, Fintype.card_fin, nsmul_eq_mul,
    ← Finset.mul_sum, ← Finset.sum_mul]

theorem list_abs_le {ι : Type} (l : List ι) (a : ι → K) (b : K) (h : ∀ r ∈ l, |a r| ≤ b) : |(l.map a).sum| ≤ l.length * b := by
  induction l with
  | nil => simp
  | cons x l ih =>
    rw [List.map_cons, List.sum_cons, List.length_cons]
    have h1 := h x (by simp)
    have h2 := ih (fun r hr => h r (by simp [hr]))
    have h3 := abs_add_le (a x) (l.map a).sum
    push_cast
    linarith

theorem list_variance {ι : Type} (l : List ι) (a : ι → K) :
    (l.map a).sum * (l.map a).sum ≤ (l.length : K) * (l.map (fun r => a r * a r)).sum := by
  rw [sum_list_fin, sum_list_fin]
  have := sq_sum_le_card_mul_sum_sq (s := Finset.univ) (f := fun i : Fin l.length => a l[i.1])
  simp only [Finset.card_univ, Fintype.card_fin, sq] at this
  exact this

/-- C141. The error is of second order: if the treatment model is off by at most `a` and the error of the outcome model varies by at most
`b`, the estimate of a constant effect is off by at most `a b` divided by the mean squared treatment residual. -/
theorem C141_second_order {fitX : List (W × List K) → W → List K} {fitY : List (W × K) → W → K}
    {fitR : List (List K) → List K → List K} (hR : LeastSquares fitR) {cf : Nat}
    {rows : List (W × List K × K)} (hne : rows ≠ []) (hx : ∀ r ∈ rows, r.2.1.length = 1) (τ : K) (g m pr yh : W → K)
    (hnoise : ∀ q : W → List K → K, (rows.map (fun r => q r.1 r.2.1 * (r.2.2 - (r.2.1.getD 0 0 * τ + g r.1)))).sum = 0)
    (hmean : ∀ q : W → K, (rows.map (fun r => (r.2.1.getD 0 0 - m r.1) * q r.1)).sum = 0)
    (hfx : CF.crossFit fitX cf (rows.map (fun r => (r.1, r.2.1))) = .ok (rows.map (fun r => some [pr r.1])))
    (hfy : CF.crossFit fitY cf (rows.map (fun r => (r.1, r.2.2))) = .ok (rows.map (fun r => some (yh r.1))))
    (a b : K) (ha : ∀ r ∈ rows, |m r.1 - pr r.1| ≤ a)
    (hb : ∀ r ∈ rows, ∀ s ∈ rows, |(pr r.1 * τ + g r.1 - yh r.1) - (pr s.1 * τ + g s.1 - yh s.1)| ≤ b) :
    ∃ coef est, DML.fitCont fitX fitY fitR (some fun _ => []) cf 1 rows = .ok coef ∧
      (∀ stored t c, (DML.estCont coef 1 stored [] (some t) (some c)).1 = [est * (t - c)]) ∧
      |est - τ| * (rows.map (fun r => (r.2.1.getD 0 0 - m r.1) * (r.2.1.getD 0 0 - m r.1))).sum ≤ rows.length * (a * b) := by
  obtain ⟨coef, est, h1, h2, h3⟩ := C141_constant_effect hR hne hx τ g m pr yh hnoise hmean hfx hfy
  refine ⟨coef, est, h1, h2, ?_⟩
  simp only at h3
  set u := fun r : W × List K × K => r.2.1.getD 0 0 - m r.1
  set δ := fun r : W × List K × K => m r.1 - pr r.1
  set h := fun r : W × List K × K => pr r.1 * τ + g r.1 - yh r.1
  have hn : (0 : K) < rows.length := by exact_mod_cast List.length_pos_of_ne_nil hne
  have ha0 : 0 ≤ a := by
    obtain ⟨r, hr⟩ := List.exists_mem_of_ne_nil _ hne
    exact le_trans (abs_nonneg _) (ha r hr)
  have hcov : |(rows.length : K) * (rows.map (fun r => δ r * h r)).sum - (rows.map δ).sum * (rows.map h).sum| ≤
      rows.length * (rows.length * (a * b)) := by
    rw [list_double]
    refine list_abs_le _ _ _ (fun r hr => list_abs_le _ _ _ (fun s hs => ?_))
    rw [abs_mul]
    exact mul_le_mul (ha r hr) (hb r hr s hs) (abs_nonneg _) ha0
  have hvar := list_variance rows δ
  have hu : 0 ≤ (rows.map (fun r => u r * u r)).sum := List.sum_nonneg (by
      intro x hx'
      obtain ⟨r, _, rfl⟩ := List.mem_map.1 hx'
      exact mul_self_nonneg _)
  have hD : (rows.length : K) * (rows.map (fun r => u r * u r)).sum ≤
      (rows.length : K) * ((rows.map (fun r => u r * u r)).sum + (rows.map (fun r => δ r * δ r)).sum) -
          (rows.map δ).sum * (rows.map δ).sum := by
    rw [mul_add]; linarith
  have hD0 : 0 ≤ (rows.length : K) * (rows.map (fun r => u r * u r)).sum := mul_nonneg hn.le hu
  rw [← h3, abs_mul, abs_of_nonneg (le_trans hD0 hD)] at hcov
  have h4 := le_trans (mul_le_mul_of_nonneg_left hD (abs_nonneg (est - τ))) hcov
  have h5 : (rows.length : K) * (|est - τ| * (rows.map (fun r => u r * u r)).sum) ≤ rows.length * (rows.length * (a * b)) := by
    linarith [h4]
  exact le_of_mul_le_mul_left h5 hn

end

/-! ### Concrete cases -/

/-- two covariate values, two treatment values each; the outcome is the treatment -/
def biasRows : List (Nat × List Rat × Rat) := [(0, [0], 0), (0, [2], 2), (1, [2], 2), (1, [4], 4)]

theorem biasRows_noise (q : Nat → List Rat → Rat) : (biasRows.map (fun r => q r.1 r.2.1 * (r.2.2 - (r.2.1.getD 0 0 * 1 + 0)))).sum = 0 := by
  simp [biasRows]

theorem biasRows_mean (q : Nat → Rat) :
    (biasRows.map (fun r => (r.2.1.getD 0 0 - (if r.1 = 0 then 1 else 3)) * q r.1)).sum = 0 := by
  simp [biasRows]
  ring

/-- C141, limit: an exact outcome model does not make up for a wrong treatment model. The outcome is the treatment (effect 1), the outcome model
predicts its exact mean given the covariates, the treatment model predicts 0: every least squares fit reports the effect 1/2. -/
theorem C141_outcome_model_not_enough {fitR : List (List Rat) → List Rat → List Rat} (hR : LeastSquares fitR) :
    ∃ coef, DML.fitCont (W := Nat) (fun _ _ => [0]) (fun _ w => if w = 0 then 1 else 3) fitR (some fun _ => []) 2 1 biasRows = .ok coef ∧
      ∀ stored t c, (DML.estCont coef 1 stored [] (some t) (some c)).1 = [1 / 2 * (t - c)] := by
  obtain ⟨coef, est, h1, h2, h3⟩ := C141_constant_effect (W := Nat) hR (rows := biasRows) (cf := 2) (by decide) (by decide) 1 (fun _ => 0)
    (fun w => if w = 0 then 1 else 3) (fun _ => 0) (fun w => if w = 0 then 1 else 3) biasRows_noise biasRows_mean
    (fitX := fun _ _ => [0]) (fitY := fun _ w => if w = 0 then 1 else 3) (by decide +kernel) (by decide +kernel)
  have : est = 1 / 2 := by
    simp [biasRows] at h3
    norm_num at h3
    linarith
  subst this
  exact ⟨coef, h1, h2⟩

/-- the same data with an exact treatment model and an outcome model that predicts 100: the effect 1 is found -/
example {fitR : List (List Rat) → List Rat → List Rat} (hR : LeastSquares fitR) :
    ∃ coef, DML.fitCont (W := Nat) (fun _ w => [if w = 0 then 1 else 3]) (fun _ _ => 100) fitR (some fun _ => []) 2 1 biasRows = .ok coef ∧
      ∀ stored t c, (DML.estCont coef 1 stored [] (some t) (some c)).1 = [t - c] := by
  obtain ⟨coef, h1, h2⟩ := C141_treatment_model_suffices (W := Nat) hR (fun _ => []) (rows := biasRows) (cf := 2) (p := 0) (by decide) (by decide)
    (by decide) [1] rfl (fun _ => 0) (fun w => [if w = 0 then 1 else 3]) (by decide) (by simpa [DML.dot] using biasRows_noise)
    (by simpa using biasRows_mean) (fun _ => 100) (fitX := fun _ w => [if w = 0 then 1 else 3]) (fitY := fun _ _ => 100) (by decide +kernel) (by decide +kernel)
  refine ⟨coef, h1, fun stored t c => ?_⟩
  have := h2 (0, [0], 0) (by decide) (by decide +kernel) stored t c
  simpa [DML.dot] using this

/-- the bound on the same data: a treatment model off by 1/2 and an outcome model whose error varies by 1 -/
example {fitR : List (List Rat) → List Rat → List Rat} (hR : LeastSquares fitR) :
    ∃ coef est, DML.fitCont (W := Nat) (fun _ w => [if w = 0 then 1 / 2 else 3]) (fun _ w => if w = 0 then 1 else 5 / 2) fitR (some fun _ => []) 2 1 biasRows =
        .ok coef ∧ (∀ stored t c, (DML.estCont coef 1 stored [] (some t) (some c)).1 = [est * (t - c)]) ∧ |est - 1| ≤ 1 / 2 := by
  obtain ⟨coef, est, h1, h2, h3⟩ := C141_second_order (W := Nat) hR (rows := biasRows) (cf := 2) (by decide) (by decide) 1 (fun _ => 0)
    (fun w => if w = 0 then 1 else 3) (fun w => if w = 0 then 1 / 2 else 3) (fun w => if w = 0 then 1 else 5 / 2) biasRows_noise biasRows_mean
    (fitX := fun _ w => [if w = 0 then 1 / 2 else 3]) (fitY := fun _ w => if w = 0 then 1 else 5 / 2) (by decide +kernel) (by decide +kernel)
    (1 / 2) 1 (by decide +kernel) (by decide +kernel)
  refine ⟨coef, est, h1, h2, ?_⟩
  simp [biasRows] at h3
  norm_num at h3
  linarith

end YL.Props
