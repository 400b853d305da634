import Verif.Model.Dagma
import Verif.Lib.MMatrix
import Mathlib.Analysis.SpecialFunctions.Log.Deriv
import Mathlib.Analysis.Calculus.Deriv.Mul
import Mathlib.Analysis.Calculus.Deriv.Abs
import Mathlib.Analysis.Calculus.Deriv.Add
import Mathlib.LinearAlgebra.Matrix.Determinant.Basic
import Mathlib.Tactic.FinCases

/-!
# C131: the objective functions of `Dagma` and `Golem`
-/

set_option linter.unusedSectionVars false

namespace YL.Props

open YL Spec Discovery NoTears Dagma

section
variable {d n : Nat}

/-- the acyclicity penalty of the DAGMA paper: `-log det(sI - W∘W) + d log s` -/
noncomputable def dagmaPenalty (s : ℝ) (W : Mx d) : ℝ :=
  -Real.log |(s • (1 : Mx d) - Matrix.of (fun i j => W i j * W i j)).det| + d * Real.log s

/-- the region of the weights in which the method works: `sI - W∘W` is an M-matrix (its inverse exists and has no negative entry) -/
def Region (s : ℝ) (W : Mx d) : Prop :=
  (s • (1 : Mx d) - Matrix.of (fun i j => W i j * W i j)).det ≠ 0 ∧
    ∀ i j, 0 ≤ (s • (1 : Mx d) - Matrix.of (fun i j => W i j * W i j))⁻¹ i j

theorem sq_edge (W : Mx d) (i j : Fin d) : (Matrix.of (fun i j => W i j * W i j) : Mx d) i j ≠ 0 ↔ MatEdge (fun i j => W i j) i j := by
  simp [MatEdge]

theorem sq_acyclic (W : Mx d) : Acyclic (fun i j => (Matrix.of (fun i j => W i j * W i j) : Mx d) i j ≠ 0) ↔
    Acyclic (MatEdge (fun i j => W i j)) := by
  have : (fun i j => (Matrix.of (fun i j => W i j * W i j) : Mx d) i j ≠ 0) = MatEdge (fun i j => W i j) := by
    funext i j; exact propext (sq_edge W i j)
  rw [this]

theorem region_semi {s : ℝ} {W : Mx d} (h : Region s W) : MMat.Semi s (Matrix.of (fun i j => W i j * W i j)) :=
  MMat.semi_of_inv h.1 h.2

/-- C131. Every acyclic `W` is in the region, for every positive `s`, and so is every `W` whose squares have row sums below `s`. -/
theorem C131_region (s : ℝ) (W : Mx d) :
    (0 < s → Acyclic (MatEdge (fun i j => W i j)) → Region s W) ∧ ((∀ i, ∑ j, W i j ^ 2 < s) → Region s W) := by
  have hA : ∀ i j, 0 ≤ (Matrix.of (fun i j => W i j * W i j) : Mx d) i j := fun i j => mul_self_nonneg (W i j)
  refine ⟨fun hs h => ?_, fun h => ?_⟩
  · have hm := MMat.semi_of_acyclic hs hA ((sq_acyclic W).2 h)
    exact ⟨MMat.det_ne_of_semi hA hm, MMat.inv_nonneg_of_semi hA hm⟩
  · have hm : MMat.Semi s (Matrix.of (fun i j => W i j * W i j) : Mx d) :=
      MMat.semi_of_rows (fun i => by simpa [pow_two] using h i)
    exact ⟨MMat.det_ne_of_semi hA hm, MMat.inv_nonneg_of_semi hA hm⟩

/-- C131. The penalty of the DAGMA paper, in the region: never negative, and zero exactly for the matrices of the graphs without a
directed cycle. -/
theorem C131_penalty (s : ℝ) (W : Mx d) (h : Region s W) :
    0 ≤ dagmaPenalty s W ∧ (dagmaPenalty s W = 0 ↔ Acyclic (MatEdge (fun i j => W i j))) := by
  have hA : ∀ i j, 0 ≤ (Matrix.of (fun i j => W i j * W i j) : Mx d) i j := fun i j => mul_self_nonneg (W i j)
  have hm := region_semi h
  obtain ⟨hp, hle⟩ := MMat.det_bounds hA hm
  rcases Nat.eq_zero_or_pos d with h0 | hd
  · subst h0
    refine ⟨by simp [dagmaPenalty], by simp only [dagmaPenalty, Matrix.det_isEmpty]; norm_num; exact fun i => i.elim0⟩
  have hs : 0 < s := MMat.s_pos hA hm ⟨0, hd⟩
  have hlog : (d : ℝ) * Real.log s = Real.log (s ^ d) := by rw [Real.log_pow]
  unfold dagmaPenalty
  rw [abs_of_pos hp, hlog, ← sq_acyclic]
  refine ⟨?_, ?_, ?_⟩
  · have := Real.log_le_log hp hle
    linarith
  · intro he
    refine MMat.acyclic_of_det hA hm (Real.log_injOn_pos (Set.mem_Ioi.2 hp) (Set.mem_Ioi.2 (pow_pos hs d)) (by linarith))
  · intro hac
    have := MMat.det_acyclic s (Matrix.of (fun i j => W i j * W i j) : Mx d) hac
    rw [this]; ring

/-- C131. The number that `Dagma` itself calls `h` is `2 d log s` minus that penalty. -/
theorem C131_h (s : ℝ) (W : Mx d) (h : Region s W) : hVal s W = some (2 * d * Real.log s - dagmaPenalty s W) := by
  unfold hVal slogdet mMatrix dagmaPenalty
  rw [if_neg h.1]
  simp only [Option.map_some, Option.some.injEq]
  ring

/-- C131, what `_h` returns is no penalty: in the region it is *largest* for the acyclic matrices and smaller for every
matrix with a cycle; only for `s = 1` is it zero for the acyclic ones. So the objective that `minimize` watches rewards
cycles. -/
theorem C131_h_refuted (s : ℝ) (W V : Mx d) (hW : Region s W) (hV : Region s V)
    (hWc : ¬ Acyclic (MatEdge (fun i j => W i j))) (hVa : Acyclic (MatEdge (fun i j => V i j))) :
    ∃ a b, hVal s W = some a ∧ hVal s V = some b ∧ a < b ∧ b = 2 * d * Real.log s := by
  refine ⟨_, _, C131_h s W hW, C131_h s V hV, ?_, ?_⟩
  · have h1 := (C131_penalty s V hV).2.2 hVa
    have h2 := (C131_penalty s W hW).1
    have h3 : dagmaPenalty s W ≠ 0 := fun h0 => hWc ((C131_penalty s W hW).2.1 h0)
    have h4 := lt_of_le_of_ne h2 (Ne.symm h3)
    rw [h1]; linarith
  · rw [(C131_penalty s V hV).2.2 hVa, sub_zero]

/-- the matrix of the two-cycle with both weights 1/2 -/
noncomputable def halfCycle : Mx 2 := Matrix.of ![![0, 1 / 2], ![1 / 2, 0]]

/-- non-vacuity of `C131_penalty` and `C131_h_refuted`: a cyclic and an acyclic matrix in the region -/
example : Region 1 halfCycle ∧ Region 1 (0 : Mx 2) ∧ ¬ Acyclic (MatEdge (fun i j => halfCycle i j)) ∧
    Acyclic (MatEdge (fun i j => (0 : Mx 2) i j)) := by
  have h0 : Acyclic (MatEdge (fun i j => (0 : Mx 2) i j)) := fun i hi => by
    obtain ⟨j, hij, -⟩ := Relation.TransGen.head'_iff.1 hi
    exact hij rfl
  refine ⟨(C131_region 1 halfCycle).2 (fun i => ?_), (C131_region 1 0).1 one_pos h0, fun h => ?_, h0⟩
  · rw [Fin.sum_univ_two]
    fin_cases i <;> norm_num [halfCycle]
  · refine h 0 (.tail (.single (?_ : MatEdge _ 0 1)) (?_ : MatEdge _ 1 0)) <;> norm_num [halfCycle, MatEdge]

/-! ### The gradients -/

/-- the formula of Jacobi: derivative of a determinant -/
theorem hasDerivAt_det {M : ℝ → Mx d} {M' : Mx d} {t : ℝ} (h : ∀ i j, HasDerivAt (fun t => M t i j) (M' i j) t) :
    HasDerivAt (fun t => (M t).det) ((M t).adjugate * M').trace t := by
  classical
  have h1 : (fun t => (M t).det) = fun t => ∑ σ : Equiv.Perm (Fin d), (Equiv.Perm.sign σ : ℝ) * ∏ i, M t (σ i) i := by
    funext t; rw [Matrix.det_apply']
  have h2 : HasDerivAt (fun t => ∑ σ : Equiv.Perm (Fin d), (Equiv.Perm.sign σ : ℝ) * ∏ i, M t (σ i) i)
      (∑ σ : Equiv.Perm (Fin d), (Equiv.Perm.sign σ : ℝ) * ∑ i, (∏ j ∈ Finset.univ.erase i, M t (σ j) j) • M' (σ i) i) t := by
    refine HasDerivAt.fun_sum (fun σ _ => HasDerivAt.const_mul _ ?_)
    exact HasDerivAt.fun_finset_prod (fun i _ => h (σ i) i)
  rw [h1]
  convert h2 using 1
  have h3 : ((M t).adjugate * M').trace = ∑ i, ((M t).updateCol i (fun k => M' k i)).det := by
    refine Finset.sum_congr rfl (fun i _ => ?_)
    rw [← Matrix.cramer_apply, Matrix.cramer_eq_adjugate_mulVec]
    rfl
  rw [h3]
  have h4 : ∀ i, ((M t).updateCol i (fun k => M' k i)).det =
      ∑ σ : Equiv.Perm (Fin d), (Equiv.Perm.sign σ : ℝ) * ((∏ j ∈ Finset.univ.erase i, M t (σ j) j) • M' (σ i) i) := fun i => by
    rw [Matrix.det_apply']
    refine Finset.sum_congr rfl (fun σ _ => ?_)
    rw [← Finset.prod_erase_mul _ _ (Finset.mem_univ i)]
    congr 1
    rw [smul_eq_mul]
    congr 1
    · refine Finset.prod_congr rfl (fun j hj => ?_)
      rw [Matrix.updateCol_apply, if_neg (Finset.mem_erase.1 hj).1]
    · rw [Matrix.updateCol_apply, if_pos rfl]
  rw [Finset.sum_congr rfl (fun i _ => h4 i), Finset.sum_comm]
  refine Finset.sum_congr rfl (fun σ _ => ?_)
  rw [Finset.mul_sum]

/-- derivative of a function of the weights in a direction -/
def DirDeriv (F : Mx d → ℝ) (W D : Mx d) (v : ℝ) : Prop := HasDerivAt (fun t : ℝ => F (W + t • D)) v 0

/-- the inner product of a gradient and a direction -/
def pair (G D : Mx d) : ℝ := ∑ i, ∑ j, G i j * D i j

theorem trace_mul_transpose (G D : Mx d) : (G.transpose * D).trace = pair G D := by
  unfold pair Matrix.trace
  simp only [Matrix.diag_apply, Matrix.mul_apply, Matrix.transpose_apply]
  exact Finset.sum_comm

theorem entry_deriv (W D : Mx d) (i j : Fin d) : HasDerivAt (fun t : ℝ => (W + t • D) i j) (D i j) 0 := by
  have : (fun t : ℝ => (W + t • D) i j) = fun t : ℝ => W i j + t * D i j := by
    funext t; simp [Matrix.add_apply]
  rw [this]
  simpa using (hasDerivAt_id (0 : ℝ)).mul_const (D i j) |>.const_add (W i j)

theorem logdet_deriv (s : ℝ) (W D : Mx d) (h : (mMatrix s W).det ≠ 0) :
    DirDeriv (fun W => Real.log |(mMatrix s W).det|) W D (-pair (gH s W) D) := by
  have hM : ∀ i j, HasDerivAt (fun t : ℝ => mMatrix s (W + t • D) i j) (-(2 * W i j * D i j)) 0 := fun i j => by
    have he := entry_deriv W D i j
    have h2 := (he.mul he).const_sub ((s • (1 : Mx d)) i j)
    refine HasDerivAt.congr_deriv (h2.congr_of_eventuallyEq ?_) ?_
    · exact Filter.Eventually.of_forall (fun t => rfl)
    · simp only [zero_smul, add_zero]; ring
  have hd := hasDerivAt_det (M' := Matrix.of (fun i j => -(2 * W i j * D i j))) (fun i j => hM i j)
  have h0 : (0 : ℝ) • D = 0 := zero_smul ℝ D
  have hl := hd.log (by rw [h0, add_zero]; exact h)
  rw [h0, add_zero] at hl
  unfold DirDeriv
  simp only [Real.log_abs]
  convert hl using 1
  have h3 : (mMatrix s W).adjugate = (mMatrix s W).det • (mMatrix s W)⁻¹ := by
    rw [Matrix.inv_def, smul_smul, Ring.inverse_eq_inv', mul_inv_cancel₀ h, one_smul]
  rw [h3, Matrix.smul_mul, Matrix.trace_smul, smul_eq_mul, mul_div_cancel_left₀ _ h]
  unfold pair gH Matrix.trace
  simp only [Matrix.diag_apply, Matrix.mul_apply, Matrix.transpose_apply, Matrix.of_apply]
  rw [← Finset.sum_neg_distrib, Finset.sum_comm]
  refine Finset.sum_congr rfl (fun i _ => ?_)
  rw [← Finset.sum_neg_distrib]
  refine Finset.sum_congr rfl (fun j _ => by ring)

theorem cov_symm (X : Matrix (Fin n) (Fin d) ℝ) : (cov X).transpose = cov X := by
  unfold cov
  rw [Matrix.transpose_smul, Matrix.transpose_mul, Matrix.transpose_transpose]

theorem score_deriv (C W D : Mx d) (hC : C.transpose = C) : DirDeriv (score C) W D (pair (gLoss C W) D) := by
  -- the loss is a quadratic polynomial along the line
  have hpoly : ∀ t : ℝ, score C (W + t • D) =
      score C W + t * pair (gLoss C W) D + t * t * (0.5 * (D.transpose * (C * D)).trace) := fun t => by
    have hsym : ((1 - W).transpose * (C * D)).trace = (D.transpose * (C * (1 - W))).trace := by
      rw [← Matrix.trace_transpose, Matrix.transpose_mul, Matrix.transpose_mul, Matrix.transpose_transpose, hC, Matrix.mul_assoc]
    have h1 : (1 - (W + t • D) : Mx d) = (1 - W) - t • D := by rw [sub_add_eq_sub_sub]
    have h2 : pair (gLoss C W) D = -(D.transpose * (C * (1 - W))).trace := by
      rw [← trace_mul_transpose, ← Matrix.trace_transpose, Matrix.transpose_mul, Matrix.transpose_transpose]
      unfold gLoss
      rw [Matrix.mul_neg, Matrix.trace_neg]
    unfold score
    rw [h1, h2]
    generalize (1 - W : Mx d) = E at hsym
    rw [Matrix.transpose_sub, Matrix.transpose_smul, Matrix.mul_sub, Matrix.mul_smul, Matrix.sub_mul, Matrix.mul_sub,
      Matrix.mul_smul, Matrix.smul_mul, Matrix.mul_sub, Matrix.mul_smul]
    simp only [Matrix.trace_sub, Matrix.trace_smul, smul_eq_mul]
    rw [hsym]
    ring
  unfold DirDeriv
  simp only [hpoly]
  have hid := hasDerivAt_id (0 : ℝ)
  have := ((hid.mul_const (pair (gLoss C W) D)).const_add (score C W)).add
    ((hid.mul hid).mul_const (0.5 * (D.transpose * (C * D)).trace))
  refine (this.congr_of_eventuallyEq (Filter.Eventually.of_forall (fun t => rfl))).congr_deriv ?_
  simp

theorem l1_deriv (W D : Mx d) (h : ∀ i j, D i j ≠ 0 → W i j ≠ 0) :
    DirDeriv l1 W D (∑ i, ∑ j, (SignType.sign (W i j) : ℝ) * D i j) := by
  unfold DirDeriv l1
  refine HasDerivAt.fun_sum (fun i _ => HasDerivAt.fun_sum (fun j _ => ?_))
  by_cases hD : D i j = 0
  · have : (fun t : ℝ => |(W + t • D) i j|) = fun _ => |W i j| := by
      funext t; simp [Matrix.add_apply, hD]
    rw [this, hD, mul_zero]
    exact hasDerivAt_const _ _
  · have he := entry_deriv W D i j
    have h0 : (W + (0 : ℝ) • D) i j = W i j := by rw [zero_smul, add_zero]
    exact ((hasDerivAt_abs (x := (W + (0 : ℝ) • D) i j) (by rw [h0]; exact h i j hD)).comp (0 : ℝ) he).congr_deriv (by rw [h0])

/-- C131. The two gradients of `_score` and `_h`: `G_loss` is the derivative of the loss and `G_h` that of the penalty of the paper, in
every direction. -/
theorem C131_gradients (s : ℝ) (X : Matrix (Fin n) (Fin d) ℝ) (W D : Mx d) :
    DirDeriv (score (cov X)) W D (pair (gLoss (cov X) W) D) ∧
      ((mMatrix s W).det ≠ 0 → DirDeriv (dagmaPenalty s) W D (pair (gH s W) D)) := by
  refine ⟨score_deriv _ W D (cov_symm X), fun h => ?_⟩
  have := (logdet_deriv s W D h).neg.add_const (d * Real.log s)
  unfold DirDeriv dagmaPenalty
  refine (this.congr_of_eventuallyEq (Filter.Eventually.of_forall (fun t => rfl))).congr_deriv (neg_neg _)

/-- C131. `_h` returns a value and the gradient of its negative: along every direction its `h` changes at the rate opposite to
its `G_h`. -/
theorem C131_h_gradient_refuted (s : ℝ) (W D : Mx d) (h : (mMatrix s W).det ≠ 0) :
    DirDeriv (fun W => (hVal s W).getD 0) W D (-pair (gH s W) D) := by
  have hl := (logdet_deriv s W D h).add_const (d * Real.log s)
  unfold DirDeriv at hl ⊢
  refine hl.congr_of_eventuallyEq ?_
  -- the determinant stays away from zero
  have hM : ∀ i j, HasDerivAt (fun t : ℝ => mMatrix s (W + t • D) i j) (-(2 * W i j * D i j)) 0 := fun i j => by
    have he := entry_deriv W D i j
    have h2 := (he.mul he).const_sub ((s • (1 : Mx d)) i j)
    refine HasDerivAt.congr_deriv (h2.congr_of_eventuallyEq ?_) ?_
    · exact Filter.Eventually.of_forall (fun t => rfl)
    · simp only [zero_smul, add_zero]; ring
  have hc := (hasDerivAt_det (M' := Matrix.of (fun i j => -(2 * W i j * D i j))) (fun i j => hM i j)).continuousAt
  have hne := hc.eventually_ne (y := 0) (by rw [zero_smul, add_zero]; exact h)
  filter_upwards [hne] with t ht
  simp [hVal, slogdet, if_neg ht]

/-- C131. The direction `Gobj` that `minimize` follows is, up to the `1e-16` added to the inverse, the derivative of the objective of the
paper `mu (score + lambda_1 |W|) + penalty`, in every direction that leaves the zero weights alone. -/
theorem C131_direction (lam mu s : ℝ) (X : Matrix (Fin n) (Fin d) ℝ) (W D M : Mx d) (hM : invPlus s W = .ok M)
    (hD : ∀ i j, D i j ≠ 0 → W i j ≠ 0) :
    DirDeriv (fun W => mu * (score (cov X) W + lam * l1 W) + dagmaPenalty s W) W D
      (pair (gObj lam (cov X) mu W M) D - 2e-16 * pair W D) := by
  have hdet : (mMatrix s W).det ≠ 0 := by
    intro h0
    rw [invPlus, if_pos h0] at hM
    cases hM
  rw [invPlus, if_neg hdet] at hM
  cases hM
  have h1 := (C131_gradients s X W D).1
  have h2 := (C131_gradients s X W D).2 hdet
  have h3 := l1_deriv W D hD
  have := ((h1.add (h3.const_mul lam)).const_mul mu).add h2
  unfold DirDeriv at this ⊢
  refine (this.congr_of_eventuallyEq (Filter.Eventually.of_forall (fun t => rfl))).congr_deriv ?_
  unfold pair gLoss gH gObj
  simp only [Finset.mul_sum, ← Finset.sum_add_distrib, ← Finset.sum_sub_distrib, Matrix.of_apply, Matrix.transpose_apply, Matrix.neg_apply]
  refine Finset.sum_congr rfl (fun i _ => Finset.sum_congr rfl (fun j _ => ?_))
  ring

/-- C131. The loss is the mean squared reconstruction error of the linear model `X ≈ X W` (halved); the data are not centred. -/
theorem C131_loss (X : Matrix (Fin n) (Fin d) ℝ) (W : Mx d) :
    score (cov X) W = 1 / (2 * n) * ∑ a, ∑ j, (X a j - ∑ i, X a i * W i j) ^ 2 := by
  have h1 : (1 - W).transpose * (cov X * (1 - W)) = (1 / (n : ℝ)) • ((X - X * W).transpose * (X - X * W)) := by
    have : X - X * W = X * (1 - W) := by rw [Matrix.mul_sub, Matrix.mul_one]
    rw [this, Matrix.transpose_mul, cov, Matrix.smul_mul, Matrix.mul_smul, Matrix.mul_assoc, Matrix.mul_assoc]
  unfold score
  rw [h1, Matrix.trace_smul, smul_eq_mul]
  have h2 : ((X - X * W).transpose * (X - X * W)).trace = ∑ a, ∑ j, (X a j - ∑ i, X a i * W i j) ^ 2 := by
    unfold Matrix.trace
    simp only [Matrix.diag_apply, Matrix.mul_apply, Matrix.transpose_apply, Matrix.sub_apply]
    rw [Finset.sum_comm]
    exact Finset.sum_congr rfl (fun a _ => Finset.sum_congr rfl (fun j _ => by ring))
  rw [h2]
  rcases Nat.eq_zero_or_pos n with h0 | hn
  · subst h0; simp
  · have : (n : ℝ) ≠ 0 := Nat.cast_ne_zero.2 hn.ne'
    field_simp
    ring

/-- C131. The log-determinant term of `Golem` vanishes for every acyclic matrix of weights. -/
theorem C131_golem (X : Matrix (Fin n) (Fin d) ℝ) (W : Mx d) (h : Acyclic (MatEdge (fun i j => W i j))) :
    likelihood true X W = 0.5 * d * Real.log (∑ a, ∑ j, (X a j - ∑ i, X a i * W i j) ^ 2) ∧
      likelihood false X W = 0.5 * ∑ j, Real.log (∑ a, (X a j - ∑ i, X a i * W i j) ^ 2) := by
  have hd : (1 - W).det = 1 := by
    have := MMat.det_acyclic 1 W h
    rwa [one_smul, one_pow] at this
  unfold likelihood Dagma.residual
  simp only [hd, abs_one, Real.log_one, sub_zero, if_true, Bool.false_eq_true, if_false, Matrix.sub_apply, Matrix.mul_apply]
  trivial

/-- C131. `GolemDiscovery(equal_variances=False)` minimises the same score as with `True`: the argument has no effect, although the two
likelihoods differ. -/
theorem C131_equal_variances_refuted :
    (∀ (la lb : ℝ) (X : Matrix (Fin n) (Fin d) ℝ) (W : Mx d),
      golemObjective false la lb X W = golemObjective true la lb X W) ∧
      ∃ (X : Matrix (Fin 1) (Fin 2) ℝ) (W : Mx 2), likelihood false X W ≠ likelihood true X W := by
  refine ⟨fun _ _ _ _ => rfl, Matrix.of ![![1, 1]], 0, ?_⟩
  have h0 : Acyclic (MatEdge (fun i j => (0 : Mx 2) i j)) := fun i hi => by
    obtain ⟨j, hij, -⟩ := Relation.TransGen.head'_iff.1 hi
    exact hij rfl
  rw [(C131_golem _ _ h0).1, (C131_golem _ _ h0).2]
  simp
  norm_num
end
end YL.Props
