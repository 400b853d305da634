import Verif.Model.Toy
import Verif.Props.NoTears
import Verif.Props.NoTearsFit
import Mathlib.Analysis.Calculus.SmoothSeries
import Mathlib.Analysis.Calculus.Deriv.Mul
import Mathlib.Analysis.Calculus.Deriv.Pow
import Mathlib.Analysis.SpecialFunctions.ExpDeriv
import Mathlib.Analysis.SpecialFunctions.Log.Deriv
import Mathlib.Analysis.Matrix.Normed

/-!
# C154: `notears_linear`, and when a threshold makes a learned matrix acyclic
-/

set_option linter.unusedSectionVars false

namespace YL.Props

open YL Spec NoTears Toy

variable {n d : Nat}

/-! ### The gradient of the penalty -/

section Gradient

theorem trace_pow_deriv (A : ℝ → Sq d) (A' : Sq d) (t : ℝ) (hA : ∀ i j, HasDerivAt (fun s => A s i j) (A' i j) t) (k : Nat) :
    ∃ B : Sq d, (∀ i j, HasDerivAt (fun s => (A s ^ k) i j) (B i j) t) ∧ ∀ C : Sq d, Commute (A t) C → (B * C).trace = k * (A t ^ (k - 1) * A' * C).trace := by
  induction k with
  | zero =>
    refine ⟨0, fun i j => ?_, fun C _ => by simp⟩
    simpa using hasDerivAt_const t ((1 : Sq d) i j)
  | succ k ih =>
    obtain ⟨B, hB, hC⟩ := ih
    refine ⟨B * A t + A t ^ k * A', fun i j => ?_, fun C hc => ?_⟩
    · have h : HasDerivAt (fun s => ∑ l, (A s ^ k) i l * A s l j) (∑ l, (B i l * A t l j + (A t ^ k) i l * A' l j)) t :=
        HasDerivAt.fun_sum (fun l _ => (hB i l).mul (hA l j))
      simp only [pow_succ]
      rw [Matrix.add_apply, Matrix.mul_apply, Matrix.mul_apply, ← Finset.sum_add_distrib]
      exact h
    · rw [add_mul, Matrix.trace_add, mul_assoc, hC (A t * C) ((Commute.refl _).mul_right hc)]
      have h1 : (k : ℝ) * (A t ^ (k - 1) * A' * (A t * C)).trace = k * (A t ^ k * A' * C).trace := by
        cases k with
        | zero => simp
        | succ m =>
          congr 1
          rw [hc.eq, ← mul_assoc, Matrix.trace_mul_comm, ← mul_assoc, ← mul_assoc, Nat.add_sub_cancel, ← pow_succ']
      rw [h1, Nat.add_sub_cancel, Nat.cast_succ, add_mul, one_mul]

theorem pow_entry_bound (S : Sq d) (M : ℝ) (hM : 0 ≤ M) (hS : ∀ i j, |S i j| ≤ M) (k : Nat) (i j : Fin d) : |(S ^ k) i j| ≤ (d * M) ^ k := by
  induction k generalizing j with
  | zero => rw [pow_zero, pow_zero, Matrix.one_apply]; split_ifs <;> simp
  | succ k ih =>
    rw [pow_succ, Matrix.mul_apply]
    refine (Finset.abs_sum_le_sum_abs _ _).trans ?_
    calc ∑ l, |(S ^ k) i l * S l j| ≤ ∑ _l : Fin d, (d * M) ^ k * M :=
          Finset.sum_le_sum (fun l _ => by rw [abs_mul]; exact mul_le_mul (ih l) (hS l j) (abs_nonneg _) (by positivity))
      _ = (d * M) ^ (k + 1) := by rw [Finset.sum_const, Finset.card_univ, Fintype.card_fin, nsmul_eq_mul]; ring

/-- the derivative of the trace of the exponential along a curve of matrices -/
theorem traceExp_deriv (A A' : ℝ → Sq d) (M : ℝ) (hM : 0 ≤ M) (hA : ∀ t ∈ Metric.ball (0 : ℝ) 1, ∀ i j, HasDerivAt (fun s => A s i j) (A' t i j) t)
    (hb : ∀ t ∈ Metric.ball (0 : ℝ) 1, ∀ i j, |A t i j| ≤ M ∧ |A' t i j| ≤ M) :
    HasDerivAt (fun s => (NormedSpace.exp (A s)).trace) ((NormedSpace.exp (A 0) * A' 0).trace) 0 := by
  have h0 : (0 : ℝ) ∈ Metric.ball (0 : ℝ) 1 := by simp
  have hterm : ∀ (k : Nat), ∀ t ∈ Metric.ball (0 : ℝ) 1, HasDerivAt (fun s => ((Nat.factorial k : ℝ)⁻¹) * (A s ^ k).trace)
      (((Nat.factorial k : ℝ)⁻¹) * (k * (A t ^ (k - 1) * A' t).trace)) t := by
    intro k t ht
    obtain ⟨B, hB, hC⟩ := trace_pow_deriv A (A' t) t (hA t ht) k
    have h1 := hC 1 (Commute.one_right _)
    rw [mul_one, mul_one] at h1
    rw [← h1]
    exact (HasDerivAt.fun_sum (fun i _ => hB i i)).const_mul _
  have hbound : ∀ (k : Nat), ∀ t ∈ Metric.ball (0 : ℝ) 1, ‖((Nat.factorial k : ℝ)⁻¹) * (k * (A t ^ (k - 1) * A' t).trace)‖ ≤
      d * (d * M) * ((Nat.factorial (k - 1) : ℝ)⁻¹ * (d * M) ^ (k - 1)) := by
    intro k t ht
    have htr : ∀ m, |(A t ^ m * A' t).trace| ≤ d * ((d * M) ^ m * (d * M)) := by
      intro m
      have : ∀ i, |(A t ^ m * A' t) i i| ≤ (d * M) ^ m * (d * M) := by
        intro i
        rw [Matrix.mul_apply]
        refine (Finset.abs_sum_le_sum_abs _ _).trans ?_
        calc ∑ l, |(A t ^ m) i l * A' t l i| ≤ ∑ _l : Fin d, (d * M) ^ m * M :=
              Finset.sum_le_sum (fun l _ => by
                rw [abs_mul]
                exact mul_le_mul (pow_entry_bound _ M hM (fun i j => (hb t ht i j).1) m i l) (hb t ht l i).2 (abs_nonneg _) (by positivity))
          _ = (d * M) ^ m * (d * M) := by rw [Finset.sum_const, Finset.card_univ, Fintype.card_fin, nsmul_eq_mul]; ring
      refine (Finset.abs_sum_le_sum_abs _ _).trans ((Finset.sum_le_sum (fun i _ => this i)).trans ?_)
      rw [Finset.sum_const, Finset.card_univ, Fintype.card_fin, nsmul_eq_mul]
    cases k with
    | zero => simp; positivity
    | succ m =>
      rw [Nat.add_sub_cancel, Real.norm_eq_abs, abs_mul, abs_mul, abs_of_nonneg (by positivity : (0 : ℝ) ≤ (Nat.factorial (m + 1) : ℝ)⁻¹), abs_of_nonneg (by positivity : (0 : ℝ) ≤ ((m + 1 : Nat) : ℝ))]
      have hf : ((Nat.factorial (m + 1) : ℝ)⁻¹) * ((m + 1 : Nat) : ℝ) = (Nat.factorial m : ℝ)⁻¹ := by
        rw [Nat.factorial_succ, Nat.cast_mul, mul_inv, mul_comm _ ((Nat.factorial m : ℝ)⁻¹), mul_assoc, inv_mul_cancel₀ (by positivity), mul_one]
      rw [← mul_assoc, hf]
      calc (Nat.factorial m : ℝ)⁻¹ * |(A t ^ m * A' t).trace| ≤ (Nat.factorial m : ℝ)⁻¹ * (d * ((d * M) ^ m * (d * M))) := mul_le_mul_of_nonneg_left (htr m) (by positivity)
        _ = _ := by ring
  have hsum : Summable (fun k : Nat => (d * (d * M) * ((Nat.factorial (k - 1) : ℝ)⁻¹ * (d * M) ^ (k - 1)) : ℝ)) := by
    refine Summable.mul_left _ ?_
    rw [← summable_nat_add_iff 1]
    simp only [Nat.add_sub_cancel]
    have := Real.summable_pow_div_factorial (d * M)
    refine this.congr (fun k => ?_)
    rw [div_eq_inv_mul]
  have hsm : Summable (fun k : Nat => ((Nat.factorial k : ℝ)⁻¹) * (A 0 ^ k).trace) := (traceExp_hasSum (A 0)).summable
  have key := hasDerivAt_tsum_of_isPreconnected hsum Metric.isOpen_ball (convex_ball (0 : ℝ) 1).isPreconnected hterm hbound h0 hsm h0
  have e1 : (fun s => ∑' k : Nat, ((Nat.factorial k : ℝ)⁻¹) * (A s ^ k).trace) = fun s => (NormedSpace.exp (A s)).trace := by
    funext s; exact (traceExp_hasSum (A s)).tsum_eq
  have e2 : ∑' k : Nat, ((Nat.factorial k : ℝ)⁻¹) * (k * (A 0 ^ (k - 1) * A' 0).trace) = (NormedSpace.exp (A 0) * A' 0).trace := by
    have hs2 : HasSum (fun k : Nat => ((Nat.factorial k : ℝ)⁻¹) * (A 0 ^ k * A' 0).trace) (NormedSpace.exp (A 0) * A' 0).trace := by
      letI : NormedRing (Matrix (Fin d) (Fin d) ℝ) := Matrix.linftyOpNormedRing
      letI : NormedAlgebra ℝ (Matrix (Fin d) (Fin d) ℝ) := Matrix.linftyOpNormedAlgebra
      have h := NormedSpace.exp_series_hasSum_exp' (𝕂 := ℝ) (A 0)
      have h2 := h.map ((Matrix.traceAddMonoidHom (Fin d) ℝ).comp (AddMonoidHom.mulRight (A' 0))) (by
        show Continuous (fun B : Matrix (Fin d) (Fin d) ℝ => (B * A' 0).trace)
        exact Continuous.matrix_trace (continuous_id.mul continuous_const))
      have e : (⇑((Matrix.traceAddMonoidHom (Fin d) ℝ).comp (AddMonoidHom.mulRight (A' 0))) ∘ fun n : Nat => ((Nat.factorial n : ℝ)⁻¹) • A 0 ^ n) =
          fun k : Nat => ((Nat.factorial k : ℝ)⁻¹) * (A 0 ^ k * A' 0).trace := by
        funext k
        show (((Nat.factorial k : ℝ)⁻¹ • A 0 ^ k) * A' 0).trace = _
        rw [smul_mul_assoc, Matrix.trace_smul, smul_eq_mul]
      rw [e] at h2
      exact h2
    rw [← hs2.tsum_eq]
    have hsm' : Summable (fun k : Nat => ((Nat.factorial k : ℝ)⁻¹) * (k * (A 0 ^ (k - 1) * A' 0).trace)) := .of_norm_bounded hsum (fun k => hbound k 0 h0)
    rw [hsm'.tsum_eq_zero_add]
    simp only [Nat.cast_zero, zero_mul, mul_zero, zero_add, Nat.add_sub_cancel]
    refine tsum_congr (fun m => ?_)
    rw [← mul_assoc, Nat.factorial_succ, Nat.cast_mul, mul_inv, mul_comm _ ((Nat.factorial m : ℝ)⁻¹), mul_assoc ((Nat.factorial m : ℝ)⁻¹), inv_mul_cancel₀ (by positivity), mul_one]
  rw [e1, e2] at key
  exact key

/-- C154. `G_h` is the gradient of `h`: along every line through `W`, in every direction `V`. -/
theorem C154_penalty_gradient (W V : Sq d) : HasDerivAt (fun t : ℝ => hValue (W + t • V)) (∑ i, ∑ j, hGrad W i j * V i j) 0 := by
  set M : ℝ := 2 * (∑ i, ∑ j, (|W i j| + |V i j|)) ^ 2 with hMdef
  have hle : ∀ i j, |W i j| + |V i j| ≤ ∑ i, ∑ j, (|W i j| + |V i j|) := fun i j =>
    (Finset.single_le_sum (f := fun j => |W i j| + |V i j|) (fun j _ => by positivity) (Finset.mem_univ j)).trans
      (Finset.single_le_sum (f := fun i => ∑ j, (|W i j| + |V i j|)) (fun i _ => Finset.sum_nonneg (fun j _ => by positivity)) (Finset.mem_univ i))
  have key := traceExp_deriv (fun t => squares (W + t • V)) (fun t => Matrix.of (fun i j => 2 * (W i j + t * V i j) * V i j)) M (by positivity) ?_ ?_
  · have h2 := key.sub_const (d : ℝ)
    have e : (NormedSpace.exp (squares (W + (0 : ℝ) • V)) * Matrix.of (fun i j => 2 * (W i j + (0 : ℝ) * V i j) * V i j)).trace = ∑ i, ∑ j, hGrad W i j * V i j := by
      rw [Matrix.trace, Finset.sum_comm]
      refine Finset.sum_congr rfl (fun i _ => ?_)
      rw [Matrix.diag_apply, Matrix.mul_apply]
      refine Finset.sum_congr rfl (fun j _ => ?_)
      simp only [hGrad, Matrix.of_apply, Matrix.transpose_apply, zero_smul, add_zero, zero_mul]
      ring
    rw [e] at h2
    exact h2
  · intro t _ i j
    have h1 : HasDerivAt (fun s : ℝ => W i j + s * V i j) (V i j) t := by
      simpa using ((hasDerivAt_id t).mul_const (V i j)).const_add (W i j)
    have h2 := h1.mul h1
    have e : V i j * (W i j + t * V i j) + (W i j + t * V i j) * V i j = 2 * (W i j + t * V i j) * V i j := by ring
    rw [e] at h2
    exact h2
  · intro t ht i j
    have ht' : |t| < 1 := by simpa using ht
    have h1 : |W i j + t * V i j| ≤ ∑ i, ∑ j, (|W i j| + |V i j|) := by
      refine (abs_add_le _ _).trans (le_trans ?_ (hle i j))
      rw [abs_mul]
      nlinarith [abs_nonneg (V i j)]
    have h3 : |V i j| ≤ ∑ i, ∑ j, (|W i j| + |V i j|) := le_trans (by linarith [abs_nonneg (W i j)]) (hle i j)
    have h0 := abs_nonneg (W i j + t * V i j)
    have h4 := abs_nonneg (V i j)
    constructor
    · show |(W i j + t * V i j) * (W i j + t * V i j)| ≤ M
      rw [abs_mul]
      nlinarith
    · show |2 * (W i j + t * V i j) * V i j| ≤ M
      rw [abs_mul, abs_mul, abs_of_pos (by norm_num : (0 : ℝ) < 2)]
      nlinarith

theorem cell_gradient (φ ψ : ℝ → ℝ → ℝ) (hφ : ∀ x m, HasDerivAt (φ x) (ψ x m) m) (X : Tab n d) (W V : Sq d) :
    HasDerivAt (fun t : ℝ => ∑ a, ∑ j, φ (X a j) ((X * (W + t • V)) a j))
      (∑ i, ∑ j, (X.transpose * Matrix.of (fun a j => ψ (X a j) ((X * W) a j))) i j * V i j) 0 := by
  have e : ∑ i, ∑ j, (X.transpose * Matrix.of (fun a j => ψ (X a j) ((X * W) a j))) i j * V i j = ∑ a, ∑ j, ψ (X a j) ((X * W) a j) * (X * V) a j := by
    simp only [Matrix.mul_apply, Matrix.transpose_apply, Matrix.of_apply, Finset.sum_mul, Finset.mul_sum]
    rw [Finset.sum_comm, Finset.sum_comm (s := Finset.univ (α := Fin n))]
    refine Finset.sum_congr rfl (fun j _ => ?_)
    rw [Finset.sum_comm]
    refine Finset.sum_congr rfl (fun a _ => Finset.sum_congr rfl (fun i _ => by ring))
  rw [e]
  refine HasDerivAt.fun_sum (fun a _ => HasDerivAt.fun_sum (fun j _ => ?_))
  have h1 : HasDerivAt (fun t : ℝ => (X * (W + t • V)) a j) ((X * V) a j) 0 := by
    have : (fun t : ℝ => (X * (W + t • V)) a j) = fun t => (X * W) a j + t * (X * V) a j := by
      funext t
      rw [Matrix.mul_add, Matrix.mul_smul, Matrix.add_apply, Matrix.smul_apply, smul_eq_mul]
    rw [this]
    simpa using ((hasDerivAt_id (0 : ℝ)).mul_const ((X * V) a j)).const_add ((X * W) a j)
  have h2 := hφ (X a j) ((X * (W + (0 : ℝ) • V)) a j)
  have h3 := HasDerivAt.comp (0 : ℝ) h2 h1
  rw [zero_smul, add_zero] at h3
  exact h3

/-- C154. `G_loss` is the gradient of the loss, for all three losses. -/
theorem C154_loss_gradient (l : Loss) (X : Tab n d) (W V : Sq d) : HasDerivAt (fun t : ℝ => lossValue l X (W + t • V)) (∑ i, ∑ j, lossGrad l X W i j * V i j) 0 := by
  have pull : ∀ (c : ℝ) (G : Sq d), ∑ i, ∑ j, (c • G) i j * V i j = c * ∑ i, ∑ j, G i j * V i j := by
    intro c G
    simp only [Matrix.smul_apply, smul_eq_mul, Finset.mul_sum, mul_assoc]
  cases l with
  | l2 =>
    have h := (cell_gradient (fun x m => (x - m) ^ 2) (fun x m => -2 * (x - m)) (fun x m => by
      have h1 := ((hasDerivAt_id m).const_sub x).fun_pow 2
      refine h1.congr_deriv ?_
      simp) X W V).const_mul (0.5 / n : ℝ)
    have e : (0.5 / n : ℝ) * ∑ i, ∑ j, (X.transpose * Matrix.of (fun a j => -2 * (X a j - (X * W) a j))) i j * V i j = ∑ i, ∑ j, lossGrad .l2 X W i j * V i j := by
      have h2 : (Matrix.of (fun a j => -2 * (X a j - (X * W) a j)) : Tab n d) = (-2 : ℝ) • (X - X * W) := by
        ext a j; simp [Matrix.sub_apply]
      unfold lossGrad
      rw [h2, Matrix.mul_smul, pull, pull, ← mul_assoc]
      congr 1
      rw [show (0.5 : ℝ) = 1 / 2 by norm_num, show (-1.0 : ℝ) = -1 by norm_num]
      ring
    rw [e] at h
    exact h
  | logistic =>
    have h := (cell_gradient (fun x m => logaddexp0 m - x * m) (fun x m => sigmoid m - x) (fun x m => by
      have h1 : HasDerivAt (fun m => Real.exp 0 + Real.exp m) (Real.exp m) m := (Real.hasDerivAt_exp m).const_add _
      have h2 := h1.log (by positivity)
      have e : Real.exp m / (Real.exp 0 + Real.exp m) = sigmoid m := by
        unfold sigmoid
        rw [Real.exp_zero, Real.exp_neg, div_eq_div_iff (by positivity) (by positivity)]
        field_simp
        ring
      rw [e] at h2
      have h3 := h2.sub ((hasDerivAt_id m).const_mul x)
      rw [mul_one] at h3
      exact h3) X W V).const_mul (1.0 / n : ℝ)
    have e : (1.0 / n : ℝ) * ∑ i, ∑ j, (X.transpose * Matrix.of (fun a j => sigmoid ((X * W) a j) - X a j)) i j * V i j = ∑ i, ∑ j, lossGrad .logistic X W i j * V i j := by
      unfold lossGrad
      rw [pull]
      rfl
    rw [e] at h
    exact h
  | poisson =>
    have h := (cell_gradient (fun x m => Real.exp m - x * m) (fun x m => Real.exp m - x) (fun x m => by
      have h3 := (Real.hasDerivAt_exp m).sub ((hasDerivAt_id m).const_mul x)
      rw [mul_one] at h3
      exact h3) X W V).const_mul (1.0 / n : ℝ)
    have e : (1.0 / n : ℝ) * ∑ i, ∑ j, (X.transpose * Matrix.of (fun a j => Real.exp ((X * W) a j) - X a j)) i j * V i j = ∑ i, ∑ j, lossGrad .poisson X W i j * V i j := by
      unfold lossGrad
      rw [pull]
      rfl
    rw [e] at h
    exact h

/-- the point `w + t v` -/
noncomputable def along (w v : Pair d) (t : ℝ) : Pair d := ⟨w.pos + t • v.pos, w.neg + t • v.neg⟩

/-- the sum of the products of the entries -/
noncomputable def pairDot (g v : Pair d) : ℝ := ∑ i, ∑ j, g.pos i j * v.pos i j + ∑ i, ∑ j, g.neg i j * v.neg i j

/-- C154. What `_func` passes to the optimiser: the second component is the gradient of the first, for every loss, all data, penalties and points. -/
theorem C154_gradient (l : Loss) (X : Tab n d) (lambda1 rho alpha : ℝ) (w v : Pair d) :
    HasDerivAt (fun t : ℝ => objValue l X lambda1 rho alpha (along w v t)) (pairDot (objGrad l X lambda1 rho alpha w) v) 0 := by
  have hadj : ∀ t : ℝ, adj (along w v t) = adj w + t • adj v := by
    intro t
    unfold adj along
    ext i j
    simp only [Matrix.sub_apply, Matrix.add_apply, Matrix.smul_apply, smul_eq_mul]
    ring
  have hL := C154_loss_gradient l X (adj w) (adj v)
  have hh := C154_penalty_gradient (adj w) (adj v)
  have htot : HasDerivAt (fun t : ℝ => total (along w v t)) (total v) 0 := by
    have : (fun t : ℝ => total (along w v t)) = fun t => total w + t * total v := by
      funext t
      simp only [total, along, Matrix.add_apply, Matrix.smul_apply, smul_eq_mul, Finset.sum_add_distrib, ← Finset.mul_sum]
      ring
    rw [this]
    simpa using ((hasDerivAt_id (0 : ℝ)).mul_const (total v)).const_add (total w)
  have h1 := ((hL.add ((hh.const_mul (0.5 * rho)).mul hh)).add (hh.const_mul alpha)).add (htot.const_mul lambda1)
  simp only [objValue, hadj]
  refine h1.congr_deriv ?_
  simp only [zero_smul, add_zero, pairDot, objGrad, smoothGrad, total, Matrix.of_apply, Matrix.add_apply, Matrix.smul_apply, smul_eq_mul]
  have ev : ∀ G : Sq d, ∑ i, ∑ j, G i j * adj v i j = ∑ i, ∑ j, G i j * v.pos i j - ∑ i, ∑ j, G i j * v.neg i j := by
    intro G
    simp only [adj, Matrix.sub_apply, mul_sub, Finset.sum_sub_distrib]
  rw [ev, ev]
  simp only [add_mul, neg_mul, neg_add, mul_assoc, Finset.sum_add_distrib, Finset.sum_neg_distrib, ← Finset.mul_sum]
  ring

end Gradient

/-! ### Doubled variables -/

/-- what `notears_linear` is meant to minimise (toy.py:8): the loss, the penalty terms for cycles and `lambda1` times the sum of the absolute weights -/
noncomputable def l1Objective (l : Loss) (X : Tab n d) (lambda1 rho alpha : ℝ) (W : Sq d) : ℝ :=
  lossValue l X W + (rho / 2 * hValue W ^ 2 + alpha * hValue W) + lambda1 * ∑ i, ∑ j, |W i j|

/-- the positive and the negative parts of the weights -/
noncomputable def split (W : Sq d) : Pair d := ⟨Matrix.of (fun i j => max (W i j) 0), Matrix.of (fun i j => max (-W i j) 0)⟩

theorem max_split (x : ℝ) : max x 0 - max (-x) 0 = x ∧ max x 0 + max (-x) 0 = |x| := by
  rcases le_total 0 x with h | h
  · rw [max_eq_left h, max_eq_right (by linarith), abs_of_nonneg h]; constructor <;> ring
  · rw [max_eq_right h, max_eq_left (by linarith), abs_of_nonpos h]; constructor <;> ring

theorem adj_split (W : Sq d) : adj (split W) = W := by
  ext i j
  exact (max_split (W i j)).1

theorem total_split (W : Sq d) : total (split W) = ∑ i, ∑ j, |W i j| := by
  unfold total split
  rw [← Finset.sum_add_distrib]
  refine Finset.sum_congr rfl (fun i _ => ?_)
  rw [← Finset.sum_add_distrib]
  exact Finset.sum_congr rfl (fun j _ => (max_split (W i j)).2)

theorem split_feasible (W : Sq d) (h0 : ∀ i, W i i = 0) : Feasible (split W) := by
  intro i j
  refine ⟨le_max_right _ _, le_max_right _ _, ?_⟩
  rintro rfl
  simp [split, h0]

theorem total_ge (w : Pair d) (hw : Feasible w) : ∑ i, ∑ j, |adj w i j| ≤ total w := by
  unfold total
  rw [← Finset.sum_add_distrib]
  refine Finset.sum_le_sum (fun i _ => ?_)
  rw [← Finset.sum_add_distrib]
  refine Finset.sum_le_sum (fun j _ => ?_)
  obtain ⟨h1, h2, -⟩ := hw i j
  unfold adj
  rw [Matrix.sub_apply]
  exact abs_le.2 ⟨by linarith, by linarith⟩

theorem obj_l1 (l : Loss) (X : Tab n d) (lambda1 rho alpha : ℝ) (w : Pair d) :
    objValue l X lambda1 rho alpha w = l1Objective l X lambda1 rho alpha (adj w) + lambda1 * (total w - ∑ i, ∑ j, |adj w i j|) := by
  unfold objValue l1Objective
  rw [show (0.5 : ℝ) = 1 / 2 by norm_num]
  ring

/-- C154. The doubled variables: within the bounds the objective is never below the intended one (loss, penalty, `lambda1` times the sum of absolute weights), every matrix without self-loops is represented
by a point within the bounds at which both agree, and so the best points within the bounds represent exactly the best matrices without self-loops. -/
theorem C154_doubled (l : Loss) (X : Tab n d) (lambda1 rho alpha : ℝ) (hl : 0 ≤ lambda1) :
    (∀ w, Feasible w → l1Objective l X lambda1 rho alpha (adj w) ≤ objValue l X lambda1 rho alpha w ∧ ∀ i, adj w i i = 0) ∧
      (∀ W : Sq d, (∀ i, W i i = 0) → ∃ w, Feasible w ∧ adj w = W ∧ objValue l X lambda1 rho alpha w = l1Objective l X lambda1 rho alpha W) ∧
      (∀ W : Sq d, (∀ i, W i i = 0) → ((∀ W' : Sq d, (∀ i, W' i i = 0) → l1Objective l X lambda1 rho alpha W ≤ l1Objective l X lambda1 rho alpha W') ↔
        ∃ w, adj w = W ∧ Feasible w ∧ ∀ w', Feasible w' → objValue l X lambda1 rho alpha w ≤ objValue l X lambda1 rho alpha w')) := by
  have hA : ∀ w, Feasible w → l1Objective l X lambda1 rho alpha (adj w) ≤ objValue l X lambda1 rho alpha w ∧ ∀ i, adj w i i = 0 := by
    intro w hw
    refine ⟨?_, fun i => ?_⟩
    · rw [obj_l1]
      have := mul_nonneg hl (sub_nonneg.2 (total_ge w hw))
      linarith
    · have := (hw i i).2.2 rfl
      unfold adj
      rw [Matrix.sub_apply, this.1, this.2, sub_zero]
  have hB : ∀ W : Sq d, objValue l X lambda1 rho alpha (split W) = l1Objective l X lambda1 rho alpha W := by
    intro W
    rw [obj_l1, adj_split, total_split, sub_self, mul_zero, add_zero]
  refine ⟨hA, fun W h0 => ⟨split W, split_feasible W h0, adj_split W, hB W⟩, fun W h0 => ⟨fun h => ?_, ?_⟩⟩
  · refine ⟨split W, adj_split W, split_feasible W h0, fun w' hw' => ?_⟩
    rw [hB]
    exact (h _ (hA w' hw').2).trans (hA w' hw').1
  · rintro ⟨w, rfl, hw, hmin⟩ W' h0'
    have := hmin (split W') (split_feasible W' h0')
    rw [hB] at this
    exact (hA w hw).1.trans this

/-! ### The loop -/

/-- the loop of `notears_linear` in terms of the loop of `CausalDiscovery`: the state is a pair of `w_est` and `w_new` -/
noncomputable def asSolver (p : Problem n d) (l : Loss) : Solver ℝ (Pair d × Pair d) where
  fresh θ := (θ.2, θ.2)
  step r a θ := (θ.1, p.minimize (objValue l p.X p.lambda1 r a) (objGrad l p.X p.lambda1 r a) θ.1)
  pen θ := hValue (adj θ.2)
  isNan _ := false
  shrink := 0.25

theorem inner_eq (p : Problem n d) (l : Loss) (hl : p.loss = some l) (rhoMax alpha : ℝ) (h : Option ℝ) (w : Pair d) :
    ∀ (f : Nat) (rho : ℝ) (last : Option (Pair d)) (c : Pair d), (∀ x ∈ last, x = c) →
      Toy.inner p rhoMax alpha h w f rho last = (rhoLoop (asSolver p l) rhoMax alpha h f (w, c) rho (last.map (fun x => hValue (adj x)))).map
        (fun r => (if r.2.2.isSome then some r.1.2 else none, r.2.1)) := by
  intro f
  induction f with
  | zero => intro rho last c _; rfl
  | succ f ih =>
    intro rho last c hc
    have hsolve : solve p rho alpha w = .ok ((asSolver p l).step rho alpha (w, c)).2 := by unfold solve; rw [hl]; rfl
    have hfst : (asSolver p l).step rho alpha (w, c) = (w, ((asSolver p l).step rho alpha (w, c)).2) := rfl
    unfold Toy.inner rhoLoop
    by_cases hlt : rho < rhoMax
    · rw [if_pos hlt, if_pos hlt, hsolve]
      dsimp only
      have hiff : exceeds (hValue (adj ((asSolver p l).step rho alpha (w, c)).2)) h ↔ tooLarge (asSolver p l) ((asSolver p l).pen ((asSolver p l).step rho alpha (w, c))) h = true := by
        cases h with
        | none => simp [exceeds, tooLarge]
        | some h => exact (decide_eq_true_iff (p := (0.25 : ℝ) * h < _)).symm
      by_cases hb : exceeds (hValue (adj ((asSolver p l).step rho alpha (w, c)).2)) h
      · rw [if_pos hb, if_pos (hiff.1 hb), ih (rho * 10) (some _) _ (fun x hx => (Option.mem_some_iff.1 hx).symm)]
        rfl
      · rw [if_neg hb, if_neg (fun hh => hb (hiff.2 hh))]
        rfl
    · rw [if_neg hlt, if_neg hlt]
      cases last with
      | none => rfl
      | some x => rw [hc x rfl]; rfl

theorem rhoLoop_pen {Θ : Type} (s : Solver ℝ Θ) (rhoMax alpha : ℝ) (h : Option ℝ) : ∀ (f : Nat) (θ : Θ) (rho : ℝ) (last : Option ℝ) (θ' : Θ) (rho' v : ℝ),
    (∀ x ∈ last, x = s.pen θ) → rhoLoop s rhoMax alpha h f θ rho last = .ok (θ', rho', some v) → v = s.pen θ' := by
  intro f
  induction f with
  | zero => intro θ rho last θ' rho' v _ hr; cases hr
  | succ f ih =>
    intro θ rho last θ' rho' v hl hr
    unfold rhoLoop at hr
    by_cases hlt : rho < rhoMax
    · rw [if_pos hlt] at hr
      dsimp only at hr
      by_cases hb : tooLarge s (s.pen (s.step rho alpha θ)) h = true
      · rw [if_pos hb] at hr
        exact ih _ _ _ _ _ _ (fun x hx => (Option.mem_some_iff.1 hx).symm) hr
      · rw [if_neg hb] at hr
        cases hr; rfl
    · rw [if_neg hlt] at hr
      cases hr
      exact hl v rfl

theorem outer_eq (p : Problem n d) (l : Loss) (hl : p.loss = some l) (rhoMax hTol : ℝ) (fuel : Nat) :
    ∀ (k : Nat) (w w0 : Pair d) (rho alpha : ℝ) (h : Option ℝ),
      outer p rhoMax hTol fuel k w rho alpha h = (train (asSolver p l) rhoMax hTol fuel k (w0, w) rho alpha h).map (fun r => (r.1.2, r.2.1, r.2.2)) := by
  intro k
  induction k with
  | zero => intro w w0 rho alpha h; rfl
  | succ k ih =>
    intro w w0 rho alpha h
    have hin := inner_eq p l hl rhoMax alpha h w fuel rho none w (fun x hx => by cases hx)
    have hfresh : (asSolver p l).fresh (w0, w) = (w, w) := rfl
    unfold outer train rhoUpdate
    rw [hin, hfresh, Option.map_none]
    cases hr : rhoLoop (asSolver p l) rhoMax alpha h fuel (w, w) rho none with
    | error e => rfl
    | ok r =>
      obtain ⟨θ', rho', o⟩ := r
      cases o with
      | none => rfl
      | some v =>
        have hv : v = hValue (adj θ'.2) := rhoLoop_pen _ _ _ _ fuel _ _ _ _ _ _ (fun x hx => by cases hx) hr
        subst hv
        simp only [Except.map, Option.isSome_some, if_true]
        by_cases hs : hValue (adj θ'.2) ≤ hTol ∨ rhoMax ≤ rho'
        · have hs' : hValue (adj θ'.2) ≤ hTol ∨ rhoMax ≤ rho' ∨ (asSolver p l).isNan θ' = true := by
            rcases hs with a | a
            · exact .inl a
            · exact .inr (.inl a)
          rw [if_pos hs, if_pos hs']
        · have hs' : ¬ (hValue (adj θ'.2) ≤ hTol ∨ rhoMax ≤ rho' ∨ (asSolver p l).isNan θ' = true) := by
            rintro (a | a | a)
            · exact hs (.inl a)
            · exact hs (.inr a)
            · cases a
          rw [if_neg hs, if_neg hs', ih θ'.2 θ'.1]
          rfl

/-- a solution of the optimiser for some weights of the penalties and some start value -/
def IsSolution (p : Problem n d) (w : Pair d) : Prop := ∃ rho alpha w0, solve p rho alpha w0 = .ok w

theorem inner_solution (p : Problem n d) (rhoMax alpha : ℝ) (h : Option ℝ) (w : Pair d) :
    ∀ (f : Nat) (rho : ℝ) (last : Option (Pair d)) (w' : Pair d) (rho' : ℝ), (∀ x ∈ last, IsSolution p x) →
      Toy.inner p rhoMax alpha h w f rho last = .ok (some w', rho') → IsSolution p w' := by
  intro f
  induction f with
  | zero => intro rho last w' rho' _ hr; cases hr
  | succ f ih =>
    intro rho last w' rho' hl hr
    unfold Toy.inner at hr
    by_cases hlt : rho < rhoMax
    · rw [if_pos hlt] at hr
      cases hs : solve p rho alpha w with
      | error e => rw [hs] at hr; cases hr
      | ok x =>
        rw [hs] at hr
        dsimp only at hr
        have hx : IsSolution p x := ⟨rho, alpha, w, hs⟩
        by_cases hb : exceeds (hValue (adj x)) h
        · rw [if_pos hb] at hr
          exact ih _ _ _ _ (fun y hy => by rw [← Option.mem_some_iff.1 hy]; exact hx) hr
        · rw [if_neg hb] at hr
          cases hr; exact hx
    · rw [if_neg hlt] at hr
      cases hr
      exact hl w' rfl

theorem outer_solution (p : Problem n d) (rhoMax hTol : ℝ) (fuel : Nat) :
    ∀ (k : Nat) (w : Pair d) (rho alpha : ℝ) (h : Option ℝ) (r : Pair d × ℝ × Option ℝ), outer p rhoMax hTol fuel k w rho alpha h = .ok r →
      (k = 0 ∧ r.1 = w) ∨ IsSolution p r.1 := by
  intro k
  induction k with
  | zero => intro w rho alpha h r hr; cases hr; exact .inl ⟨rfl, rfl⟩
  | succ k ih =>
    intro w rho alpha h r hr
    right
    unfold outer at hr
    cases hi : Toy.inner p rhoMax alpha h w fuel rho none with
    | error e => rw [hi] at hr; cases hr
    | ok q =>
      obtain ⟨o, rho'⟩ := q
      rw [hi] at hr
      cases o with
      | none => cases hr
      | some x =>
        have hx : IsSolution p x := inner_solution p rhoMax alpha h w fuel rho none x rho' (fun y hy => by cases hy) hi
        dsimp only at hr
        by_cases hs : hValue (adj x) ≤ hTol ∨ rhoMax ≤ rho'
        · rw [if_pos hs] at hr
          cases hr; exact hx
        · rw [if_neg hs] at hr
          rcases ih _ _ _ _ _ hr with ⟨_, h2⟩ | h2
          · rw [h2]; exact hx
          · exact h2

/-! ### Cycles, penalty and threshold -/

theorem walk_pow {S : Sq d} {c : ℝ} (hc : 0 ≤ c) (hS : ∀ i j, 0 ≤ S i j) (f : Nat → Fin d) (hf : ∀ i, c ≤ S (f i) (f (i + 1))) (a k : Nat) : c ^ k ≤ (S ^ k) (f a) (f (a + k)) := by
  induction k with
  | zero => simp
  | succ k ih =>
    rw [pow_succ, pow_succ, Matrix.mul_apply]
    have h1 : c ^ k * c ≤ (S ^ k) (f a) (f (a + k)) * S (f (a + k)) (f (a + (k + 1))) := mul_le_mul ih (hf (a + k)) hc (pow_entry_nonneg hS k _ _)
    exact h1.trans (Finset.single_le_sum (f := fun l => (S ^ k) (f a) l * S l (f (a + (k + 1)))) (fun l _ => mul_nonneg (pow_entry_nonneg hS k _ _) (hS _ _)) (Finset.mem_univ (f (a + k))))

/-- a closed walk of length `k`, going round for ever -/
def IsRound (E : Fin d → Fin d → Prop) (k : Nat) (f : Nat → Fin d) : Prop := 0 < k ∧ (∀ i, E (f i) (f (i + 1))) ∧ ∀ i, f (i + k) = f i

theorem round_of_walk {E : Fin d → Fin d → Prop} (g : Nat → Fin d) (k : Nat) (hk : 0 < k) (hg : ∀ i < k, E (g i) (g (i + 1))) (h0 : g k = g 0) : IsRound E k (fun i => g (i % k)) := by
  refine ⟨hk, fun i => ?_, fun i => by simp⟩
  have hi : i % k < k := Nat.mod_lt _ hk
  have := hg (i % k) hi
  by_cases h : i % k + 1 = k
  · have h2 : (i + 1) % k = 0 := by rw [Nat.add_mod, ← Nat.mod_add_mod]; simp [h]
    show E (g (i % k)) (g ((i + 1) % k))
    rw [h2, ← h0, ← h]
    simpa [h] using this
  · have h2 : (i + 1) % k = i % k + 1 := by
      rw [← Nat.mod_add_mod, Nat.mod_eq_of_lt (by omega)]
    show E (g (i % k)) (g ((i + 1) % k))
    rw [h2]
    exact this

theorem walk_of_reach {E : Fin d → Fin d → Prop} {a b : Fin d} (h : Relation.TransGen E a b) : ∃ (k : Nat) (g : Nat → Fin d), 0 < k ∧ (∀ i < k, E (g i) (g (i + 1))) ∧ g 0 = a ∧ g k = b := by
  induction h with
  | @single b h =>
    refine ⟨1, fun i => if i = 0 then a else b, by omega, fun i hi => ?_, rfl, rfl⟩
    have h0 : i = 0 := by omega
    subst h0
    simpa using h
  | @tail b c _ hbc ih =>
    obtain ⟨k, g, hk, hg, h0, h1⟩ := ih
    refine ⟨k + 1, fun i => if i ≤ k then g i else c, by omega, fun i hi => ?_, by simpa using h0, by simp⟩
    by_cases hik : i = k
    · subst hik
      simpa [h1] using hbc
    · have : i + 1 ≤ k := by omega
      simpa [this, (by omega : i ≤ k)] using hg i (by omega)

/-- a cycle contains one that visits no node twice -/
theorem simple_round {E : Fin d → Fin d → Prop} {a : Fin d} (h : Relation.TransGen E a a) : ∃ (k : Nat) (f : Nat → Fin d), IsRound E k f ∧ Set.InjOn f (Finset.range k) := by
  classical
  have hex : ∃ k f, IsRound E k f := by
    obtain ⟨k, g, hk, hg, h0, h1⟩ := walk_of_reach h
    exact ⟨k, _, round_of_walk g k hk hg (h1.trans h0.symm)⟩
  obtain ⟨f, hf⟩ := Nat.find_spec hex
  refine ⟨Nat.find hex, f, hf, ?_⟩
  have key : ∀ x y, x < y → y < Nat.find hex → f x ≠ f y := by
    intro x y hxy hy heq
    refine Nat.find_min hex (m := y - x) (by omega) ⟨_, round_of_walk (fun i => f (x + i)) (y - x) (by omega) (fun i _ => hf.2.1 (x + i)) ?_⟩
    show f (x + (y - x)) = f (x + 0)
    rw [show x + (y - x) = y by omega, ← heq]; rfl
  intro x hx y hy heq
  simp only [Finset.coe_range, Set.mem_Iio] at hx hy
  rcases lt_trichotomy x y with h | h | h
  · exact absurd heq (key x y h hy)
  · exact h
  · exact absurd heq.symm (key y x h hx)

/-- the penalty of a matrix with a cycle of entries of at least `c` -/
theorem penalty_cycle (S : Sq d) (hS : ∀ i j, 0 ≤ S i j) (c : ℝ) (hc : 0 ≤ c) (a : Fin d) (h : Relation.TransGen (fun i j => c ≤ S i j) a a) :
    ∃ k, 1 ≤ k ∧ k ≤ d ∧ c ^ k / (Nat.factorial (k - 1) : ℝ) ≤ traceExp S := by
  obtain ⟨k, f, ⟨hk, hf, hper⟩, hinj⟩ := simple_round h
  have hcard : k ≤ d := by
    have := Finset.card_le_univ ((Finset.range k).image f)
    rwa [Finset.card_image_of_injOn hinj, Finset.card_range, Fintype.card_fin] at this
  refine ⟨k, hk, hcard, ?_⟩
  have htr : k * c ^ k ≤ (S ^ k).trace := by
    have h1 : ∑ i ∈ (Finset.range k).image f, c ^ k ≤ ∑ i ∈ (Finset.range k).image f, (S ^ k) i i := by
      refine Finset.sum_le_sum (fun i hi => ?_)
      obtain ⟨x, -, rfl⟩ := Finset.mem_image.1 hi
      have := walk_pow hc hS f hf x k
      rwa [hper] at this
    rw [Finset.sum_const, Finset.card_image_of_injOn hinj, Finset.card_range, nsmul_eq_mul] at h1
    exact h1.trans (Finset.sum_le_univ_sum_of_nonneg (fun i => pow_entry_nonneg hS k i i))
  have hs := sum_le_hasSum ({0, k} : Finset Nat) (fun k _ => trace_pow_nonneg hS k) (traceExp_hasSum S)
  rw [Finset.sum_pair (by omega)] at hs
  simp only [Nat.factorial_zero, Nat.cast_one, inv_one, pow_zero, one_mul, Matrix.trace_one, Fintype.card_fin] at hs
  have h2 : c ^ k / (Nat.factorial (k - 1) : ℝ) ≤ (Nat.factorial k : ℝ)⁻¹ * (S ^ k).trace := by
    have h3 := mul_le_mul_of_nonneg_left htr (by positivity : (0 : ℝ) ≤ (Nat.factorial k : ℝ)⁻¹)
    refine le_trans (le_of_eq ?_) h3
    obtain ⟨m, rfl⟩ : ∃ m, k = m + 1 := ⟨k - 1, by omega⟩
    rw [Nat.add_sub_cancel, Nat.factorial_succ, Nat.cast_mul]
    field_simp
  unfold traceExp
  linarith

theorem hValue_eq (W : Sq d) : hValue W = traceExp (fun i j => W i j * W i j) := rfl

/-- C154. When a threshold leaves no cycle: if the penalty `h(W)` is at most `tol` and `tol` is less than `t^(2k) / (k-1)!` for every possible length `k ≤ d` of a cycle, the weights of absolute value `t` or
more have no directed cycle. -/
theorem C154_threshold (W : Sq d) (t tol : ℝ) (ht : 0 ≤ t) (htol : ∀ k, 1 ≤ k → k ≤ d → tol < t ^ (2 * k) / (Nat.factorial (k - 1) : ℝ)) (hh : hValue W ≤ tol) :
    Acyclic (fun i j => t ≤ |W i j|) := by
  intro a ha
  have ha' : Relation.TransGen (fun i j => t ^ 2 ≤ W i j * W i j) a a := by
    refine Relation.TransGen.mono (fun i j (hij : t ≤ |W i j|) => ?_) a a ha
    rw [← sq, ← sq_abs (W i j)]
    exact pow_le_pow_left₀ ht hij 2
  obtain ⟨k, h1, h2, h3⟩ := penalty_cycle (fun i j => W i j * W i j) (fun i j => mul_self_nonneg _) (t ^ 2) (by positivity) a ha'
  rw [← hValue_eq, ← pow_mul] at h3
  exact absurd (htol k h1 h2) (not_lt.2 (h3.trans hh))

theorem cut_ne (t : ℝ) (W : Sq d) (i j : Fin d) (h : cut t W i j ≠ 0) : t ≤ |W i j| := by
  unfold cut at h
  rw [Matrix.of_apply] at h
  by_contra hlt
  rw [if_pos (not_le.1 hlt)] at h
  exact h rfl

/-- C154. The default settings of `notears_linear` (`h_tol = 1e-8`, `w_threshold = 0.3`): with up to five variables, a solution within the tolerance gives a graph without directed cycles. -/
theorem C154_defaults (W : Sq d) (hd : d ≤ 5) (hh : hValue W ≤ 1e-8) : Acyclic (fun i j => cut 0.3 W i j ≠ 0) := by
  have h := C154_threshold W 0.3 1e-8 (by norm_num) (fun k h1 h2 => ?_) hh
  · intro a ha
    exact h a (Relation.TransGen.mono (fun i j hij => cut_ne 0.3 W i j hij) a a ha)
  · have h5 : k ≤ 5 := h2.trans hd
    interval_cases k <;> norm_num [Nat.factorial]

open scoped Fin.CommRing

/-- a cycle through all `d` variables, all entries equal to `c` -/
noncomputable def cyc (d : Nat) [NeZero d] (c : ℝ) : Sq d := Matrix.of (fun i j => if j = i + 1 then c else 0)

theorem cyc_pow (d : Nat) [NeZero d] (c : ℝ) (k : Nat) (i j : Fin d) : (cyc d c ^ k) i j = if j = i + (k : Fin d) then c ^ k else 0 := by
  induction k generalizing j with
  | zero =>
    rw [pow_zero, Matrix.one_apply, Nat.cast_zero, add_zero, pow_zero]
    simp only [eq_comm]
  | succ k ih =>
    rw [pow_succ, Matrix.mul_apply, Finset.sum_eq_single (i + (k : Fin d))]
    · rw [ih, if_pos rfl]
      unfold cyc
      rw [Matrix.of_apply, Nat.cast_succ, ← add_assoc, mul_ite, mul_zero, pow_succ]
    · intro l _ hl
      rw [ih, if_neg hl, zero_mul]
    · intro h; exact absurd (Finset.mem_univ _) h

theorem cyc_penalty (d : Nat) [NeZero d] (c : ℝ) (h0 : 0 ≤ c) (h1 : c < 1) : traceExp (cyc d c) ≤ c ^ d / ((Nat.factorial (d - 1) : ℝ) * (1 - c)) := by
  have hd : 0 < d := Nat.pos_of_ne_zero (NeZero.ne d)
  have hsum := traceExp_hasSum (cyc d c)
  have hS : ∀ i j, 0 ≤ cyc d c i j := by
    intro i j
    unfold cyc
    rw [Matrix.of_apply]
    split_ifs
    · exact h0
    · exact le_rfl
  have hentry : ∀ k, ((Nat.factorial k : ℝ)⁻¹) * (cyc d c ^ k).trace ≤ (Nat.factorial k : ℝ)⁻¹ * (d * c ^ k) := by
    intro k
    refine mul_le_mul_of_nonneg_left ?_ (by positivity)
    have : (cyc d c ^ k).trace ≤ ∑ _i : Fin d, c ^ k := by
      refine Finset.sum_le_sum (fun i _ => ?_)
      rw [Matrix.diag_apply, cyc_pow]
      split_ifs
      · exact le_rfl
      · positivity
    rwa [Finset.sum_const, Finset.card_univ, Fintype.card_fin, nsmul_eq_mul] at this
  have hzero : ∀ k, 0 < k → k < d → ((Nat.factorial k : ℝ)⁻¹) * (cyc d c ^ k).trace = 0 := by
    intro k hk hkd
    rw [Matrix.trace, Finset.sum_eq_zero, mul_zero]
    intro i _
    rw [Matrix.diag_apply, cyc_pow, if_neg]
    intro h
    have h2 : (k : Fin d) = 0 := by simpa using h.symm
    rw [Fin.natCast_eq_zero] at h2
    exact absurd (Nat.le_of_dvd hk h2) (by omega)
  have hsm := hsum.summable
  have hsplit := hsm.sum_add_tsum_nat_add d
  rw [hsum.tsum_eq] at hsplit
  have hhead : ∑ k ∈ Finset.range d, ((Nat.factorial k : ℝ)⁻¹) * (cyc d c ^ k).trace = d := by
    rw [Finset.sum_eq_single 0]
    · simp
    · intro k hk hk0
      exact hzero k (by omega) (Finset.mem_range.1 hk)
    · intro h; exact absurd (Finset.mem_range.2 hd) h
  have htail : ∑' k, ((Nat.factorial (k + d) : ℝ)⁻¹) * (cyc d c ^ (k + d)).trace ≤ ∑' k : Nat, (c ^ d / (Nat.factorial (d - 1) : ℝ)) * c ^ k := by
    refine Summable.tsum_le_tsum (fun k => (hentry (k + d)).trans ?_) ((summable_nat_add_iff d).2 hsm) ((summable_geometric_of_lt_one h0 h1).mul_left _)
    have hfac : (d : ℝ) * (Nat.factorial (d - 1) : ℝ) ≤ (Nat.factorial (k + d) : ℝ) := by
      have h2 : d * Nat.factorial (d - 1) = Nat.factorial d := Nat.mul_factorial_pred (by omega)
      rw [← Nat.cast_mul, h2]
      exact_mod_cast Nat.factorial_le (by omega)
    rw [inv_mul_eq_div, div_mul_eq_mul_div, div_le_div_iff₀ (by positivity) (by positivity), pow_add]
    have hcp : 0 ≤ c ^ k * c ^ d := by positivity
    nlinarith
  rw [tsum_mul_left, tsum_geometric_of_lt_one h0 h1] at htail
  have e : c ^ d / (Nat.factorial (d - 1) : ℝ) * (1 - c)⁻¹ = c ^ d / ((Nat.factorial (d - 1) : ℝ) * (1 - c)) := by
    rw [← div_eq_mul_inv, div_div]
  rw [e] at htail
  unfold traceExp
  linarith

theorem cyc_squares (d : Nat) [NeZero d] (c : ℝ) : hValue (cyc d c) = traceExp (cyc d (c ^ 2)) := by
  rw [hValue_eq]
  congr 1
  funext i j
  unfold cyc
  rw [Matrix.of_apply, Matrix.of_apply]
  split_ifs
  · ring
  · ring

theorem cyc_cycle (d : Nat) [NeZero d] (c t : ℝ) (h0 : 0 ≤ c) (h : t ≤ c) (ht : 0 < t) : ¬ Acyclic (fun i j => cut t (cyc d c) i j ≠ 0) := by
  intro hac
  have hstep : ∀ i : Fin d, cut t (cyc d c) i (i + 1) ≠ 0 := by
    intro i
    unfold cut cyc
    simp only [Matrix.of_apply, if_true]
    rw [abs_of_nonneg h0, if_neg (not_lt.2 h)]
    exact (ht.trans_le h).ne'
  have hreach : ∀ k : Nat, Relation.TransGen (fun i j => cut t (cyc d c) i j ≠ 0) (0 : Fin d) (((k + 1 : Nat) : Fin d)) := by
    intro k
    induction k with
    | zero =>
      have := hstep 0
      rw [zero_add] at this
      refine Relation.TransGen.single ?_
      simpa using this
    | succ k ih =>
      have := hstep ((k + 1 : Nat) : Fin d)
      rw [← Nat.cast_succ] at this
      exact ih.tail this
  have hd : 0 < d := Nat.pos_of_ne_zero (NeZero.ne d)
  have h2 := hreach (d - 1)
  rw [Nat.sub_add_cancel hd, Fin.natCast_self] at h2
  exact hac 0 h2

/-- C154. The condition of `C154_threshold` cannot be improved much: for every number `d` of variables and every threshold `t` below 1, some weights with a cycle of length `d` above the threshold have a
penalty of at most `t^(2d) / ((d-1)! (1 - t²))`. -/
theorem C154_sharp (d : Nat) [NeZero d] (t : ℝ) (h0 : 0 < t) (h1 : t < 1) : ∃ W : Sq d, ¬ Acyclic (fun i j => cut t W i j ≠ 0) ∧
    hValue W ≤ t ^ (2 * d) / ((Nat.factorial (d - 1) : ℝ) * (1 - t ^ 2)) := by
  refine ⟨cyc d t, cyc_cycle d t t h0.le le_rfl h0, ?_⟩
  rw [cyc_squares, pow_mul]
  exact cyc_penalty d (t ^ 2) (by positivity) (by nlinarith)

/-- C154, refuted for six variables: that a solution within the tolerance, cut at the threshold, has no cycle - with the default settings. Six weights of 0.3 in a circle have a penalty below `1e-8`, so an
optimiser that returns them ends the search, and `notears_linear`, whose result is documented to be a DAG, returns the circle. -/
theorem C154_six_refuted (X : Tab n 6) (lambda1 : ℝ) : ∃ minimize : Minimize 6, (∀ f g w, Feasible (minimize f g w)) ∧
    ∃ W, notearsLinear 20 minimize X lambda1 "l2" 100 1e-8 1e16 0.3 = .ok W ∧ ¬ Acyclic (fun i j => W i j ≠ 0) := by
  have hpen : hValue (cyc 6 0.3) ≤ 1e-8 := by
    rw [cyc_squares]
    refine (cyc_penalty 6 (0.3 ^ 2) (by norm_num) (by norm_num)).trans ?_
    norm_num [Nat.factorial]
  refine ⟨fun _ _ _ => split (cyc 6 0.3), fun _ _ _ => split_feasible _ (fun i => ?_), cut 0.3 (cyc 6 0.3), ?_, cyc_cycle 6 0.3 0.3 (by norm_num) le_rfl (by norm_num)⟩
  · unfold cyc
    rw [Matrix.of_apply, if_neg]
    intro h
    have : (1 : Fin 6) = 0 := by simpa using h.symm
    exact absurd this (by decide)
  · have h16 : (1 : ℝ) < 1e16 := by norm_num
    unfold notearsLinear outer Toy.inner
    rw [if_pos h16]
    have hs : solve (problem (fun _ _ _ => split (cyc 6 0.3)) X lambda1 "l2") 1 0 ⟨0, 0⟩ = .ok (split (cyc 6 0.3)) := rfl
    rw [hs]
    dsimp only
    rw [if_neg (show ¬ exceeds (hValue (adj (split (cyc 6 0.3)))) none from id)]
    dsimp only
    rw [adj_split, if_pos (.inl hpen)]
    dsimp only
    rw [adj_split]

/-! ### The run -/

/-- C154. What `notears_linear` returns, for any data, loss and optimiser, a limit `rho_max` above 1 and at least one iteration: it ends, and its result is a solution of the optimiser - for some penalty
weights - cut at the threshold; the search ended because the penalty of that solution is within the tolerance, or because the limit was reached, or after `max_iter` iterations - and then every iteration after the
first has divided the penalty by at least four. -/
theorem C154_result (minimize : Minimize d) (X : Tab n d) (lambda1 : ℝ) (lossType : String) (l : Loss) (hl : parse lossType = some l) (maxIter k fuel : Nat) (hm : 0 < maxIter)
    (hTol rhoMax t : ℝ) (h1 : 1 < rhoMax) (hk : rhoMax ≤ 10 ^ k) (hfuel : k < fuel) :
    ∃ (w : Pair d) (rho : ℝ), IsSolution (problem minimize X lambda1 lossType) w ∧
      outer (problem minimize X lambda1 lossType) rhoMax hTol fuel maxIter ⟨0, 0⟩ 1 0 none = .ok (w, rho, some (hValue (adj w))) ∧
      notearsLinear fuel minimize X lambda1 lossType maxIter hTol rhoMax t = .ok (cut t (adj w)) ∧
      (hValue (adj w) ≤ hTol ∨ rhoMax ≤ rho ∨ ∃ w1, solve (problem minimize X lambda1 lossType) 1 0 ⟨0, 0⟩ = .ok w1 ∧ hValue (adj w) ≤ (1 / 4) ^ (maxIter - 1) * hValue (adj w1)) := by
  have hp : (problem minimize X lambda1 lossType).loss = some l := hl
  obtain ⟨θ', rho, e1, -, -, -, e5⟩ := C108_training (asSolver (problem minimize X lambda1 lossType) l) (by show (0 : ℝ) ≤ 0.25; norm_num) rhoMax hTol (fun _ => 0) (fun _ _ _ => by omega) (fun _ => by omega) k fuel maxIter
    h1 hk hfuel hm (⟨0, 0⟩, ⟨0, 0⟩)
  have ho : outer (problem minimize X lambda1 lossType) rhoMax hTol fuel maxIter ⟨0, 0⟩ 1 0 none = .ok (θ'.2, rho, some (hValue (adj θ'.2))) := by
    rw [outer_eq _ l hp rhoMax hTol fuel maxIter ⟨0, 0⟩ ⟨0, 0⟩]
    unfold training at e1
    rw [e1]
    rfl
  refine ⟨θ'.2, rho, ?_, ho, ?_, ?_⟩
  · rcases outer_solution _ _ _ _ _ _ _ _ _ _ ho with ⟨h, -⟩ | h
    · omega
    · exact h
  · unfold notearsLinear
    rw [ho]
  · rcases e5 with h | h | h | h
    · exact .inl h
    · exact .inr (.inl h)
    · cases h
    · refine .inr (.inr ⟨_, by unfold solve; rw [hp], ?_⟩)
      have e : ((asSolver (problem minimize X lambda1 lossType) l).shrink) = (1 / 4 : ℝ) := by show (0.25 : ℝ) = 1 / 4; norm_num
      rw [e] at h
      exact h

/-- C154. With an optimiser that respects the bounds, no variable is a cause of itself. -/
theorem C154_no_loops (minimize : Minimize d) (hmin : ∀ f g w, Feasible (minimize f g w)) (fuel : Nat) (X : Tab n d) (lambda1 : ℝ) (lossType : String) (maxIter : Nat) (hTol rhoMax t : ℝ) (W : Sq d)
    (hW : notearsLinear fuel minimize X lambda1 lossType maxIter hTol rhoMax t = .ok W) (i : Fin d) : W i i = 0 := by
  unfold notearsLinear at hW
  cases ho : outer (problem minimize X lambda1 lossType) rhoMax hTol fuel maxIter ⟨0, 0⟩ 1 0 none with
  | error e => rw [ho] at hW; cases hW
  | ok r =>
    rw [ho] at hW
    cases hW
    have hadj : adj r.1 i i = 0 := by
      rcases outer_solution _ _ _ _ _ _ _ _ _ _ ho with ⟨-, h⟩ | ⟨rho, alpha, w0, h⟩
      · rw [h]; simp [adj]
      · have hf : Feasible r.1 := by
          unfold solve at h
          cases hl : (problem minimize X lambda1 lossType).loss with
          | none => rw [hl] at h; cases h
          | some l =>
            rw [hl] at h
            have := Except.ok.inj h
            rw [← this]
            exact hmin _ _ _
        have := (hf i i).2.2 rfl
        unfold adj
        rw [Matrix.sub_apply, this.1, this.2, sub_zero]
    unfold cut
    rw [Matrix.of_apply, hadj]
    split_ifs <;> rfl

/-- C154. With the loss `l2` the means of the columns do not matter: adding a constant to every column gives the same answer, and the optimiser sees columns with mean zero. The other losses see the data as they are given. -/
theorem C154_centred (minimize : Minimize d) (X : Tab n d) (hn : 0 < n) (b : Fin d → ℝ) (lambda1 : ℝ) (fuel maxIter : Nat) (hTol rhoMax t : ℝ) :
    notearsLinear fuel minimize (Matrix.of (fun a j => X a j + b j)) lambda1 "l2" maxIter hTol rhoMax t = notearsLinear fuel minimize X lambda1 "l2" maxIter hTol rhoMax t ∧
    (∀ j, ∑ a, (problem minimize X lambda1 "l2").X a j = 0) ∧
    (∀ a a' j, (problem minimize X lambda1 "l2").X a j - (problem minimize X lambda1 "l2").X a' j = X a j - X a' j) ∧
    (∀ lossType, lossType = "logistic" ∨ lossType = "poisson" → (problem minimize X lambda1 lossType).X = X) := by
  have hn' : (n : ℝ) ≠ 0 := by positivity
  refine ⟨?_, fun j => ?_, fun a a' j => ?_, ?_⟩
  · have : centre (Matrix.of (fun a j => X a j + b j) : Tab n d) = centre X := by
      ext a j
      simp only [centre, Matrix.of_apply, Finset.sum_add_distrib, Finset.sum_const, Finset.card_univ, Fintype.card_fin, nsmul_eq_mul]
      field_simp
      ring
    unfold notearsLinear problem
    simp only [if_true, this]
  · simp only [problem, if_true, centre, Matrix.of_apply, Finset.sum_sub_distrib, Finset.sum_const, Finset.card_univ, Fintype.card_fin, nsmul_eq_mul]
    field_simp
    ring
  · simp only [problem, if_true, centre, Matrix.of_apply]
    ring
  · rintro s (rfl | rfl) <;> simp [problem]

/-- C154. The remaining cases: no iteration gives the zero matrix; an unknown `loss_type` raises `ValueError`; a limit `rho_max` of at most 1 raises `TypeError`. -/
theorem C154_errors (minimize : Minimize d) (X : Tab n d) (lambda1 : ℝ) (lossType : String) (fuel maxIter : Nat) (hTol rhoMax t : ℝ) :
    notearsLinear fuel minimize X lambda1 lossType 0 hTol rhoMax t = .ok 0 ∧
      (rhoMax ≤ 1 → notearsLinear (fuel + 1) minimize X lambda1 lossType (maxIter + 1) hTol rhoMax t = .error .type) ∧
      (1 < rhoMax → lossType ∉ ["l2", "logistic", "poisson"] → notearsLinear (fuel + 1) minimize X lambda1 lossType (maxIter + 1) hTol rhoMax t = .error .value) := by
  refine ⟨?_, fun h => ?_, fun h hl => ?_⟩
  · unfold notearsLinear outer
    refine congrArg Except.ok ?_
    ext i j
    unfold cut adj
    simp
  · unfold notearsLinear outer Toy.inner
    rw [if_neg (not_lt.2 h)]
  · have hp : (problem minimize X lambda1 lossType).loss = none := by
      simp only [List.mem_cons, List.not_mem_nil, or_false, not_or] at hl
      show parse lossType = none
      unfold parse
      rw [if_neg hl.1, if_neg hl.2.1, if_neg hl.2.2]
    unfold notearsLinear outer Toy.inner
    rw [if_pos h]
    have : solve (problem minimize X lambda1 lossType) 1 0 ⟨0, 0⟩ = .error .value := by unfold solve; rw [hp]
    rw [this]

/-! ### `CausalDiscovery` -/

/-- C154. The same for `CausalDiscovery`: if the training ends with a penalty of at most `tol`, and the threshold satisfies the condition, its answer consists of exactly the learned weights that reach the threshold
- making the graph acyclic removes nothing. -/
theorem C154_causal_discovery (net : Net ℝ) (t tol : ℝ) (ht : 0 < t) (htol : ∀ k, 1 ≤ k → k ≤ net.d → tol < t ^ (2 * k) / (Nat.factorial (k - 1) : ℝ)) (hh : hFunc net ≤ tol)
    (f : Nat) (hf : net.d * net.d < f) : causalDiscovery f (some t) (getW net) = .ok (.matrix (fun i j => open Classical in if t ≤ getW net i j then getW net i j else 0)) := by
  have hnn : ∀ i j, 0 ≤ getW net i j := fun i j => Real.sqrt_nonneg _
  have hac : Acyclic (fun i j => t ≤ |getW net i j|) := by
    refine C154_threshold (Matrix.of (fun i j => getW net i j)) t tol ht.le htol (le_trans (le_of_eq ?_) hh)
    rw [hValue_eq]
    unfold hFunc
    congr 1
    funext i j
    exact Real.mul_self_sqrt (strength_nonneg net i j)
  obtain ⟨M, hM, -, h3, h4⟩ := C109_causal_discovery (some t) (getW net) hnn
  rw [hM f hf]
  congr 2
  funext i j
  have hac' : Acyclic (fun i j => getW net i j ≠ 0 ∧ ∀ τ ∈ some t, τ ≤ getW net i j) := by
    intro a ha
    refine hac a (Relation.TransGen.mono (fun i j hij => ?_) a a ha)
    rw [abs_of_nonneg (hnn i j)]
    exact hij.2 t rfl
  by_cases hij : t ≤ getW net i j
  · rw [if_pos hij]
    rcases h4 hac' i j with h | ⟨-, τ, hτ, h⟩
    · exact h
    · cases hτ
      exact absurd hij (not_le.2 h)
  · rw [if_neg hij]
    by_contra hne
    exact hij ((h3 i j hne).2.2.1 t rfl)

/-- C154, refuted: that the default settings of `CausalDiscovery` (`h_tol = 1e-6`, `threshold = 0.01`) have this property. Weights of 0.02 in both directions between two variables are within the tolerance; one of the two
edges, above the threshold, is removed. -/
theorem C154_default_refuted : ∃ θ : Params, hFunc (linNet 2 θ) ≤ 1e-6 ∧ linW 2 θ 0 1 = 0.02 ∧ linW 2 θ 1 0 = 0.02 ∧
    ∃ M : Mat 2 ℝ, causalDiscovery 5 (some 0.01) (linW 2 θ) = .ok (.matrix M) ∧ (M 0 1 = 0 ∨ M 1 0 = 0) := by
  set θ : Params := (fun j i => if i = j then 0 else 0.02, fun _ => 0) with hθ
  have hstr : ∀ i j : Fin 2, strength (linNet 2 θ) i j = cyc 2 (0.02 ^ 2) i j := by
    intro i j
    fin_cases i <;> fin_cases j <;> simp [strength, linNet, hθ, cyc]
  have hW : ∀ i j : Fin 2, i ≠ j → linW 2 θ i j = 0.02 := by
    intro i j hij
    show Real.sqrt (strength (linNet 2 θ) i j) = 0.02
    have : strength (linNet 2 θ) i j = 0.02 ^ 2 := by
      rw [hstr]
      fin_cases i <;> fin_cases j <;> simp [cyc] at hij ⊢
    rw [this, Real.sqrt_sq (by norm_num)]
  refine ⟨θ, ?_, hW 0 1 (by decide), hW 1 0 (by decide), ?_⟩
  · have : hFunc (linNet 2 θ) = traceExp (cyc 2 (0.02 ^ 2)) := by
      show traceExp (fun i j : Fin 2 => strength (linNet 2 θ) i j) = _
      congr 1
      funext i j
      exact hstr i j
    rw [this]
    refine (cyc_penalty 2 (0.02 ^ 2) (by norm_num) (by norm_num)).trans ?_
    norm_num [Nat.factorial]
  · obtain ⟨M, hM, hac, -⟩ := C109_causal_discovery (some (0.01 : ℝ)) (linW 2 θ) (fun i j => Real.sqrt_nonneg _)
    refine ⟨M, hM 5 (by norm_num), ?_⟩
    by_contra hne
    rw [not_or] at hne
    exact hac 0 (.tail (.single hne.1) hne.2)

/-- non-vacuity of `C154_threshold`, `C154_defaults` and `C154_causal_discovery`: the condition on tolerance and threshold, and a matrix with an edge above the threshold within the tolerance -/
example : (∀ k, 1 ≤ k → k ≤ 2 → (1e-3 : ℝ) < 0.3 ^ (2 * k) / (Nat.factorial (k - 1) : ℝ)) ∧
    hValue (Matrix.of (fun i j : Fin 2 => if i = 0 ∧ j = 1 then (0.5 : ℝ) else 0)) ≤ 1e-8 := by
  constructor
  · intro k h1 h2
    interval_cases k <;> norm_num [Nat.factorial]
  · have h := (C107_penalty_golem (fun i j : Fin 2 => if i = 0 ∧ j = 1 then (0.5 : ℝ) else 0)).2.2 (by
      have hstep : ∀ a b : Fin 2, MatEdge (fun i j : Fin 2 => if i = 0 ∧ j = 1 then (0.5 : ℝ) else 0) a b → a = 0 ∧ b = 1 := by
        intro a b hab
        by_contra hne
        exact hab (if_neg hne)
      intro a ha
      have h1 : ∀ b, Relation.TransGen (MatEdge (fun i j : Fin 2 => if i = 0 ∧ j = 1 then (0.5 : ℝ) else 0)) a b → a = 0 ∧ b = 1 := by
        intro b hb
        induction hb with
        | single h => exact hstep _ _ h
        | tail _ h ih => exact ⟨ih.1, (hstep _ _ h).2⟩
      obtain ⟨h2, h3⟩ := h1 a ha
      exact absurd (h2.symm.trans h3) (by decide))
    have e : hValue (Matrix.of (fun i j : Fin 2 => if i = 0 ∧ j = 1 then (0.5 : ℝ) else 0)) = 0 := h
    rw [e]
    norm_num

/-- non-vacuity of `C154_result`: the default limit -/
example : parse "l2" = some .l2 ∧ (1 : ℝ) < 1e16 ∧ (1e16 : ℝ) ≤ 10 ^ 16 := ⟨by decide, by norm_num, by norm_num⟩

end YL.Props
