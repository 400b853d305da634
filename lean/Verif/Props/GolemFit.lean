import Mathlib.Probability.Distributions.Gaussian.Real
import Mathlib.MeasureTheory.Integral.Pi
import Mathlib.MeasureTheory.Measure.Lebesgue.Basic
import Mathlib.LinearAlgebra.Matrix.ToLin
import Verif.Model.GolemFit
import Verif.Props.Dagma
import Verif.Props.Gen
import Mathlib.Tactic.FinCases

/-!
# C148: what `GolemDiscovery` minimises, and how far its training can get
-/

set_option linter.unusedSectionVars false
set_option linter.unusedVariables false

open YL.Dagma YL.GolemFit MeasureTheory ProbabilityTheory
open scoped NNReal ENNReal

namespace YL.Spec

/-- the density at `x` of a linear Gaussian model: every variable is the weighted sum of the others plus a noise of mean zero and
variance `v j`, `x = x W + e` -/
noncomputable def semDensity {d : Nat} (W : Mx d) (v : Fin d → ℝ≥0) (x : Fin d → ℝ) : ℝ :=
  |(1 - W).det| * ∏ j, gaussianPDFReal 0 (v j) (x j - ∑ i, x i * W i j)

/-- the likelihood of a sample, the rows of `X` being independent -/
noncomputable def semLikelihood {n d : Nat} (X : Matrix (Fin n) (Fin d) ℝ) (W : Mx d) (v : Fin d → ℝ≥0) : ℝ :=
  ∏ a, semDensity W v (X a)

end YL.Spec

namespace YL.Props
open YL.Spec

noncomputable section
variable {n d : Nat}

/-! ### The density -/

theorem pi_density (v : Fin d → ℝ≥0) (hv : ∀ j, v j ≠ 0) :
    Measure.pi (fun j => gaussianReal 0 (v j)) =
      (volume : Measure (Fin d → ℝ)).withDensity (fun e => ENNReal.ofReal (∏ j, gaussianPDFReal 0 (v j) (e j))) := by
  refine Measure.pi_eq (fun s hs => ?_)
  have hm : MeasurableSet (Set.univ.pi s) := MeasurableSet.univ_pi hs
  rw [withDensity_apply _ hm, ← lintegral_indicator hm]
  have h1 : ∀ e : Fin d → ℝ, (Set.univ.pi s).indicator (fun e => ENNReal.ofReal (∏ j, gaussianPDFReal 0 (v j) (e j))) e =
      ENNReal.ofReal (∏ j, (s j).indicator (gaussianPDFReal 0 (v j)) (e j)) := by
    intro e
    by_cases he : e ∈ Set.univ.pi s
    · rw [Set.indicator_of_mem he]
      congr 1
      refine Finset.prod_congr rfl (fun j _ => ?_)
      rw [Set.indicator_of_mem (he j (Set.mem_univ j))]
    · rw [Set.indicator_of_notMem he]
      obtain ⟨j, hj⟩ : ∃ j, e j ∉ s j := by
        by_contra hc
        push Not at hc
        exact he (fun j _ => hc j)
      rw [Finset.prod_eq_zero (Finset.mem_univ j) (Set.indicator_of_notMem hj _), ENNReal.ofReal_zero]
  rw [lintegral_congr h1]
  have hint : ∀ j, Integrable ((s j).indicator (gaussianPDFReal 0 (v j))) :=
    fun j => (integrable_gaussianPDFReal 0 (v j)).indicator (hs j)
  have hnn : ∀ j x, 0 ≤ (s j).indicator (gaussianPDFReal 0 (v j)) x :=
    fun j x => Set.indicator_nonneg (fun y _ => gaussianPDFReal_nonneg _ _ _) x
  rw [← ofReal_integral_eq_lintegral_ofReal]
  · rw [integral_fintype_prod_volume_eq_prod (fun j => (s j).indicator (gaussianPDFReal 0 (v j))),
      ENNReal.ofReal_prod_of_nonneg (fun j _ => integral_nonneg (hnn j))]
    refine Finset.prod_congr rfl (fun j _ => ?_)
    rw [integral_indicator (hs j), gaussianReal_apply_eq_integral 0 (hv j)]
  · exact Integrable.fintype_prod (fun j => hint j)
  · exact Filter.Eventually.of_forall (fun e => Finset.prod_nonneg (fun j _ => hnn j (e j)))

/-- C148. `semDensity` is the density of the solution of `x = x W + e` for independent Gaussian noise `e`: the equation has one
solution for every noise, and the law of that solution has this density. -/
theorem C148_density (W : Mx d) (v : Fin d → ℝ≥0) (hW : (1 - W).det ≠ 0) (hv : ∀ j, v j ≠ 0) :
    (∀ e x : Fin d → ℝ, (∀ j, x j = (∑ i, x i * W i j) + e j) ↔ x = Matrix.vecMul e (1 - W)⁻¹) ∧
      (Measure.pi (fun j => gaussianReal 0 (v j))).map (fun e => Matrix.vecMul e (1 - W)⁻¹) =
        (volume : Measure (Fin d → ℝ)).withDensity (fun x => ENNReal.ofReal (semDensity W v x)) := by
  have hu : IsUnit (1 - W).det := isUnit_iff_ne_zero.2 hW
  have hsolve : ∀ e x : Fin d → ℝ, (∀ j, x j = (∑ i, x i * W i j) + e j) ↔ e = Matrix.vecMul x (1 - W) := by
    intro e x
    rw [Matrix.vecMul_sub, Matrix.vecMul_one]
    constructor
    · intro h
      funext j
      rw [Pi.sub_apply]
      have := h j
      show e j = x j - ∑ i, x i * W i j
      linarith
    · intro h j
      have : e j = x j - ∑ i, x i * W i j := by rw [h]; rfl
      linarith
  have hinv : ∀ e x : Fin d → ℝ, e = Matrix.vecMul x (1 - W) ↔ x = Matrix.vecMul e (1 - W)⁻¹ := by
    intro e x
    constructor
    · rintro rfl
      rw [Matrix.vecMul_vecMul, Matrix.mul_nonsing_inv _ hu, Matrix.vecMul_one]
    · rintro rfl
      rw [Matrix.vecMul_vecMul, Matrix.nonsing_inv_mul _ hu, Matrix.vecMul_one]
  refine ⟨fun e x => (hsolve e x).trans (hinv e x), ?_⟩
  have hc : ∀ B : Mx d, Measurable (fun e : Fin d → ℝ => Matrix.vecMul e B) := by
    intro B
    refine measurable_pi_iff.2 (fun j => ?_)
    show Measurable (fun e : Fin d → ℝ => ∑ i, e i * B i j)
    exact Finset.measurable_fun_sum _ (fun i _ => (measurable_pi_apply i).mul_const _)
  rw [pi_density v hv]
  ext S hS
  have hpdf : Measurable (fun e : Fin d → ℝ => ENNReal.ofReal (∏ j, gaussianPDFReal 0 (v j) (e j))) :=
    (Finset.measurable_fun_prod _ (fun j _ => (measurable_gaussianPDFReal 0 (v j)).comp (measurable_pi_apply j))).ennreal_ofReal
  rw [Measure.map_apply (hc _) hS, withDensity_apply _ (hc _ hS), withDensity_apply _ hS]
  rw [← lintegral_indicator (hc _ hS), ← lintegral_indicator hS]
  -- Lebesgue measure under x ↦ x (1 - W)
  have hmap := Real.map_matrix_volume_pi_eq_smul_volume_pi (M := (1 - W).transpose) (by rwa [Matrix.det_transpose])
  have hfun : (⇑(Matrix.toLin' (1 - W).transpose) : (Fin d → ℝ) → Fin d → ℝ) = fun x => Matrix.vecMul x (1 - W) := by
    funext x
    rw [Matrix.toLin'_apply, Matrix.mulVec_transpose]
  rw [hfun, Matrix.det_transpose] at hmap
  have habs : (0 : ℝ) < |(1 - W).det| := abs_pos.2 hW
  have hvol : (volume : Measure (Fin d → ℝ)) =
      ENNReal.ofReal |(1 - W).det| • Measure.map (fun x => Matrix.vecMul x (1 - W)) volume := by
    rw [hmap, smul_smul, ← ENNReal.ofReal_mul (abs_nonneg _), abs_inv, mul_inv_cancel₀ habs.ne', ENNReal.ofReal_one, one_smul]
  have hg : Measurable (((fun e : Fin d → ℝ => Matrix.vecMul e (1 - W)⁻¹) ⁻¹' S).indicator
      (fun e => ENNReal.ofReal (∏ j, gaussianPDFReal 0 (v j) (e j)))) := hpdf.indicator (hc _ hS)
  conv_lhs => rw [hvol]
  rw [lintegral_smul_measure, lintegral_map hg (hc _), smul_eq_mul, ← lintegral_const_mul _ (show Measurable (fun a : Fin d → ℝ =>
      ((fun e : Fin d → ℝ => Matrix.vecMul e (1 - W)⁻¹) ⁻¹' S).indicator
        (fun e => ENNReal.ofReal (∏ j, gaussianPDFReal 0 (v j) (e j))) (Matrix.vecMul a (1 - W))) from hg.comp (hc _))]
  refine lintegral_congr (fun x => ?_)
  have hx : Matrix.vecMul (Matrix.vecMul x (1 - W)) (1 - W)⁻¹ = x := ((hinv _ x).1 rfl).symm
  by_cases hxS : x ∈ S
  · rw [Set.indicator_of_mem hxS, Set.indicator_of_mem (by rw [Set.mem_preimage, hx]; exact hxS),
      ← ENNReal.ofReal_mul (abs_nonneg _)]
    unfold semDensity
    congr 2
    refine Finset.prod_congr rfl (fun j _ => ?_)
    congr 1
    rw [Matrix.vecMul_sub, Matrix.vecMul_one]
    rfl
  · rw [Set.indicator_of_notMem hxS, Set.indicator_of_notMem (by rw [Set.mem_preimage, hx]; exact hxS),
      mul_zero]

/-! ### The likelihood -/

/-- the sum of the squared errors of column `j` -/
def colError (X : Matrix (Fin n) (Fin d) ℝ) (W : Mx d) (j : Fin d) : ℝ := ∑ a, (X a j - ∑ i, X a i * W i j) ^ 2

theorem residual_cols (X : Matrix (Fin n) (Fin d) ℝ) (W : Mx d) : Dagma.residual X W = ∑ j, colError X W j := by
  unfold Dagma.residual colError
  rw [Finset.sum_comm]
  exact Finset.sum_congr rfl (fun j _ => Finset.sum_congr rfl (fun a _ => by rw [Matrix.sub_apply, Matrix.mul_apply]))

theorem log_pdf (v : ℝ≥0) (hv : 0 < v) (r : ℝ) :
    Real.log (gaussianPDFReal 0 v r) = -(1 / 2 * Real.log (2 * Real.pi * v) + r ^ 2 / (2 * v)) := by
  have hv' : (0 : ℝ) < v := hv
  have h2 : (0 : ℝ) < 2 * Real.pi * v := by positivity
  unfold gaussianPDFReal
  rw [Real.log_mul (inv_ne_zero (Real.sqrt_ne_zero'.2 h2)) (Real.exp_ne_zero _), Real.log_inv, Real.log_exp,
    Real.log_sqrt h2.le, sub_zero]
  ring

theorem semDensity_pos (W : Mx d) (v : Fin d → ℝ≥0) (hW : (1 - W).det ≠ 0) (hv : ∀ j, 0 < v j) (x : Fin d → ℝ) :
    0 < semDensity W v x :=
  mul_pos (abs_pos.2 hW) (Finset.prod_pos (fun j _ => gaussianPDFReal_pos _ _ _ (hv j).ne'))

theorem semLikelihood_pos (X : Matrix (Fin n) (Fin d) ℝ) (W : Mx d) (v : Fin d → ℝ≥0) (hW : (1 - W).det ≠ 0) (hv : ∀ j, 0 < v j) :
    0 < semLikelihood X W v := Finset.prod_pos (fun a _ => semDensity_pos W v hW hv (X a))

theorem log_semLikelihood (X : Matrix (Fin n) (Fin d) ℝ) (W : Mx d) (v : Fin d → ℝ≥0) (hW : (1 - W).det ≠ 0) (hv : ∀ j, 0 < v j) :
    Real.log (semLikelihood X W v) =
      n * Real.log |(1 - W).det| - ∑ j, (n / 2 * Real.log (2 * Real.pi * v j) + colError X W j / (2 * v j)) := by
  unfold semLikelihood
  rw [Real.log_prod (fun a _ => (semDensity_pos W v hW hv (X a)).ne')]
  have h : ∀ a : Fin n, Real.log (semDensity W v (X a)) = Real.log |(1 - W).det| -
      ∑ j, (1 / 2 * Real.log (2 * Real.pi * v j) + (X a j - ∑ i, X a i * W i j) ^ 2 / (2 * v j)) := by
    intro a
    unfold semDensity
    rw [Real.log_mul (abs_pos.2 hW).ne' (Finset.prod_ne_zero_iff.2 (fun j _ => (gaussianPDFReal_pos _ _ _ (hv j).ne').ne')),
      Real.log_prod (fun j _ => (gaussianPDFReal_pos _ _ _ (hv j).ne').ne')]
    refine Eq.trans ?_ (sub_eq_add_neg (Real.log |(1 - W).det|) _).symm
    refine congrArg _ ?_
    refine Eq.trans ?_ (Finset.sum_neg_distrib _)
    exact Finset.sum_congr rfl (fun j _ => log_pdf (v j) (hv j) _)
  rw [Finset.sum_congr rfl (fun a _ => h a), Finset.sum_sub_distrib, Finset.sum_const, Finset.card_univ, Fintype.card_fin,
    nsmul_eq_mul, Finset.sum_comm]
  congr 1
  refine Finset.sum_congr rfl (fun j _ => ?_)
  rw [Finset.sum_add_distrib, Finset.sum_const, Finset.card_univ, Fintype.card_fin, nsmul_eq_mul]
  unfold colError
  rw [Finset.sum_div]
  ring

theorem profile_le (m S v : ℝ) (hm : 0 < m) (hS : 0 < S) (hv : 0 < v) :
    m / 2 * (Real.log (2 * Real.pi) + Real.log S - Real.log m + 1) ≤ m / 2 * Real.log (2 * Real.pi * v) + S / (2 * v) := by
  have h1 : Real.log (S / (m * v)) ≤ S / (m * v) - 1 := Real.log_le_sub_one_of_pos (by positivity)
  rw [Real.log_div hS.ne' (by positivity), Real.log_mul hm.ne' hv.ne'] at h1
  rw [Real.log_mul (by positivity) hv.ne']
  have h2 : S / (2 * v) = m / 2 * (S / (m * v)) := by field_simp
  rw [h2]
  nlinarith [mul_le_mul_of_nonneg_left h1 (by positivity : (0 : ℝ) ≤ m / 2)]

theorem profile_eq (m S : ℝ) (hm : 0 < m) (hS : 0 < S) :
    m / 2 * Real.log (2 * Real.pi * (S / m)) + S / (2 * (S / m)) =
      m / 2 * (Real.log (2 * Real.pi) + Real.log S - Real.log m + 1) := by
  rw [Real.log_mul (by positivity) (by positivity), Real.log_div hS.ne' hm.ne']
  have : S / (2 * (S / m)) = m / 2 := by field_simp
  rw [this]
  ring

/-- the constant that separates `_compute_likelihood` from the mean negative log-likelihood, equal variances -/
def evConst (n d : Nat) : ℝ := d / 2 * (Real.log (2 * Real.pi) - Real.log (n * d) + 1)

/-- the same for one variance per variable -/
def nvConst (n d : Nat) : ℝ := d / 2 * (Real.log (2 * Real.pi) - Real.log n + 1)

/-- C148. Equal variances: up to a constant, `_compute_likelihood` is the smallest value that the mean negative log-likelihood of the
linear Gaussian model takes over the common variance, and it is taken at the mean squared error. -/
theorem C148_profile_equal (X : Matrix (Fin n) (Fin d) ℝ) (W : Mx d) (hn : 0 < n) (hd : 0 < d) (hW : (1 - W).det ≠ 0)
    (hR : Dagma.residual X W ≠ 0) :
    (∀ v : ℝ≥0, 0 < v → likelihood true X W + evConst n d ≤ -(Real.log (semLikelihood X W (fun _ => v)) / n)) ∧
      ∃ v : ℝ≥0, 0 < v ∧ (v : ℝ) = Dagma.residual X W / (n * d) ∧
        likelihood true X W + evConst n d = -(Real.log (semLikelihood X W (fun _ => v)) / n) := by
  have hn' : (0 : ℝ) < n := Nat.cast_pos.2 hn
  have hd' : (0 : ℝ) < d := Nat.cast_pos.2 hd
  have hRp : 0 < Dagma.residual X W :=
    lt_of_le_of_ne (Finset.sum_nonneg (fun a _ => Finset.sum_nonneg (fun j _ => sq_nonneg _))) hR.symm
  have key : ∀ v : ℝ≥0, 0 < v → -(Real.log (semLikelihood X W (fun _ => v)) / n) =
      (1 / n) * (((n * d : ℝ) / 2) * Real.log (2 * Real.pi * v) + Dagma.residual X W / (2 * v)) - Real.log |(1 - W).det| := by
    intro v hv
    rw [log_semLikelihood X W _ hW (fun _ => hv), Finset.sum_add_distrib, Finset.sum_const, Finset.card_univ, Fintype.card_fin,
      nsmul_eq_mul, ← Finset.sum_div, ← residual_cols]
    field_simp
    ring
  have left : likelihood true X W + evConst n d = (1 / n) * ((n * d : ℝ) / 2 *
      (Real.log (2 * Real.pi) + Real.log (Dagma.residual X W) - Real.log (n * d) + 1)) - Real.log |(1 - W).det| := by
    unfold likelihood evConst
    rw [if_pos rfl]
    field_simp
    ring
  obtain ⟨v₀, hv₀⟩ : ∃ v : ℝ≥0, (v : ℝ) = Dagma.residual X W / (n * d) := ⟨⟨_, by positivity⟩, rfl⟩
  have hpos : 0 < v₀ := NNReal.coe_pos.1 (by rw [hv₀]; positivity)
  refine ⟨fun v hv => ?_, v₀, hpos, hv₀, ?_⟩
  · rw [key v hv, left]
    refine sub_le_sub_right (mul_le_mul_of_nonneg_left ?_ (by positivity)) _
    exact profile_le (n * d) _ v (by positivity) hRp hv
  · rw [key _ hpos, left, hv₀]
    congr 2
    exact (profile_eq (n * d) _ (by positivity) hRp).symm

/-- C148. The same for `equal_variances=False` of `Golem`: the smallest value over one variance for every variable, taken at the
mean squared error of each column. -/
theorem C148_profile (X : Matrix (Fin n) (Fin d) ℝ) (W : Mx d) (hn : 0 < n) (hW : (1 - W).det ≠ 0)
    (hR : ∀ j, colError X W j ≠ 0) :
    (∀ v : Fin d → ℝ≥0, (∀ j, 0 < v j) → likelihood false X W + nvConst n d ≤ -(Real.log (semLikelihood X W v) / n)) ∧
      ∃ v : Fin d → ℝ≥0, (∀ j, 0 < v j) ∧ (∀ j, (v j : ℝ) = colError X W j / n) ∧
        likelihood false X W + nvConst n d = -(Real.log (semLikelihood X W v) / n) := by
  have hn' : (0 : ℝ) < n := Nat.cast_pos.2 hn
  have hRp : ∀ j, 0 < colError X W j := fun j => lt_of_le_of_ne (Finset.sum_nonneg (fun a _ => sq_nonneg _)) (hR j).symm
  have key : ∀ v : Fin d → ℝ≥0, (∀ j, 0 < v j) → -(Real.log (semLikelihood X W v) / n) =
      (1 / n) * (∑ j, ((n / 2 : ℝ) * Real.log (2 * Real.pi * v j) + colError X W j / (2 * v j))) - Real.log |(1 - W).det| := by
    intro v hv
    rw [log_semLikelihood X W _ hW hv]
    field_simp
    ring
  have left : likelihood false X W + nvConst n d = (1 / n) * (∑ j, ((n / 2 : ℝ) *
      (Real.log (2 * Real.pi) + Real.log (colError X W j) - Real.log n + 1))) - Real.log |(1 - W).det| := by
    unfold likelihood nvConst
    rw [if_neg (by decide), ← Finset.mul_sum, Finset.sum_add_distrib, Finset.sum_sub_distrib, Finset.sum_add_distrib]
    simp only [Finset.sum_const, Finset.card_univ, Fintype.card_fin, nsmul_eq_mul]
    have : ∀ j, (∑ a, (X - X * W) a j ^ 2) = colError X W j := fun j =>
      Finset.sum_congr rfl (fun a _ => by rw [Matrix.sub_apply, Matrix.mul_apply])
    simp only [this]
    field_simp
    ring
  obtain ⟨v₀, hv₀⟩ : ∃ v : Fin d → ℝ≥0, ∀ j, (v j : ℝ) = colError X W j / n :=
    ⟨fun j => ⟨colError X W j / n, by have := hRp j; positivity⟩, fun j => rfl⟩
  have hpos : ∀ j, 0 < v₀ j := fun j => NNReal.coe_pos.1 (by rw [hv₀]; have := hRp j; positivity)
  refine ⟨fun v hv => ?_, v₀, hpos, hv₀, ?_⟩
  · rw [key v hv, left]
    refine sub_le_sub_right (mul_le_mul_of_nonneg_left ?_ (by positivity)) _
    exact Finset.sum_le_sum (fun j _ => profile_le n _ (v j) hn' (hRp j) (hv j))
  · rw [key _ hpos, left]
    congr 2
    exact Finset.sum_congr rfl (fun j _ => by rw [hv₀]; exact (profile_eq n _ hn' (hRp j)).symm)

theorem le_of_neg_log {a b : ℝ} {n : Nat} (hn : 0 < n) (ha : 0 < a) (hb : 0 < b) :
    -(Real.log a / n) ≤ -(Real.log b / n) ↔ b ≤ a := by
  have hn' : (0 : ℝ) < n := Nat.cast_pos.2 hn
  rw [neg_le_neg_iff, div_le_div_iff_of_pos_right hn', Real.log_le_log_iff hb ha]

/-- C148. Among any set of candidate weights the minimisers of the likelihood term of `Golem` (equal variances, as `GolemDiscovery`
uses it) are exactly the maximum likelihood estimates of the linear Gaussian model. -/
theorem C148_maximum_likelihood (X : Matrix (Fin n) (Fin d) ℝ) (hn : 0 < n) (hd : 0 < d) (P : Mx d → Prop)
    (hP : ∀ U, P U → (1 - U).det ≠ 0 ∧ Dagma.residual X U ≠ 0) (W : Mx d) (hW : P W) :
    (∀ U, P U → likelihood true X W ≤ likelihood true X U) ↔
      ∃ v : ℝ≥0, 0 < v ∧ ∀ U, P U → ∀ u : ℝ≥0, 0 < u → semLikelihood X U (fun _ => u) ≤ semLikelihood X W (fun _ => v) := by
  obtain ⟨hb, v₀, hv₀, -, he⟩ := C148_profile_equal X W hn hd (hP W hW).1 (hP W hW).2
  constructor
  · intro h
    refine ⟨v₀, hv₀, fun U hU u hu => ?_⟩
    obtain ⟨hbU, -⟩ := C148_profile_equal X U hn hd (hP U hU).1 (hP U hU).2
    rw [← le_of_neg_log hn (semLikelihood_pos X W _ (hP W hW).1 (fun _ => hv₀)) (semLikelihood_pos X U _ (hP U hU).1 (fun _ => hu)),
      ← he]
    exact le_trans (add_le_add_left (h U hU) _) (hbU u hu)
  · rintro ⟨v, hv, h⟩ U hU
    obtain ⟨-, u, hu, -, heU⟩ := C148_profile_equal X U hn hd (hP U hU).1 (hP U hU).2
    have := h U hU u hu
    rw [← le_of_neg_log hn (semLikelihood_pos X W _ (hP W hW).1 (fun _ => hv)) (semLikelihood_pos X U _ (hP U hU).1 (fun _ => hu)),
      ← heU] at this
    have := le_trans (hb v hv) this
    linarith

/-- C148. The same with one variance per variable. -/
theorem C148_maximum_likelihood_each (X : Matrix (Fin n) (Fin d) ℝ) (hn : 0 < n) (P : Mx d → Prop)
    (hP : ∀ U, P U → (1 - U).det ≠ 0 ∧ ∀ j, colError X U j ≠ 0) (W : Mx d) (hW : P W) :
    (∀ U, P U → likelihood false X W ≤ likelihood false X U) ↔
      ∃ v : Fin d → ℝ≥0, (∀ j, 0 < v j) ∧
        ∀ U, P U → ∀ u : Fin d → ℝ≥0, (∀ j, 0 < u j) → semLikelihood X U u ≤ semLikelihood X W v := by
  obtain ⟨hb, v₀, hv₀, -, he⟩ := C148_profile X W hn (hP W hW).1 (hP W hW).2
  constructor
  · intro h
    refine ⟨v₀, hv₀, fun U hU u hu => ?_⟩
    obtain ⟨hbU, -⟩ := C148_profile X U hn (hP U hU).1 (hP U hU).2
    rw [← le_of_neg_log hn (semLikelihood_pos X W _ (hP W hW).1 hv₀) (semLikelihood_pos X U _ (hP U hU).1 hu), ← he]
    exact le_trans (add_le_add_left (h U hU) _) (hbU u hu)
  · rintro ⟨v, hv, h⟩ U hU
    obtain ⟨-, u, hu, -, heU⟩ := C148_profile X U hn (hP U hU).1 (hP U hU).2
    have := h U hU u hu
    rw [← le_of_neg_log hn (semLikelihood_pos X W _ (hP W hW).1 hv) (semLikelihood_pos X U _ (hP U hU).1 hu), ← heU] at this
    have := le_trans (hb v hv) this
    linarith

/-! ### Self loops -/

/-- C148. The likelihood does not see self loops: scaling the columns of `1 - W` (which puts `1 - c j` times the old values into the
diagonal) leaves the value for one variance per variable unchanged, and a common scale leaves the value for equal variances
unchanged. -/
theorem C148_self_loops (X : Matrix (Fin n) (Fin d) ℝ) (W : Mx d) (hn : 0 < n) (hW : (1 - W).det ≠ 0) (c : Fin d → ℝ) (hc : ∀ j, c j ≠ 0)
    (hR : ∀ j, colError X W j ≠ 0) (b : ℝ) (hb : b ≠ 0) (hR' : Dagma.residual X W ≠ 0) :
    likelihood false X (1 - (1 - W) * Matrix.diagonal c) = likelihood false X W ∧
      likelihood true X (1 - b • (1 - W)) = likelihood true X W := by
  have e1 : ∀ V : Mx d, X - X * (1 - V) = X * V := fun V => by rw [Matrix.mul_sub, Matrix.mul_one]; abel
  have hcol : ∀ j, (∑ a, (X - X * W) a j ^ 2) = colError X W j := fun j =>
      Finset.sum_congr rfl (fun a _ => by rw [Matrix.sub_apply, Matrix.mul_apply])
  have hXW : X * (1 - W) = X - X * W := by rw [Matrix.mul_sub, Matrix.mul_one]
  constructor
  · unfold likelihood
    rw [if_neg (by decide), if_neg (by decide), sub_sub_cancel, Matrix.det_mul, Matrix.det_diagonal, abs_mul,
      Real.log_mul (abs_pos.2 hW).ne' (abs_pos.2 (Finset.prod_ne_zero_iff.2 (fun j _ => hc j))).ne', Finset.abs_prod,
      Real.log_prod (fun j _ => (abs_pos.2 (hc j)).ne')]
    have h : ∀ j, Real.log (∑ a, (X - X * (1 - (1 - W) * (Matrix.diagonal c : Mx d)) : Matrix (Fin n) (Fin d) ℝ) a j ^ 2) =
        Real.log (∑ a, (X - X * W) a j ^ 2) + 2 * Real.log |c j| := by
      intro j
      rw [e1, ← Matrix.mul_assoc, hXW]
      have : ∀ a, ((X - X * W) * Matrix.diagonal c) a j ^ 2 = (X - X * W) a j ^ 2 * |c j| ^ 2 := by
        intro a
        rw [Matrix.mul_diagonal, mul_pow, sq_abs]
      rw [Finset.sum_congr rfl (fun a _ => this a), ← Finset.sum_mul,
        Real.log_mul (by rw [hcol]; exact hR j) (pow_ne_zero _ (abs_pos.2 (hc j)).ne'), Real.log_pow]
      norm_num
    rw [Finset.sum_congr rfl (fun j _ => h j), Finset.sum_add_distrib, ← Finset.mul_sum]
    ring
  · unfold likelihood
    rw [if_pos rfl, if_pos rfl, sub_sub_cancel, Matrix.det_smul, Fintype.card_fin, abs_mul, abs_pow,
      Real.log_mul (pow_ne_zero _ (abs_pos.2 hb).ne') (abs_pos.2 hW).ne', Real.log_pow]
    have h : Dagma.residual X (1 - b • (1 - W)) = |b| ^ 2 * Dagma.residual X W := by
      unfold Dagma.residual
      rw [e1, Finset.mul_sum]
      refine Finset.sum_congr rfl (fun a _ => ?_)
      rw [Finset.mul_sum]
      refine Finset.sum_congr rfl (fun j _ => ?_)
      rw [Matrix.mul_smul, hXW, Matrix.smul_apply, smul_eq_mul, mul_pow, sq_abs]
    rw [h, Real.log_mul (pow_ne_zero _ (abs_pos.2 hb).ne') hR', Real.log_pow]
    push_cast
    ring

/-! ### What the minimum is -/

theorem trace_gt_log_det (G : Mx d) (hG : G.PosDef) : Real.log G.det ≤ G.trace - d ∧
    (Real.log G.det = G.trace - d → G = 1) := by
  have hh := hG.isHermitian
  have hpos : ∀ i, 0 < hh.eigenvalues i := hG.eigenvalues_pos
  have hdet : G.det = ∏ i, hh.eigenvalues i := by
    rw [hh.det_eq_prod_eigenvalues]; rfl
  have htr : G.trace = ∑ i, hh.eigenvalues i := by
    rw [hh.trace_eq_sum_eigenvalues]; rfl
  have hlog : Real.log G.det = ∑ i, Real.log (hh.eigenvalues i) := by
    rw [hdet, Real.log_prod (fun i _ => (hpos i).ne')]
  have hsum : G.trace - d = ∑ i, (hh.eigenvalues i - 1) := by
    rw [htr, Finset.sum_sub_distrib]
    simp
  refine ⟨?_, fun he => ?_⟩
  · rw [hlog, hsum]
    exact Finset.sum_le_sum (fun i _ => Real.log_le_sub_one_of_pos (hpos i))
  · rw [hlog, hsum] at he
    have heach : ∀ i, Real.log (hh.eigenvalues i) = hh.eigenvalues i - 1 := fun i =>
      (Finset.sum_eq_sum_iff_of_le (fun i _ => Real.log_le_sub_one_of_pos (hpos i))).1 he i (Finset.mem_univ i)
    have hone : ∀ i, hh.eigenvalues i = 1 := by
      intro i
      by_contra hne
      exact absurd (heach i) (Real.log_lt_sub_one_of_pos (hpos i) hne).ne
    rw [hh.spectral_theorem]
    have : (Matrix.diagonal (RCLike.ofReal ∘ hh.eigenvalues) : Mx d) = 1 := by
      rw [← Matrix.diagonal_one]
      congr 1
      funext i
      simp [hone i]
    rw [this]
    simp

/-- C148 (lemma). Two acyclic matrices of weights with the same `(1 - W)(1 - W)ᵀ` are equal. -/
theorem acyclic_unique (W B : Mx d) (hW : Acyclic (MatEdge (fun i j => W i j))) (hB : Acyclic (MatEdge (fun i j => B i j)))
    (h : (1 - W) * (1 - W).transpose = (1 - B) * (1 - B).transpose) : W = B := by
  classical
  have hdiag : ∀ V : Mx d, Acyclic (MatEdge (fun i j => V i j)) → ∀ i, V i i = 0 := fun V hV i => by
    by_contra hne
    exact hV i (.single hne)
  by_contra hne
  let C : Finset (Fin d) := Finset.univ.filter (fun k => ∃ i, W i k ≠ B i k)
  have hCne : C.Nonempty := by
    by_contra hempty
    rw [Finset.not_nonempty_iff_eq_empty] at hempty
    refine hne (Matrix.ext (fun i k => ?_))
    by_contra hik
    have : k ∈ C := Finset.mem_filter.2 ⟨Finset.mem_univ _, i, hik⟩
    rw [hempty] at this
    exact absurd this (Finset.notMem_empty _)
  -- a column of `C` that has no edge into `C`
  obtain ⟨i, hiC, hi⟩ : ∃ i ∈ C, ∀ k ∈ C, W i k = 0 := by
    obtain ⟨r, hr⟩ := exists_rank hW
    obtain ⟨i, hiC, hmax⟩ := C.exists_max_image r hCne
    refine ⟨i, hiC, fun k hk => ?_⟩
    by_contra hik
    exact absurd (hmax k hk) (not_le.2 (hr i k hik))
  have hrest : ∀ a b, ∑ k ∈ C, (1 - W) a k * (1 - W) b k = ∑ k ∈ C, (1 - B) a k * (1 - B) b k := by
    intro a b
    have hab := congrFun (congrFun h a) b
    rw [Matrix.mul_apply, Matrix.mul_apply] at hab
    simp only [Matrix.transpose_apply] at hab
    rw [← Finset.sum_add_sum_compl C, ← Finset.sum_add_sum_compl C (fun k => (1 - B) a k * (1 - B) b k)] at hab
    have hsame : ∑ k ∈ Cᶜ, (1 - W) a k * (1 - W) b k = ∑ k ∈ Cᶜ, (1 - B) a k * (1 - B) b k := by
      refine Finset.sum_congr rfl (fun k hk => ?_)
      have hk' : ∀ i, W i k = B i k := by
        intro i
        by_contra hik
        exact (Finset.mem_compl.1 hk) (Finset.mem_filter.2 ⟨Finset.mem_univ _, i, hik⟩)
      simp only [Matrix.sub_apply, hk']
    rw [hsame] at hab
    exact add_right_cancel hab
  have hAi : ∀ k ∈ C, (1 - W) i k = (1 : Mx d) i k := fun k hk => by rw [Matrix.sub_apply, hi k hk, sub_zero]
  have hii := hrest i i
  have hWii : ∑ k ∈ C, (1 - W) i k * (1 - W) i k = 1 := by
    rw [Finset.sum_eq_single_of_mem i hiC (fun k hk hki => by rw [hAi k hk, Matrix.one_apply_ne (Ne.symm hki), zero_mul]),
      hAi i hiC, Matrix.one_apply_eq, one_mul]
  rw [hWii, ← Finset.add_sum_erase C _ hiC, Matrix.sub_apply, Matrix.one_apply_eq, hdiag B hB i, sub_zero, one_mul] at hii
  have hz : ∑ k ∈ C.erase i, (1 - B) i k * (1 - B) i k = 0 := by linarith
  have hBi : ∀ k ∈ C, (1 - B) i k = (1 : Mx d) i k := by
    intro k hk
    by_cases hki : k = i
    · subst hki
      rw [Matrix.sub_apply, hdiag B hB k, sub_zero]
    · have := (Finset.sum_eq_zero_iff_of_nonneg (fun k _ => mul_self_nonneg _)).1 hz k (Finset.mem_erase.2 ⟨hki, hk⟩)
      rw [mul_self_eq_zero.1 this, Matrix.one_apply_ne (Ne.symm hki)]
  obtain ⟨-, j, hj⟩ := Finset.mem_filter.1 hiC
  refine hj ?_
  have hji := hrest j i
  rw [Finset.sum_eq_single_of_mem i hiC (fun k hk hki => by rw [hAi k hk, Matrix.one_apply_ne (Ne.symm hki), mul_zero]),
    Finset.sum_eq_single_of_mem i hiC (fun k hk hki => by rw [hBi k hk, Matrix.one_apply_ne (Ne.symm hki), mul_zero]),
    hAi i hiC, hBi i hiC, Matrix.one_apply_eq, mul_one, mul_one, Matrix.sub_apply, Matrix.sub_apply] at hji
  linarith

/-- C148. The likelihood finds the truth for equal variances: if the data come from weights `B` without a cycle, the noise terms being
uncorrelated and of the same variance in the sample, no weights have a smaller value than `B`, and every other acyclic
matrix of weights has a larger one. -/
theorem C148_truth (X : Matrix (Fin n) (Fin d) ℝ) (B : Mx d) (s : ℝ) (hs : 0 < s) (hB : Acyclic (MatEdge (fun i j => B i j)))
    (hE : (X - X * B).transpose * (X - X * B) = s • (1 : Mx d)) (W : Mx d) (hW : (1 - W).det ≠ 0) :
    likelihood true X B ≤ likelihood true X W ∧
      (Acyclic (MatEdge (fun i j => W i j)) → W ≠ B → likelihood true X B < likelihood true X W) := by
  have hBdet : (1 - B).det = 1 := by
    have := MMat.det_acyclic 1 B hB
    rwa [one_smul, one_pow] at this
  have hu : IsUnit (1 - B).det := by rw [hBdet]; exact isUnit_one
  -- the errors under W are the noise times M
  let M : Mx d := (1 - B)⁻¹ * (1 - W)
  have hres : ∀ V : Mx d, Dagma.residual X V = ((X - X * V).transpose * (X - X * V)).trace := by
    intro V
    unfold Dagma.residual Matrix.trace
    rw [Finset.sum_comm]
    refine Finset.sum_congr rfl (fun j _ => ?_)
    rw [Matrix.diag_apply, Matrix.mul_apply]
    exact Finset.sum_congr rfl (fun a _ => by rw [Matrix.transpose_apply, sq])
  have hXW : X - X * W = (X - X * B) * M := by
    have e1 : X - X * B = X * (1 - B) := by rw [Matrix.mul_sub, Matrix.mul_one]
    have e2 : X - X * W = X * (1 - W) := by rw [Matrix.mul_sub, Matrix.mul_one]
    rw [e1, e2, Matrix.mul_assoc, ← Matrix.mul_assoc (1 - B), Matrix.mul_nonsing_inv _ hu, Matrix.one_mul]
  have hMdet : M.det = (1 - W).det := by
    rw [Matrix.det_mul, Matrix.det_nonsing_inv, hBdet, Ring.inverse_one, one_mul]
  have hRW : Dagma.residual X W = s * (M.transpose * M).trace := by
    rw [hres, hXW, Matrix.transpose_mul, Matrix.mul_assoc, ← Matrix.mul_assoc (X - X * B).transpose, hE, Matrix.smul_mul,
      Matrix.one_mul, Matrix.mul_smul, Matrix.trace_smul, smul_eq_mul]
  have hRB : Dagma.residual X B = s * d := by
    rw [hres, hE, Matrix.trace_smul, Matrix.trace_one, Fintype.card_fin, smul_eq_mul]
  rcases Nat.eq_zero_or_pos d with h0 | hd
  · subst h0
    have : W = B := Subsingleton.elim _ _
    exact ⟨by rw [this], fun _ hne => absurd this hne⟩
  have hd' : (0 : ℝ) < d := Nat.cast_pos.2 hd
  have hGdet : (M.transpose * M).det = (1 - W).det ^ 2 := by rw [Matrix.det_mul, Matrix.det_transpose, hMdet, sq]
  have hG : (M.transpose * M).PosDef := by
    have : (M.conjTranspose * M).PosDef := Matrix.PosDef.conjTranspose_mul_self M (by
      refine Matrix.mulVec_injective_of_isUnit ?_
      rw [Matrix.isUnit_iff_isUnit_det, hMdet]
      exact isUnit_iff_ne_zero.2 hW)
    rwa [Matrix.conjTranspose_eq_transpose_of_trivial] at this
  have htr : 0 < (M.transpose * M).trace := by
    haveI : Nonempty (Fin d) := ⟨⟨0, hd⟩⟩
    exact hG.trace_pos
  -- scale the Gram matrix to trace `d`
  let c : ℝ := d / (M.transpose * M).trace
  have hc : 0 < c := div_pos hd' htr
  have hcG : (c • (M.transpose * M)).PosDef := hG.smul hc
  obtain ⟨hle, heq⟩ := trace_gt_log_det _ hcG
  have hctr : (c • (M.transpose * M)).trace = d := by
    rw [Matrix.trace_smul, smul_eq_mul]
    exact div_mul_cancel₀ _ htr.ne'
  have hcdet : Real.log (c • (M.transpose * M)).det = d * Real.log c + 2 * Real.log |(1 - W).det| := by
    rw [Matrix.det_smul, Fintype.card_fin, hGdet, Real.log_mul (pow_ne_zero _ hc.ne') (pow_ne_zero _ hW), Real.log_pow,
      Real.log_pow, Real.log_abs]
    norm_num
  have hlogc : Real.log c = Real.log d - Real.log (M.transpose * M).trace := Real.log_div hd'.ne' htr.ne'
  rw [hctr, sub_self] at hle heq
  have hlW : likelihood true X W = 0.5 * d * (Real.log s + Real.log (M.transpose * M).trace) - Real.log |(1 - W).det| := by
    unfold likelihood
    rw [if_pos rfl, hRW, Real.log_mul hs.ne' htr.ne']
  have hlB : likelihood true X B = 0.5 * d * (Real.log s + Real.log d) := by
    unfold likelihood
    rw [if_pos rfl, hRB, Real.log_mul hs.ne' hd'.ne', hBdet, abs_one, Real.log_one, sub_zero]
  have hdiff : likelihood true X W - likelihood true X B = -0.5 * Real.log (c • (M.transpose * M)).det := by
    rw [hlW, hlB, hcdet, hlogc]
    ring
  refine ⟨by linarith, fun hac hne => ?_⟩
  refine lt_of_le_of_ne (by linarith) (fun he => hne ?_)
  have hone := heq (by linarith)
  have hWdet : (1 - W).det = 1 := by
    have := MMat.det_acyclic 1 W hac
    rwa [one_smul, one_pow] at this
  -- c ^ d = 1, so c = 1
  have hc1 : c = 1 := by
    have : Real.log c = 0 := by
      have h2 := hcdet
      rw [hone, Matrix.det_one, Real.log_one, hWdet, abs_one, Real.log_one, mul_zero, add_zero] at h2
      rcases mul_eq_zero.1 h2.symm with h3 | h3
      · exact absurd h3 hd'.ne'
      · exact h3
    exact Real.eq_one_of_pos_of_log_eq_zero hc this
  rw [hc1, one_smul] at hone
  have hMM : M * M.transpose = 1 := mul_eq_one_comm.1 hone
  refine acyclic_unique W B hac hB ?_
  have e3 : (1 - W) = (1 - B) * M := by
    rw [← Matrix.mul_assoc, Matrix.mul_nonsing_inv _ hu, Matrix.one_mul]
  rw [e3, Matrix.transpose_mul, Matrix.mul_assoc, ← Matrix.mul_assoc M, hMM, Matrix.one_mul]

/-! ### Examples -/

/-- a sample of `x → y` with weight one and uncorrelated noise of the same variance -/
def chainData : Matrix (Fin 4) (Fin 2) ℝ := Matrix.of ![![1, 2], ![1, 0], ![-1, 0], ![-1, -2]]

/-- the weight `w` from the first to the second variable -/
def forward (w : ℝ) : Mx 2 := Matrix.of ![![0, w], ![0, 0]]

/-- the weight `w` from the second to the first variable -/
def backward (w : ℝ) : Mx 2 := Matrix.of ![![0, 0], ![w, 0]]

theorem forward_acyclic (w : ℝ) : Acyclic (MatEdge (fun i j => forward w i j)) := by
  refine acyclic_of_rank (fun i : Fin 2 => (i : Nat)) (fun i j hij => ?_)
  fin_cases i <;> fin_cases j <;> simp [MatEdge, forward] at hij ⊢

theorem backward_acyclic (w : ℝ) : Acyclic (MatEdge (fun i j => backward w i j)) := by
  refine acyclic_of_rank (fun i : Fin 2 => 1 - (i : Nat)) (fun i j hij => ?_)
  fin_cases i <;> fin_cases j <;> simp [MatEdge, backward] at hij ⊢

/-- non-vacuity of `C148_truth` -/
theorem chain_noise : (chainData - chainData * forward 1).transpose * (chainData - chainData * forward 1) = (4 : ℝ) • (1 : Mx 2) := by
  ext i j
  fin_cases i <;> fin_cases j <;>
    simp [chainData, forward, Matrix.mul_apply, Fin.sum_univ_four, Fin.sum_univ_two] <;> norm_num

example (w : ℝ) : likelihood true chainData (forward 1) < likelihood true chainData (backward w) := by
  refine (C148_truth chainData (forward 1) 4 (by norm_num) (forward_acyclic 1) chain_noise (backward w) ?_).2 (backward_acyclic w) ?_
  · have := MMat.det_acyclic 1 (backward w) (backward_acyclic w)
    rw [one_smul, one_pow] at this
    rw [this]
    exact one_ne_zero
  · intro h
    have := congrFun (congrFun h 0) 1
    simp [forward, backward] at this

theorem score_two (X : Matrix (Fin n) (Fin 2) ℝ) (W : Mx 2) (la lb : ℝ) (h : Acyclic (MatEdge (fun i j => W i j))) :
    golemScore true la lb X W = Real.log (∑ a, ∑ j, (X a j - ∑ i, X a i * W i j) ^ 2) + la * l1 W := by
  unfold golemScore
  rw [(C131_golem X W h).1, (C107_penalty_golem _).2.2 h]
  norm_num

/-- the data after the default scaling -/
def chainScaled : Matrix (Fin 4) (Fin 2) ℝ := Matrix.of ![![1, 1], ![1, 1 / 2], ![0, 1 / 2], ![0, 0]]

theorem chain_minmax : IsMinMax chainData chainScaled := by
  intro j
  fin_cases j
  · refine ⟨-1, 1, ⟨2, rfl⟩, ⟨0, rfl⟩, fun a => ?_, fun h => absurd h (by norm_num), fun _ a => ?_⟩ <;>
      fin_cases a <;> simp [chainData, chainScaled] <;> norm_num
  · refine ⟨-2, 2, ⟨3, rfl⟩, ⟨0, rfl⟩, fun a => ?_, fun h => absurd h (by norm_num), fun _ a => ?_⟩ <;>
      fin_cases a <;> simp [chainData, chainScaled] <;> norm_num

/-- C148, the default scaling turns the edge round: for data of `x → y` with equal variances, after the `MinMaxScaler` that
`GolemDiscovery` applies by default, the weight one from `y` to `x` has a smaller score (with the default penalties) than every
weight from `x` to `y`. -/
theorem C148_scaling_refuted :
    (∀ w, w ≠ 1 → likelihood true chainData (forward 1) < likelihood true chainData (forward w)) ∧
      (∀ w, likelihood true chainData (forward 1) < likelihood true chainData (backward w)) ∧
      IsMinMax chainData chainScaled ∧
      ∀ w, golemScore true 0.01 0.01 chainScaled (backward 1) < golemScore true 0.01 0.01 chainScaled (forward w) := by
  have hdet : ∀ V : Mx 2, Acyclic (MatEdge (fun i j => V i j)) → (1 - V).det ≠ 0 := fun V hV => by
    have := MMat.det_acyclic 1 V hV
    rw [one_smul, one_pow] at this
    rw [this]
    exact one_ne_zero
  refine ⟨fun w hw => ?_, fun w => ?_, chain_minmax, fun w => ?_⟩
  · refine (C148_truth chainData (forward 1) 4 (by norm_num) (forward_acyclic 1) chain_noise (forward w)
      (hdet _ (forward_acyclic w))).2 (forward_acyclic w) (fun h => hw ?_)
    have := congrFun (congrFun h 0) 1
    simpa [forward] using this
  · refine (C148_truth chainData (forward 1) 4 (by norm_num) (forward_acyclic 1) chain_noise (backward w)
      (hdet _ (backward_acyclic w))).2 (backward_acyclic w) (fun h => ?_)
    have := congrFun (congrFun h 0) 1
    simp [forward, backward] at this
  · rw [score_two _ _ _ _ (backward_acyclic 1), score_two _ _ _ _ (forward_acyclic w)]
    have e1 : (∑ a, ∑ j, (chainScaled a j - ∑ i, chainScaled a i * backward 1 i j) ^ 2) = 2 := by
      simp [chainScaled, backward, Fin.sum_univ_four, Fin.sum_univ_two]
      norm_num
    have e2 : (∑ a, ∑ j, (chainScaled a j - ∑ i, chainScaled a i * forward w i j) ^ 2) = 2 * (w - 3 / 4) ^ 2 + 19 / 8 := by
      simp [chainScaled, forward, Fin.sum_univ_four, Fin.sum_univ_two]
      ring
    have e3 : l1 (backward 1) = 1 := by simp [l1, backward, Fin.sum_univ_two]
    have e4 : 0 ≤ l1 (forward w) := Finset.sum_nonneg (fun i _ => Finset.sum_nonneg (fun j _ => abs_nonneg _))
    rw [e1, e2, e3]
    have h1 : Real.log (19 / 8) ≤ Real.log (2 * (w - 3 / 4) ^ 2 + 19 / 8) :=
      Real.log_le_log (by norm_num) (by nlinarith [sq_nonneg (w - 3 / 4)])
    have h2 : Real.log (19 / 8) = Real.log 2 + Real.log (19 / 16) := by
      rw [← Real.log_mul (by norm_num) (by norm_num)]
      norm_num
    have h3 : 1 - (19 / 16 : ℝ)⁻¹ ≤ Real.log (19 / 16) := Real.one_sub_inv_le_log_of_pos (by norm_num)
    norm_num at h3 ⊢
    linarith

/-- two independent fair coins -/
def coinData : Matrix (Fin 4) (Fin 2) ℝ := Matrix.of ![![0, 0], ![0, 1], ![1, 0], ![1, 1]]

/-- C148, independent variables get an edge: the data are not centred (the default scaling maps them onto [0, 1]), so for two
independent coins the weight 1/2 has a smaller score than no edge. It is above the default threshold 0.3. -/
theorem C148_uncentred_refuted :
    IsMinMax coinData coinData ∧
      golemScore true 0.01 0.01 coinData (forward (1 / 2)) < golemScore true 0.01 0.01 coinData (forward 0) := by
  constructor
  · intro j
    fin_cases j
    · refine ⟨0, 1, ⟨0, rfl⟩, ⟨2, rfl⟩, fun a => ?_, fun h => absurd h (by norm_num), fun _ a => ?_⟩ <;>
        fin_cases a <;> simp [coinData]
    · refine ⟨0, 1, ⟨0, rfl⟩, ⟨1, rfl⟩, fun a => ?_, fun h => absurd h (by norm_num), fun _ a => ?_⟩ <;>
        fin_cases a <;> simp [coinData]
  · rw [score_two _ _ _ _ (forward_acyclic _), score_two _ _ _ _ (forward_acyclic 0)]
    have e1 : (∑ a, ∑ j, (coinData a j - ∑ i, coinData a i * forward (1 / 2) i j) ^ 2) = 7 / 2 := by
      simp [coinData, forward, Fin.sum_univ_four, Fin.sum_univ_two]
      norm_num
    have e2 : (∑ a, ∑ j, (coinData a j - ∑ i, coinData a i * forward 0 i j) ^ 2) = 4 := by
      simp [coinData, forward, Fin.sum_univ_four, Fin.sum_univ_two]
      norm_num
    have e3 : l1 (forward (1 / 2)) = 1 / 2 := by simp [l1, forward, Fin.sum_univ_two]
    have e4 : l1 (forward 0) = 0 := by simp [l1, forward, Fin.sum_univ_two]
    rw [e1, e2, e3, e4]
    have h2 : Real.log 4 = Real.log (7 / 2) + Real.log (8 / 7) := by
      rw [← Real.log_mul (by norm_num) (by norm_num)]
      norm_num
    have h3 : 1 - (8 / 7 : ℝ)⁻¹ ≤ Real.log (8 / 7) := Real.one_sub_inv_le_log_of_pos (by norm_num)
    norm_num at h3 ⊢
    linarith

/-! ### The training -/

section training
variable {ι : Type}

/-- the first step of a new optimiser -/
theorem golem_update_fresh (lr : ℝ) (grad : (ι → ℝ) → ι → ℝ) (w : ι → ℝ) (i : ι) :
    update lr grad fresh w i = w i - lr * (grad w i / (|grad w i| + 1e-8)) := by
  unfold update adamStep fresh
  dsimp only
  have e1 : Real.sqrt (0.999 * 0 + (1 - 0.999) * grad w i ^ 2) = Real.sqrt (1 - 0.999) * |grad w i| := by
    rw [mul_zero, zero_add, Real.sqrt_mul (by norm_num), Real.sqrt_sq_eq_abs]
  have h3 : Real.sqrt (1 - 0.999) ≠ 0 := Real.sqrt_ne_zero'.2 (by norm_num)
  have e2 : Real.sqrt (0.999 * 0 + (1 - 0.999) * grad w i ^ 2) / Real.sqrt (1 - 0.999 ^ (0 + 1)) = |grad w i| := by
    rw [e1, zero_add, pow_one, mul_div_cancel_left₀ _ h3]
  rw [e2]
  have hden : |grad w i| + 1e-8 ≠ 0 := by positivity
  field_simp
  norm_num
  try ring

/-- C148. An epoch moves every weight by less than the learning rate (the optimiser is made anew in every epoch), and by almost the
learning rate wherever the derivative is at least 1e-6, however close the minimum is. -/
theorem C148_epoch (lr : ℝ) (hlr : 0 < lr) (grad : (ι → ℝ) → ι → ℝ) (w : ι → ℝ) (i : ι) :
    |train lr grad 1 w i - w i| < lr ∧ (1e-6 ≤ |grad w i| → 0.99 * lr ≤ |train lr grad 1 w i - w i|) := by
  show |update lr grad fresh w i - w i| < lr ∧ (_ → _ ≤ |update lr grad fresh w i - w i|)
  rw [golem_update_fresh]
  have hpos : 0 < |grad w i| + 1e-8 := by positivity
  have e : |w i - lr * (grad w i / (|grad w i| + 1e-8)) - w i| = lr * (|grad w i| / (|grad w i| + 1e-8)) := by
    rw [show w i - lr * (grad w i / (|grad w i| + 1e-8)) - w i = -(lr * (grad w i / (|grad w i| + 1e-8))) by ring, abs_neg, abs_mul,
      abs_of_pos hlr, abs_div, abs_of_pos hpos]
  rw [e]
  constructor
  · have h1 : |grad w i| / (|grad w i| + 1e-8) < 1 := by
      rw [div_lt_one hpos]
      linarith [show (0 : ℝ) < 1e-8 by norm_num]
    nlinarith
  · intro h
    have h1 : 0.99 ≤ |grad w i| / (|grad w i| + 1e-8) := by
      rw [le_div_iff₀ hpos]
      norm_num at h ⊢
      linarith
    nlinarith

theorem train_near (lr : ℝ) (hlr : 0 < lr) (grad : (ι → ℝ) → ι → ℝ) (i : ι) :
    ∀ (k : Nat) (w : ι → ℝ), |train lr grad k w i - w i| ≤ k * lr ∧ (0 < k → |train lr grad k w i - w i| < k * lr) := by
  intro k
  induction k with
  | zero =>
    intro w
    refine ⟨?_, fun h => absurd h (lt_irrefl 0)⟩
    show |w i - w i| ≤ _
    simp
  | succ k ih =>
    intro w
    have h1 : |update lr grad fresh w i - w i| < lr := (C148_epoch lr hlr grad w i).1
    have h2 := (ih (update lr grad fresh w)).1
    have : |train lr grad (k + 1) w i - w i| < ((k + 1 : Nat) : ℝ) * lr := by
      show |train lr grad k (update lr grad fresh w) i - w i| < _
      calc |train lr grad k (update lr grad fresh w) i - w i| ≤
          |train lr grad k (update lr grad fresh w) i - update lr grad fresh w i| + |update lr grad fresh w i - w i| :=
            abs_sub_le _ _ _
        _ < k * lr + lr := by linarith
        _ = ((k + 1 : Nat) : ℝ) * lr := by push_cast; ring
    exact ⟨this.le, fun _ => this⟩

/-- C148. `epoch` epochs move a weight by at most `epoch * lr`, whatever the data. -/
theorem C148_reach (lr : ℝ) (hlr : 0 < lr) (grad : (ι → ℝ) → ι → ℝ) (k : Nat) (w : ι → ℝ) (i : ι) :
    |train lr grad k w i - w i| ≤ k * lr := (train_near lr hlr grad i k w).1
end training

/-- C148. `GolemDiscovery` finds nothing if it is trained for less than `threshold / lr` epochs: the returned graph is empty for all
data. -/
theorem C148_short_training (lr threshold : ℝ) (hlr : 0 < lr) (ht : 0 < threshold) (epoch : Nat) (h : epoch * lr ≤ threshold)
    (grad : (Fin d × Fin d → ℝ) → Fin d × Fin d → ℝ) (f : Nat) (hf : d * d < f) :
    golemCall f (some threshold) epoch lr grad = .ok (.matrix (fun _ _ => 0)) := by
  have hlt : ∀ i j, |train lr grad epoch golemStart (i, j)| < threshold := by
    intro i j
    have h1 := train_near lr hlr grad (i, j) epoch golemStart
    simp only [golemStart, sub_zero] at h1
    rcases Nat.eq_zero_or_pos epoch with h0 | hp
    · have := h1.1
      rw [h0, Nat.cast_zero, zero_mul] at this
      rw [h0]
      exact lt_of_le_of_lt this ht
    · exact lt_of_lt_of_le (h1.2 hp) h
  obtain ⟨M, h1, -, h3⟩ := C109_golem threshold ht.le (fun i j => train lr grad epoch golemStart (i, j)) (fun i j he => by
    have := hlt i j
    rw [he, abs_neg, abs_of_pos ht] at this
    exact lt_irrefl _ this)
  unfold golemCall
  rw [h1 f hf]
  congr 2
  funext i j
  by_contra hne
  exact absurd (h3 i j hne).2.1 (not_le.2 (hlt i j))

/-- non-vacuity: the default learning rate and threshold, 300 epochs -/
example (grad : (Fin 3 × Fin 3 → ℝ) → Fin 3 × Fin 3 → ℝ) :
    golemCall 10 (some 0.3) 300 0.001 grad = .ok (.matrix (fun _ _ => 0)) :=
  C148_short_training 0.001 0.3 (by norm_num) (by norm_num) 300 (by norm_num) grad 10 (by norm_num)

/-- C148. `DygolemCausalDiscovery` starts from ones: trained for at most `0.7 / lr` epochs no lagged weight is ever cut, whatever the
data, and every lagged weight of the answer is at least `1 - epoch * lr`. -/
theorem C148_dygolem_lags {k : Nat} (lr threshold : ℝ) (hlr : 0 < lr) (epoch : Nat) (h : epoch * lr ≤ 0.7) (rd : Bool)
    (grad : (DyIx d k → ℝ) → DyIx d k → ℝ) (f : Nat) (A : DyAnswer d k) (hA : dygolemCall f rd (some threshold) epoch lr grad = .ok A)
    (i j : Fin d) (l : Fin k) : 1 - epoch * lr ≤ A.p i j l ∧ A.p i j l ≠ 0 := by
  unfold dygolemCall at hA
  have h1 := C148_reach lr hlr grad epoch dyStart (Sum.inr (i, j, l))
  have h2 : 1 - epoch * lr ≤ train lr grad epoch dyStart (Sum.inr (i, j, l)) := by
    have := (abs_le.1 h1).1
    simp only [dyStart] at this
    linarith
  rcases ht : Discovery.toDag f (NoTears.cutSmall (some threshold) (fun i j => train lr grad epoch dyStart (.inl (i, j)))) with e | W
  · rw [ht] at hA; cases hA
  · rw [ht] at hA
    cases hA
    have h3 : (0.3 : ℝ) ≤ train lr grad epoch dyStart (Sum.inr (i, j, l)) := by norm_num at h ⊢; linarith
    have hcut : cutLag (some threshold) (train lr grad epoch dyStart (Sum.inr (i, j, l))) =
        train lr grad epoch dyStart (Sum.inr (i, j, l)) := by
      unfold cutLag
      exact if_neg (not_lt.2 (le_trans h3 (le_abs_self _)))
    dsimp only
    rw [hcut]
    exact ⟨h2, (lt_of_lt_of_le (by norm_num) h3).ne'⟩

/-- C148, `equal_variances=False` of `DygolemCausalDiscovery` is not the likelihood with one variance per variable: it is the
value for equal variances divided by the number of columns. -/
theorem C148_dygolem_variances_refuted :
    (∀ {N : Nat} (R : Matrix (Fin N) (Fin d) ℝ), 0 < d → dyLikelihood false R = dyLikelihood true R / d) ∧
      ∃ R : Matrix (Fin 1) (Fin 2) ℝ, dyLikelihood false R ≠ 0.5 * ∑ j, Real.log (∑ a, R a j ^ 2) := by
  refine ⟨fun R hd => ?_, Matrix.of ![![1, 1]], ?_⟩
  · have : (d : ℝ) ≠ 0 := Nat.cast_ne_zero.2 hd.ne'
    unfold dyLikelihood
    rw [if_neg (by decide), if_pos rfl]
    field_simp
  · unfold dyLikelihood
    rw [if_neg (by decide)]
    simp
    norm_num

/-- C148, `return_dict` of `DygolemCausalDiscovery` has no effect: two unlabelled arrays are returned. -/
theorem C148_dygolem_return_dict_refuted {k : Nat} (f : Nat) (t : Option ℝ) (epoch : Nat) (lr : ℝ) (grad : (DyIx d k → ℝ) → DyIx d k → ℝ) :
    dygolemCall f true t epoch lr grad = dygolemCall f false t epoch lr grad := rfl
end
end YL.Props
