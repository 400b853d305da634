/-
C156: the mixture density network is a probability model.
-/
import Mathlib.Probability.Distributions.Gaussian.Real
import Mathlib.MeasureTheory.Integral.Pi
import Mathlib.Tactic.FieldSimp
import Mathlib.Tactic.Positivity
import Mathlib.Tactic.NormNum
import Mathlib.Tactic.Linarith
import Verif.Model.Mdn

set_option linter.unusedSectionVars false

namespace YL.Spec

open MeasureTheory ProbabilityTheory
open scoped ENNReal NNReal

/-- the square of a scale, as the variance parameter of Mathlib's normal distribution -/
noncomputable def sqVar (s : ℝ) : ℝ≥0 := NNReal.mk (s ^ 2) (sq_nonneg s)

/-- the law of the noise the sampler consumes: a component number drawn with the given probabilities, and independently a standard
normal number for every component and coordinate -/
noncomputable def noiseLaw {K : Type} [Fintype K] [MeasurableSpace K] {d : Nat} (pi : K → ℝ) : Measure (K × (K → Fin d → ℝ)) :=
  (∑ i, ENNReal.ofReal (pi i) • Measure.dirac i).prod
    (Measure.pi (fun _ => Measure.pi (fun _ => gaussianReal 0 1)))

end YL.Spec

namespace YL.Props

open YL YL.Mdn YL.Spec MeasureTheory ProbabilityTheory
open scoped ENNReal NNReal

variable {zd ed wd h1 h2 k d : Nat}

/-! ## The three outputs -/

theorem top_ge (v : Fin (k + 1) → ℝ) (i : Fin (k + 1)) : v i ≤ Mdn.top v := Finset.le_sup' v (Finset.mem_univ i)

theorem expSum_pos (v : Fin (k + 1) → ℝ) : 0 < ∑ j, Real.exp (v j) :=
  Finset.sum_pos (fun _ _ => Real.exp_pos _) ⟨0, Finset.mem_univ _⟩

theorem weights_pos (v : Fin (k + 1) → ℝ) (i : Fin (k + 1)) : 0 < weights v i :=
  div_pos (Real.exp_pos _) (expSum_pos (fun j => v j - Mdn.top v))

theorem weights_sum (v : Fin (k + 1) → ℝ) : ∑ i, weights v i = 1 := by
  unfold weights
  rw [← Finset.sum_div]
  exact div_self (ne_of_gt (expSum_pos (fun j => v j - Mdn.top v)))

theorem weights_softmax (v : Fin (k + 1) → ℝ) (i : Fin (k + 1)) : weights v i = Real.exp (v i) / ∑ j, Real.exp (v j) := by
  unfold weights
  have h : ∀ j, Real.exp (v j - Mdn.top v) = Real.exp (v j) * Real.exp (-Mdn.top v) := fun j => by
    rw [← Real.exp_add]; rfl
  simp only [h]
  rw [← Finset.sum_mul]
  exact mul_div_mul_right _ _ (Real.exp_pos _).ne'

/-- The mixing weights are positive and sum to one; the scales are positive and, for a non-negative `stab_bound`, lie
between `exp(-stab_bound)` and `exp(stab_bound)`; whatever the weights of the network and the data are. Subtracting the
largest logit changes nothing: the weights are the softmax of the logits. -/
theorem C156_outputs (P : Weights zd ed wd h1 h2 k d) (z : Input zd ed) (w : Fin wd → ℝ) :
    (∀ i, 0 < piOf P z w i) ∧ ∑ i, piOf P z w i = 1 ∧
    (∀ i, piOf P z w i = Real.exp (linear P.wpi P.bpi (hiddenRow P z w) i) / ∑ j, Real.exp (linear P.wpi P.bpi (hiddenRow P z w) j)) ∧
    (∀ i j, 0 < sigmaOf P z w i j) ∧
    (0 ≤ P.bound → ∀ i j, Real.exp (-P.bound) ≤ sigmaOf P z w i j ∧ sigmaOf P z w i j ≤ Real.exp P.bound) := by
  refine ⟨weights_pos _, weights_sum _, weights_softmax _, fun i j => Real.exp_pos _, fun hb i j => ?_⟩
  unfold sigmaOf clamp
  constructor
  · apply Real.exp_le_exp.mpr
    exact le_min (le_max_right _ _) (by linarith)
  · exact Real.exp_le_exp.mpr (min_le_right _ _)

/-! ## The density -/

/-- the density of a normal distribution with mean `mu` and standard deviation `s` -/
theorem normalLog_exp (mu s y : ℝ) (hs : 0 < s) : Real.exp (normalLog mu s y) = gaussianPDFReal mu (sqVar s) y := by
  have hp : 0 < Real.sqrt (2 * Real.pi) := Real.sqrt_pos.mpr (by positivity)
  unfold normalLog gaussianPDFReal sqVar
  rw [Real.exp_sub, Real.exp_sub, Real.exp_log hs, Real.exp_log hp]
  have h : Real.sqrt (2 * Real.pi * s ^ 2) = s * Real.sqrt (2 * Real.pi) := by
    rw [mul_comm, Real.sqrt_mul (sq_nonneg s), Real.sqrt_sq hs.le]
  rw [NNReal.coe_mk, h]
  field_simp

theorem compLog_exp (mu s y : Fin d → ℝ) (hs : ∀ j, 0 < s j) :
    Real.exp (compLog mu s y) = ∏ j, gaussianPDFReal (mu j) (sqVar (s j)) (y j) := by
  unfold compLog
  rw [Real.exp_sum]
  exact Finset.prod_congr rfl (fun j _ => normalLog_exp _ _ _ (hs j))

theorem mixLog_exp (pi : Fin (k + 1) → ℝ) (mu s : Fin (k + 1) → Fin d → ℝ) (y : Fin d → ℝ) (hp : ∀ i, 0 < pi i)
    (h1 : ∑ i, pi i = 1) (hs : ∀ i j, 0 < s i j) :
    Real.exp (mixLog pi mu s y) = ∑ i, pi i * ∏ j, gaussianPDFReal (mu i j) (sqVar (s i j)) (y j) := by
  unfold mixLog
  have h : ∀ i, Real.exp (compLog (mu i) (s i) y + Real.log (pi i / ∑ j, pi j)) =
      pi i * ∏ j, gaussianPDFReal (mu i j) (sqVar (s i j)) (y j) := fun i => by
    rw [h1, div_one, Real.exp_add, Real.exp_log (hp i), compLog_exp _ _ _ (hs i), mul_comm]
  rw [Real.exp_log]
  · exact Finset.sum_congr rfl (fun i _ => h i)
  · exact Finset.sum_pos (fun _ _ => Real.exp_pos _) ⟨0, Finset.mem_univ _⟩

/-- `predict_prob` is the density of a mixture of normal distributions with independent coordinates: the mixing weights, the means
and the scales are the three outputs of the network -/
theorem C156_mixture (P : Weights zd ed wd h1 h2 k d) (z : Input zd ed) (w : Fin wd → ℝ) (y : Fin d → ℝ) :
    predictProb P z w y =
      ∑ i, piOf P z w i * ∏ j, gaussianPDFReal (muOf P z w i j) (sqVar (sigmaOf P z w i j)) (y j) :=
  mixLog_exp _ _ _ _ (C156_outputs P z w).1 (C156_outputs P z w).2.1 (C156_outputs P z w).2.2.2.1

theorem sqVar_ne (s : ℝ) (hs : 0 < s) : sqVar s ≠ 0 := by
  intro h
  have := congrArg (fun x : ℝ≥0 => (x : ℝ)) h
  simp only [sqVar, NNReal.coe_mk, NNReal.coe_zero] at this
  exact absurd this (pow_pos hs 2).ne'

theorem prodPdf_integrable (m : Fin d → ℝ) (v : Fin d → ℝ≥0) :
    Integrable (fun y : Fin d → ℝ => ∏ j, gaussianPDFReal (m j) (v j) (y j)) :=
  Integrable.fintype_prod (f := fun j x => gaussianPDFReal (m j) (v j) x) (fun j => integrable_gaussianPDFReal (m j) (v j))

theorem prodPdf_integral (m : Fin d → ℝ) (v : Fin d → ℝ≥0) (hv : ∀ j, v j ≠ 0) :
    ∫ y : Fin d → ℝ, ∏ j, gaussianPDFReal (m j) (v j) (y j) = 1 := by
  rw [integral_fintype_prod_volume_eq_prod (f := fun j x => gaussianPDFReal (m j) (v j) x)]
  exact Finset.prod_eq_one (fun j _ => integral_gaussianPDFReal_eq_one (m j) (hv j))

/-- `predict_prob` is a probability density: positive everywhere, with integral one -/
theorem C156_density (P : Weights zd ed wd h1 h2 k d) (z : Input zd ed) (w : Fin wd → ℝ) :
    (∀ y, 0 < predictProb P z w y) ∧ Integrable (predictProb P z w) ∧ ∫ y, predictProb P z w y = 1 := by
  obtain ⟨hp, h1, _, hs, _⟩ := C156_outputs P z w
  have hf : predictProb P z w = fun y => ∑ i, piOf P z w i *
      ∏ j, gaussianPDFReal (muOf P z w i j) (sqVar (sigmaOf P z w i j)) (y j) := funext (C156_mixture P z w)
  have hi : ∀ i ∈ Finset.univ, Integrable (fun y : Fin d → ℝ => piOf P z w i *
      ∏ j, gaussianPDFReal (muOf P z w i j) (sqVar (sigmaOf P z w i j)) (y j)) := fun i _ => (prodPdf_integrable _ _).const_mul _
  refine ⟨fun y => Real.exp_pos _, ?_, ?_⟩
  · rw [hf]
    exact integrable_finsetSum _ hi
  · rw [hf, integral_finsetSum _ hi]
    rw [← h1]
    refine Finset.sum_congr rfl (fun i _ => ?_)
    rw [integral_const_mul, prodPdf_integral _ _ (fun j => sqVar_ne _ (hs i j)), mul_one]


/-! ## The law of the samples -/

/-- the law of the mixture -/
noncomputable def mixLaw (pi : Fin (k + 1) → ℝ) (mu s : Fin (k + 1) → Fin d → ℝ) : Measure (Fin d → ℝ) :=
  ∑ i, ENNReal.ofReal (pi i) • Measure.pi (fun j => gaussianReal (mu i j) (sqVar (s i j)))

theorem gaussian_affine (m s : ℝ) : (gaussianReal 0 1).map (fun x => m + s * x) = gaussianReal m (sqVar s) := by
  have h : (fun x : ℝ => m + s * x) = (fun x => m + x) ∘ (fun x => s * x) := rfl
  rw [h, ← Measure.map_map (by fun_prop) (by fun_prop), gaussianReal_map_const_mul, gaussianReal_map_const_add]
  unfold sqVar
  rw [mul_zero, zero_add, mul_one]

theorem affine_pi (m s : Fin d → ℝ) : (Measure.pi (fun _ : Fin d => gaussianReal 0 1)).map (fun x j => m j + s j * x j) =
    Measure.pi (fun j => gaussianReal (m j) (sqVar (s j))) := by
  have h : ∀ j, (gaussianReal 0 1).map (fun x => m j + s j * x) = gaussianReal (m j) (sqVar (s j)) := fun j => gaussian_affine _ _
  haveI : ∀ j, SigmaFinite ((gaussianReal 0 1).map (fun x => m j + s j * x)) := fun j => by rw [h j]; infer_instance
  rw [Measure.pi_map_pi (μ := fun _ : Fin d => gaussianReal 0 1) (f := fun j x => m j + s j * x) (fun j => by fun_prop)]
  simp only [h]

theorem draw_measurable (mu s : Fin (k + 1) → Fin d → ℝ) : Measurable (draw mu s) := by
  apply measurable_from_prod_countable_right
  intro i
  unfold draw
  dsimp only
  fun_prop

theorem draw_law (pi : Fin (k + 1) → ℝ) (mu s : Fin (k + 1) → Fin d → ℝ) :
    (noiseLaw pi).map (draw mu s) = mixLaw pi mu s := by
  ext A hA
  rw [Measure.map_apply (draw_measurable mu s) hA]
  unfold noiseLaw mixLaw
  rw [Measure.prod_apply (draw_measurable mu s hA), lintegral_finsetSum_measure, Measure.finsetSum_apply]
  refine Finset.sum_congr rfl (fun i _ => ?_)
  rw [lintegral_smul_measure, lintegral_dirac, Measure.smul_apply]
  congr 1
  have he := measurePreserving_eval (fun _ : Fin (k + 1) => Measure.pi (fun _ : Fin d => gaussianReal 0 1)) i
  have hf : Measurable (fun (x : Fin d → ℝ) j => mu i j + s i j * x j) := by fun_prop
  rw [← affine_pi, Measure.map_apply hf hA, ← he.measure_preimage (hf hA).nullMeasurableSet]
  rfl

theorem mdn_pi_density (m : Fin d → ℝ) (v : Fin d → ℝ≥0) (hv : ∀ j, v j ≠ 0) :
    Measure.pi (fun j => gaussianReal (m j) (v j)) =
      volume.withDensity (fun y => ENNReal.ofReal (∏ j, gaussianPDFReal (m j) (v j) (y j))) := by
  apply Measure.pi_eq
  intro t ht
  rw [withDensity_apply _ (MeasurableSet.univ_pi ht), ← ofReal_integral_eq_lintegral_ofReal (prodPdf_integrable m v).restrict
    (ae_of_all _ (fun y => Finset.prod_nonneg (fun j _ => gaussianPDFReal_nonneg _ _ _)))]
  rw [← integral_indicator (MeasurableSet.univ_pi ht)]
  have h : (fun y : Fin d → ℝ => (Set.univ.pi t).indicator (fun y => ∏ j, gaussianPDFReal (m j) (v j) (y j)) y) =
      fun y => ∏ j, (t j).indicator (gaussianPDFReal (m j) (v j)) (y j) := by
    funext y
    by_cases hy : y ∈ Set.univ.pi t
    · rw [Set.indicator_of_mem hy]
      exact Finset.prod_congr rfl (fun j _ => (Set.indicator_of_mem (hy j (Set.mem_univ j)) _).symm)
    · rw [Set.indicator_of_notMem hy]
      simp only [Set.mem_pi, Set.mem_univ, forall_const, not_forall] at hy
      obtain ⟨j, hj⟩ := hy
      exact (Finset.prod_eq_zero (Finset.mem_univ j) (Set.indicator_of_notMem hj _)).symm
  rw [h, integral_fintype_prod_volume_eq_prod (f := fun j => (t j).indicator (gaussianPDFReal (m j) (v j))),
    ENNReal.ofReal_prod_of_nonneg]
  · refine Finset.prod_congr rfl (fun j _ => ?_)
    rw [gaussianReal_apply_eq_integral _ (hv j), integral_indicator (ht j)]
  · intro j _
    exact integral_nonneg (fun x => Set.indicator_nonneg (fun _ _ => gaussianPDFReal_nonneg _ _ _) _)

/-- What `_sample` draws is distributed as `predict_prob` says: for every event, the probability that a draw lies in it is the
integral of the reported density over it. -/
theorem C156_sampling (P : Weights zd ed wd h1 h2 k d) (z : Input zd ed) (w : Fin wd → ℝ) (A : Set (Fin d → ℝ)) (hA : MeasurableSet A) :
    (noiseLaw (piOf P z w)) {ω | sampleRow P z w ω ∈ A} = ENNReal.ofReal (∫ y in A, predictProb P z w y) := by
  obtain ⟨hp, h1, _, hs, _⟩ := C156_outputs P z w
  have h := congrArg (fun μ => μ A) (draw_law (piOf P z w) (muOf P z w) (sigmaOf P z w))
  rw [Measure.map_apply (draw_measurable _ _) hA] at h
  refine h.trans ?_
  rw [ofReal_integral_eq_lintegral_ofReal (C156_density P z w).2.1.restrict
    (ae_of_all _ (fun y => ((C156_density P z w).1 y).le))]
  unfold mixLaw
  rw [Measure.finsetSum_apply]
  have hf : ∀ y, ENNReal.ofReal (predictProb P z w y) = ∑ i, ENNReal.ofReal (piOf P z w i) *
      ENNReal.ofReal (∏ j, gaussianPDFReal (muOf P z w i j) (sqVar (sigmaOf P z w i j)) (y j)) := by
    intro y
    rw [C156_mixture, ENNReal.ofReal_sum_of_nonneg]
    · exact Finset.sum_congr rfl (fun i _ => ENNReal.ofReal_mul (hp i).le)
    · exact fun i _ => mul_nonneg (hp i).le (Finset.prod_nonneg (fun j _ => gaussianPDFReal_nonneg _ _ _))
  simp only [hf]
  have hm : ∀ i, Measurable (fun y : Fin d → ℝ => ENNReal.ofReal (∏ j, gaussianPDFReal (muOf P z w i j) (sqVar (sigmaOf P z w i j)) (y j))) := by
    intro i
    apply Measurable.ennreal_ofReal
    exact Finset.measurable_prod _ (fun j _ => (measurable_gaussianPDFReal _ _).comp (measurable_pi_apply j))
  rw [lintegral_finsetSum _ (fun i _ => (hm i).const_mul _)]
  refine Finset.sum_congr rfl (fun i _ => ?_)
  rw [Measure.smul_apply, mdn_pi_density _ _ (fun j => sqVar_ne _ (hs i j)), withDensity_apply _ hA, lintegral_const_mul _ (hm i)]
  rfl

/-! ## Moments and marginals -/

theorem noise_prob (pi : Fin (k + 1) → ℝ) (hp : ∀ i, 0 < pi i) (h1 : ∑ i, pi i = 1) :
    IsProbabilityMeasure (noiseLaw (d := d) pi) := by
  constructor
  rw [← Set.univ_prod_univ]
  unfold noiseLaw
  rw [Measure.prod_prod, measure_univ (μ := Measure.pi _), mul_one, Measure.finsetSum_apply]
  simp only [Measure.smul_apply, measure_univ, smul_eq_mul, mul_one]
  rw [← ENNReal.ofReal_sum_of_nonneg (fun i _ => (hp i).le), h1, ENNReal.ofReal_one]

theorem coord_law (m : Fin d → ℝ) (v : Fin d → ℝ≥0) (j : Fin d) :
    (Measure.pi (fun j => gaussianReal (m j) (v j))).map (fun y => y j) = gaussianReal (m j) (v j) :=
  (measurePreserving_eval (fun j => gaussianReal (m j) (v j)) j).map_eq

/-- the expected value of a function of one coordinate of a draw -/
theorem expect_coord (pi : Fin (k + 1) → ℝ) (hp : ∀ i, 0 < pi i) (mu s : Fin (k + 1) → Fin d → ℝ) (j : Fin d) (f : ℝ → ℝ)
    (hf : Measurable f) (hi : ∀ i, Integrable f (gaussianReal (mu i j) (sqVar (s i j)))) :
    ∫ ω, f (draw mu s ω j) ∂noiseLaw pi = ∑ i, pi i * ∫ x, f x ∂gaussianReal (mu i j) (sqVar (s i j)) := by
  have hg : Measurable (fun y : Fin d → ℝ => f (y j)) := hf.comp (measurable_pi_apply j)
  have h1 : ∫ ω, f (draw mu s ω j) ∂noiseLaw pi = ∫ y, f (y j) ∂(mixLaw pi mu s) := by
    rw [← draw_law, integral_map (draw_measurable mu s).aemeasurable hg.aestronglyMeasurable]
  have hi' : ∀ i, Integrable (fun y : Fin d → ℝ => f (y j)) (Measure.pi (fun j => gaussianReal (mu i j) (sqVar (s i j)))) := by
    intro i
    have := hi i
    rw [← coord_law (mu i) (fun j => sqVar (s i j)) j] at this
    exact this.comp_measurable (measurable_pi_apply j)
  rw [h1, mixLaw, integral_finsetSum_measure (fun i _ => (hi' i).smul_measure ENNReal.ofReal_ne_top)]
  refine Finset.sum_congr rfl (fun i _ => ?_)
  rw [integral_smul_measure, ENNReal.toReal_ofReal (hp i).le, smul_eq_mul]
  congr 1
  rw [← coord_law (mu i) (fun j => sqVar (s i j)) j, integral_map (measurable_pi_apply j).aemeasurable hf.aestronglyMeasurable]

theorem gauss_int_id (m : ℝ) (v : ℝ≥0) : Integrable (fun x : ℝ => x) (gaussianReal m v) :=
  (memLp_id_gaussianReal (μ := m) (v := v) 1).integrable (by norm_num)

theorem gauss_int_sq (m c : ℝ) (v : ℝ≥0) : Integrable (fun x : ℝ => (x - c) ^ 2) (gaussianReal m v) := by
  have h : MemLp (fun x : ℝ => x - c) 2 (gaussianReal m v) :=
    (memLp_id_gaussianReal (μ := m) (v := v) 2).sub (memLp_const c)
  exact h.integrable_sq

theorem gauss_sq (m c : ℝ) (v : ℝ≥0) : ∫ x, (x - c) ^ 2 ∂gaussianReal m v = v + (m - c) ^ 2 := by
  have h0 : ∫ x, (x - m) ^ 2 ∂gaussianReal m v = v := by
    have := variance_fun_id_gaussianReal (μ := m) (v := v)
    rw [variance_eq_integral measurable_id'.aemeasurable] at this
    simpa only [integral_id_gaussianReal] using this
  have h1 : ∀ x : ℝ, (x - c) ^ 2 = (x - m) ^ 2 + (2 * (m - c) * x + ((m - c) ^ 2 - 2 * (m - c) * m)) := fun x => by ring
  rw [integral_congr_ae (ae_of_all _ h1)]
  have i2 : Integrable (fun a : ℝ => 2 * (m - c) * a + ((m - c) ^ 2 - 2 * (m - c) * m)) (gaussianReal m v) :=
    ((gauss_int_id m v).const_mul _).add (integrable_const _)
  rw [integral_add (gauss_int_sq m m v) i2,
    integral_add ((gauss_int_id m v).const_mul _) (integrable_const _), h0, integral_const_mul, integral_id_gaussianReal,
    integral_const]
  simp only [probReal_univ, smul_eq_mul, one_mul]
  ring

/-- the expected value of a coordinate of a draw is the weighted mean of the component means -/
theorem C156_mean (P : Weights zd ed wd h1 h2 k d) (z : Input zd ed) (w : Fin wd → ℝ) (j : Fin d) :
    ∫ ω, sampleRow P z w ω j ∂noiseLaw (piOf P z w) = ∑ i, piOf P z w i * muOf P z w i j := by
  refine (expect_coord _ (C156_outputs P z w).1 _ _ j (fun x => x) measurable_id (fun i => gauss_int_id _ _)).trans ?_
  simp only [integral_id_gaussianReal]

/-- the spread of a coordinate of a draw: the weighted mean of the SQUARES of the third output plus the spread of the means -/
theorem C156_spread (P : Weights zd ed wd h1 h2 k d) (z : Input zd ed) (w : Fin wd → ℝ) (j : Fin d) (c : ℝ) :
    ∫ ω, (sampleRow P z w ω j - c) ^ 2 ∂noiseLaw (piOf P z w) =
      ∑ i, piOf P z w i * (sigmaOf P z w i j ^ 2 + (muOf P z w i j - c) ^ 2) := by
  refine (expect_coord _ (C156_outputs P z w).1 _ _ j (fun x => (x - c) ^ 2) (by fun_prop) (fun i => gauss_int_sq _ _ _)).trans ?_
  simp only [gauss_sq]
  rfl

/-- The documentation calls the third output the variance of the components. With one component the variance of a coordinate is the
square of it, so the documentation is right exactly when the output is one. -/
theorem C156_variance_refuted (P : Weights zd ed wd h1 h2 0 d) (z : Input zd ed) (w : Fin wd → ℝ) (j : Fin d) :
    (∫ ω, (sampleRow P z w ω j - ∫ ω', sampleRow P z w ω' j ∂noiseLaw (piOf P z w)) ^ 2 ∂noiseLaw (piOf P z w) =
      sigmaOf P z w 0 j) ↔ sigmaOf P z w 0 j = 1 := by
  rw [C156_spread, C156_mean]
  have h1 := (C156_outputs P z w).2.1
  have hs := (C156_outputs P z w).2.2.2.1 0 j
  rw [Fin.sum_univ_one] at h1
  rw [Fin.sum_univ_one, Fin.sum_univ_one, h1]
  constructor
  · intro h
    have h2 : sigmaOf P z w 0 j * (sigmaOf P z w 0 j - 1) = 0 := by linarith
    rcases mul_eq_zero.mp h2 with h3 | h3
    · exact absurd h3 hs.ne'
    · linarith
  · intro h
    rw [h]; ring

theorem probDensity_eq (mu s : Fin (k + 1) → Fin d → ℝ) (y : Fin d → ℝ) (i : Fin (k + 1)) (j : Fin d) (hs : 0 < s i j) :
    probDensity mu s y i j = gaussianPDFReal (mu i j) (sqVar (s i j)) (y j) := by
  rw [← normalLog_exp _ _ _ hs]
  have hp : 0 < Real.sqrt (2 * Real.pi) := Real.sqrt_pos.mpr (by positivity)
  unfold probDensity normalLog
  rw [Real.exp_sub, Real.exp_sub, Real.exp_log hs, Real.exp_log hp]
  have h : -(y j - mu i j) ^ 2 / (2 * s i j ^ 2) = -(1 / 2) * ((y j - mu i j) / s i j) ^ 2 := by
    field_simp
  rw [h]
  field_simp

/-- `GaussianProb.mixture_density`, given the three outputs, is at coordinate `j` the density of coordinate `j` of a draw: for every
event, the probability that the coordinate lies in it is the integral of the returned number over it. -/
theorem C156_marginal (P : Weights zd ed wd h1 h2 k d) (z : Input zd ed) (w : Fin wd → ℝ) (j : Fin d) (A : Set ℝ) (hA : MeasurableSet A) :
    (noiseLaw (piOf P z w)) {ω | sampleRow P z w ω j ∈ A} =
      ENNReal.ofReal (∫ t in A, mixtureDensity (muOf P z w) (sigmaOf P z w) (piOf P z w) (fun _ => t) j) := by
  obtain ⟨hp, h1, _, hs, _⟩ := C156_outputs P z w
  have hd : ∀ t : ℝ, mixtureDensity (muOf P z w) (sigmaOf P z w) (piOf P z w) (fun _ => t) j =
      ∑ i, gaussianPDFReal (muOf P z w i j) (sqVar (sigmaOf P z w i j)) t * piOf P z w i := fun t =>
    Finset.sum_congr rfl (fun i _ => by rw [probDensity_eq _ _ _ _ _ (hs i j)])
  simp only [hd]
  rw [integral_finsetSum _ (fun i _ => ((integrable_gaussianPDFReal _ _).restrict.mul_const _)),
    ENNReal.ofReal_sum_of_nonneg (fun i _ => integral_nonneg (fun x => mul_nonneg (gaussianPDFReal_nonneg _ _ _) (hp i).le))]
  have hB : MeasurableSet {y : Fin d → ℝ | y j ∈ A} := measurable_pi_apply j hA
  have h := congrArg (fun μ => μ {y : Fin d → ℝ | y j ∈ A}) (draw_law (piOf P z w) (muOf P z w) (sigmaOf P z w))
  rw [Measure.map_apply (draw_measurable _ _) hB] at h
  refine h.trans ?_
  unfold mixLaw
  rw [Measure.finsetSum_apply]
  refine Finset.sum_congr rfl (fun i _ => ?_)
  rw [integral_mul_const, mul_comm, ENNReal.ofReal_mul (hp i).le, ← gaussianReal_apply_eq_integral _ (sqVar_ne _ (hs i j)),
    Measure.smul_apply, smul_eq_mul]
  congr 1
  have hc := coord_law (muOf P z w i) (fun j => sqVar (sigmaOf P z w i j)) j
  rw [← hc, Measure.map_apply (measurable_pi_apply j) hA]
  rfl

/-! ## Bounds -/

theorem pdf_le (m s y : ℝ) (b : ℝ) (hs : Real.exp (-b) ≤ s) : gaussianPDFReal m (sqVar s) y ≤ Real.exp b / Real.sqrt (2 * Real.pi) := by
  have hs0 : 0 < s := lt_of_lt_of_le (Real.exp_pos _) hs
  have hp : 0 < Real.sqrt (2 * Real.pi) := Real.sqrt_pos.mpr (by positivity)
  rw [← normalLog_exp _ _ _ hs0]
  unfold normalLog
  rw [Real.exp_sub, Real.exp_sub, Real.exp_log hs0, Real.exp_log hp]
  apply div_le_div_of_nonneg_right _ hp.le
  rw [div_le_iff₀ hs0]
  have h1 : Real.exp (-(y - m) ^ 2 / (2 * s ^ 2)) ≤ 1 := by
    rw [Real.exp_le_one_iff]
    apply div_nonpos_of_nonpos_of_nonneg
    · have := sq_nonneg (y - m); linarith
    · positivity
  have h2 : 1 ≤ Real.exp b * s := by
    have := mul_le_mul_of_nonneg_left hs (Real.exp_pos b).le
    rwa [← Real.exp_add, add_neg_cancel, Real.exp_zero] at this
  linarith

/-- the clamp bounds the density: with `stab_bound` non-negative it is at most `(exp(stab_bound) / sqrt(2 pi)) ^ out_d`, whatever
the weights -/
theorem C156_density_bounded (P : Weights zd ed wd h1 h2 k d) (hb : 0 ≤ P.bound) (z : Input zd ed) (w : Fin wd → ℝ) (y : Fin d → ℝ) :
    predictProb P z w y ≤ (Real.exp P.bound / Real.sqrt (2 * Real.pi)) ^ d := by
  obtain ⟨hp, h1, _, _, hs⟩ := C156_outputs P z w
  rw [C156_mixture]
  have h : ∀ i, ∏ j, gaussianPDFReal (muOf P z w i j) (sqVar (sigmaOf P z w i j)) (y j) ≤
      (Real.exp P.bound / Real.sqrt (2 * Real.pi)) ^ d := by
    intro i
    have := Finset.prod_le_prod (s := Finset.univ)
      (f := fun j => gaussianPDFReal (muOf P z w i j) (sqVar (sigmaOf P z w i j)) (y j))
      (g := fun _ => Real.exp P.bound / Real.sqrt (2 * Real.pi))
      (fun j _ => gaussianPDFReal_nonneg _ _ _) (fun j _ => pdf_le _ _ _ _ (hs hb i j).1)
    rwa [Finset.prod_const, Finset.card_univ, Fintype.card_fin] at this
  calc ∑ i, piOf P z w i * ∏ j, gaussianPDFReal (muOf P z w i j) (sqVar (sigmaOf P z w i j)) (y j)
      ≤ ∑ i, piOf P z w i * (Real.exp P.bound / Real.sqrt (2 * Real.pi)) ^ d :=
        Finset.sum_le_sum (fun i _ => mul_le_mul_of_nonneg_left (h i) (hp i).le)
    _ = _ := by rw [← Finset.sum_mul, h1, one_mul]

/-- so the training loss of a non-empty batch is bounded below, uniformly in the weights -/
theorem C156_loss_bounded (P : Weights zd ed wd h1 h2 k d) (hb : 0 ≤ P.bound)
    (batch : List (Input zd ed × (Fin wd → ℝ) × (Fin d → ℝ))) (hne : batch ≠ []) :
    -(Real.log batch.length + d * (P.bound - Real.log (Real.sqrt (2 * Real.pi)))) ≤ loss P batch := by
  have hp : 0 < Real.sqrt (2 * Real.pi) := Real.sqrt_pos.mpr (by positivity)
  have hq : 0 < Real.exp P.bound / Real.sqrt (2 * Real.pi) := div_pos (Real.exp_pos _) hp
  have hn : (0 : ℝ) < batch.length := by
    exact_mod_cast List.length_pos_iff.mpr hne
  have hle : (batch.map (fun r => Real.exp (predictLogProb P r.1 r.2.1 r.2.2))).sum ≤
      batch.length * (Real.exp P.bound / Real.sqrt (2 * Real.pi)) ^ d := by
    have := List.sum_le_card_nsmul (batch.map (fun r => Real.exp (predictLogProb P r.1 r.2.1 r.2.2)))
      ((Real.exp P.bound / Real.sqrt (2 * Real.pi)) ^ d) (by
        intro x hx
        obtain ⟨r, _, rfl⟩ := List.mem_map.mp hx
        exact C156_density_bounded P hb _ _ _)
    simpa using this
  have hpos : 0 < (batch.map (fun r => Real.exp (predictLogProb P r.1 r.2.1 r.2.2))).sum := by
    apply List.sum_pos
    · intro x hx
      obtain ⟨r, _, rfl⟩ := List.mem_map.mp hx
      exact Real.exp_pos _
    · simpa using hne
  unfold loss
  apply neg_le_neg
  refine (Real.log_le_log hpos hle).trans (le_of_eq ?_)
  rw [Real.log_mul hn.ne' (pow_pos hq d).ne', Real.log_pow, Real.log_div (Real.exp_pos _).ne' hp.ne', Real.log_exp]

/-! ## What the class does not offer, and the layout -/

/-- `predict_cdf` never returns; `GaussianProb.mixture_density(..., torch_D=True)` and `GaussianProb.prod_prob` never return -/
theorem C156_methods_refuted (P : Weights zd ed wd h1 h2 k d) (z : Input zd ed) (w : Fin wd → ℝ) (mu s : Fin (k + 1) → Fin d → ℝ)
    (pi : Fin (k + 1) → ℝ) (y : Fin d → ℝ) :
    (∀ r, predictCdf P z w y ≠ .ok r) ∧ (∀ r, mixtureDensityCall mu s pi y true ≠ .ok r) ∧ (∀ r, prodProb mu s y ≠ .ok r) ∧
    mixtureDensityCall mu s pi y false = .ok (mixtureDensity mu s pi y) := by
  refine ⟨fun r h => (by cases h), fun r h => (by cases h), fun r h => (by cases h), rfl⟩

/-- Row `t * b + i` of what `_sample` returns for a batch of `b` rows is draw `t` for row `i`; component `i`, coordinate `j` of the
means is output `i * out_d + j` of the layer. -/
theorem C156_layout (P : Weights zd ed wd h1 h2 k d) {n b : Nat} (zs : Fin b → Input zd ed) (ws : Fin b → Fin wd → ℝ)
    (ω : Fin n → Fin b → Fin (k + 1) × (Fin (k + 1) → Fin d → ℝ)) (t : Fin n) (i : Fin b) (r : Fin (n * b))
    (hr : r.val = t.val * b + i.val) (z : Input zd ed) (w : Fin wd → ℝ) (c : Fin (k + 1)) (j : Fin d) (q : Fin ((k + 1) * d))
    (hq : q.val = c.val * d + j.val) :
    sampleRows P zs ws ω r = sampleRow P (zs i) (ws i) (ω t i) ∧
    muOf P z w c j = linear P.wmu P.bmu (hiddenRow P z w) q ∧
    sigmaOf P z w c j = Real.exp (clamp P.bound (linear P.wsg P.bsg (hiddenRow P z w) q)) := by
  have h1 : r = finProdFinEquiv (t, i) := by
    apply Fin.ext
    rw [hr, finProdFinEquiv_apply_val, mul_comm, add_comm]
  have h2 : q = finProdFinEquiv (c, j) := by
    apply Fin.ext
    rw [hq, finProdFinEquiv_apply_val, mul_comm, add_comm]
  refine ⟨?_, ?_, ?_⟩
  · rw [h1, sampleRows, Equiv.symm_apply_apply]
  · rw [h2, muOf]
  · rw [h2, sigmaOf]

/-! ## A network that ignores its input -/

/-- the network whose layers are constants -/
def constNet (pi : Fin (k + 1) → ℝ) (mu s : Fin ((k + 1) * d) → ℝ) (b : ℝ) : Weights 1 1 1 1 1 k d :=
  { embed := fun _ _ => 0, w1 := fun _ _ => 0, b1 := fun _ => 0, w2 := fun _ _ => 0, b2 := fun _ => 0, wpi := fun _ _ => 0, bpi := pi,
    wmu := fun _ _ => 0, bmu := mu, wsg := fun _ _ => 0, bsg := s, bound := b }

theorem linear_zero {n m : Nat} (b : Fin m → ℝ) (x : Fin n → ℝ) : linear (fun _ _ => 0) b x = b := by
  funext i
  simp [linear]

/-- two components with means `(0, 0)` and `(1, 1)` and scale one -/
noncomputable def twoMeans : Weights 1 1 1 1 1 1 2 :=
  constNet (fun _ => 0) (fun q => if q.val < 2 then 0 else 1) (fun _ => 0) 200

theorem twoMeans_out (z : Input 1 1) (w : Fin 1 → ℝ) : (∀ i, piOf twoMeans z w i = 1 / 2) ∧
    (∀ j, muOf twoMeans z w 0 j = 0) ∧ (∀ j, muOf twoMeans z w 1 j = 1) ∧ (∀ i j, sigmaOf twoMeans z w i j = 1) := by
  have hl : ∀ (m : Nat) (b : Fin m → ℝ) (x : Fin 1 → ℝ), linear (fun _ _ => 0) b x = b := fun m b x => linear_zero b x
  refine ⟨fun i => ?_, fun j => ?_, fun j => ?_, fun i j => ?_⟩
  · rw [(C156_outputs twoMeans z w).2.2.1 i]
    simp [twoMeans, constNet, linear]
  · fin_cases j <;> simp [muOf, twoMeans, constNet, linear, finProdFinEquiv]
  · fin_cases j <;> simp [muOf, twoMeans, constNet, linear, finProdFinEquiv]
  · simp [sigmaOf, twoMeans, constNet, linear, clamp]

/-- The density of a draw is not the product of what `GaussianProb.mixture_density` returns for its coordinates: a mixture of
independent coordinates is not independent. -/
theorem C156_joint_refuted (z : Input 1 1) (w : Fin 1 → ℝ) :
    ∏ j, mixtureDensity (muOf twoMeans z w) (sigmaOf twoMeans z w) (piOf twoMeans z w) (fun _ => 0) j <
      predictProb twoMeans z w (fun _ => 0) := by
  obtain ⟨hp, hm0, hm1, hs⟩ := twoMeans_out z w
  have hs' := (C156_outputs twoMeans z w).2.2.2.1
  rw [C156_mixture]
  unfold mixtureDensity
  have e : ∀ f : Fin (1 + 1) → ℝ, ∑ i, f i = f 0 + f 1 := fun f => Fin.sum_univ_two f
  simp only [probDensity_eq _ _ _ _ _ (hs' _ _), Fin.prod_univ_two, e, hp, hm0, hm1, hs]
  have hne : gaussianPDFReal 0 (sqVar 1) 0 ≠ gaussianPDFReal 1 (sqVar 1) 0 := by
    rw [← normalLog_exp _ _ _ one_pos, ← normalLog_exp _ _ _ one_pos]
    intro h
    have := Real.exp_injective h
    unfold normalLog at this
    norm_num at this
    linarith
  nlinarith [sq_pos_of_ne_zero (sub_ne_zero.mpr hne)]

/-- the hypothesis of the bounds holds for the default `stab_bound`, and the variance of the components differs from the third
output for a scale of `exp 1` -/
example : 0 ≤ twoMeans.bound ∧ ∃ (P : Weights 1 1 1 1 1 0 1) (z : Input 1 1) (w : Fin 1 → ℝ), sigmaOf P z w 0 0 ≠ 1 := by
  refine ⟨by norm_num [twoMeans, constNet], constNet (fun _ => 0) (fun _ => 0) (fun _ => 1) 200, .row (fun _ => 0), fun _ => 0, ?_⟩
  have : sigmaOf (constNet (fun _ => 0) (fun _ => 0) (fun _ => 1) 200 : Weights 1 1 1 1 1 0 1) (.row (fun _ => 0)) (fun _ => 0) 0 0
      = Real.exp 1 := by
    simp [sigmaOf, constNet, linear, clamp]
    norm_num
  rw [this]
  exact (Real.one_lt_exp_iff.mpr one_pos).ne'

end YL.Props
