/-
C157: what the outcome network of DeepIV converges to.
-/
import Mathlib.Tactic.LinearCombination
import Verif.Props.Mdn
import Verif.Props.DeepIV
import Verif.Model.DeepIVLoss

set_option linter.unusedSectionVars false

namespace YL.Spec

open YL MeasureTheory ProbabilityTheory DeepIVLoss

variable {zd ed wd h1 h2 k d : Nat}

/-- the mean of the training loss over the draws of the treatment network: the rows are drawn independently -/
noncomputable def meanLoss (P : Mdn.Weights zd ed wd h1 h2 k d) {n : Nat} (rows : Fin n → Row zd ed wd)
    (h : (Fin d → ℝ) → (Fin wd → ℝ) → ℝ) : ℝ :=
  ∫ ω, drawLoss P rows h ω ∂Measure.pi (fun i => noiseLaw (Mdn.piOf P (rows i).z (rows i).w))

/-- what the treatment network expects a function of the treatment to be in a row -/
noncomputable def rowMean (P : Mdn.Weights zd ed wd h1 h2 k d) (r : Row zd ed wd) (g : (Fin d → ℝ) → (Fin wd → ℝ) → ℝ) : ℝ :=
  ∫ ω, g (Mdn.sampleRow P r.z r.w ω) r.w ∂noiseLaw (Mdn.piOf P r.z r.w)

/-- The model of instrumental variables, with an exact treatment network: what is left of the outcome after the mean of the structural
function `g` given instrument and adjustment is uncorrelated with every function of instrument and adjustment. -/
def Structural (P : Mdn.Weights zd ed wd h1 h2 k d) {n : Nat} (rows : Fin n → Row zd ed wd)
    (g : (Fin d → ℝ) → (Fin wd → ℝ) → ℝ) : Prop :=
  ∀ φ : Mdn.Input zd ed → (Fin wd → ℝ) → ℝ, ∑ i, φ (rows i).z (rows i).w * ((rows i).y - rowMean P (rows i) g) = 0

/-- the function is square integrable under the draws of every row -/
def SquareInt (P : Mdn.Weights zd ed wd h1 h2 k d) {n : Nat} (rows : Fin n → Row zd ed wd)
    (g : (Fin d → ℝ) → (Fin wd → ℝ) → ℝ) : Prop :=
  ∀ i, MemLp (fun ω => g (Mdn.sampleRow P (rows i).z (rows i).w ω) (rows i).w) 2 (noiseLaw (Mdn.piOf P (rows i).z (rows i).w))

end YL.Spec

namespace YL.Props

open YL YL.Spec MeasureTheory ProbabilityTheory DeepIVLoss
open scoped ENNReal NNReal

variable {zd ed wd h1 h2 k d : Nat}

theorem noiseProb (P : Mdn.Weights zd ed wd h1 h2 k d) (z : Mdn.Input zd ed) (w : Fin wd → ℝ) :
    IsProbabilityMeasure (noiseLaw (d := d) (Mdn.piOf P z w)) :=
  noise_prob _ (C156_outputs P z w).1 (C156_outputs P z w).2.1

theorem meanLoss_eq (P : Mdn.Weights zd ed wd h1 h2 k d) {n : Nat} (rows : Fin n → Row zd ed wd)
    (h : (Fin d → ℝ) → (Fin wd → ℝ) → ℝ) (hh : SquareInt P rows h) :
    meanLoss P rows h = (∑ i, ∫ ω, (h (Mdn.sampleRow P (rows i).z (rows i).w ω) (rows i).w - (rows i).y) ^ 2
      ∂noiseLaw (Mdn.piOf P (rows i).z (rows i).w)) / n := by
  haveI : ∀ i, IsProbabilityMeasure (noiseLaw (d := d) (Mdn.piOf P (rows i).z (rows i).w)) := fun i => noiseProb P _ _
  have hi : ∀ i, Integrable (fun ω => (h (Mdn.sampleRow P (rows i).z (rows i).w ω) (rows i).w - (rows i).y) ^ 2)
      (noiseLaw (Mdn.piOf P (rows i).z (rows i).w)) := fun i => ((hh i).sub (memLp_const _)).integrable_sq
  have he : ∀ i, MeasurePreserving (fun ω : Fin n → _ => ω i)
      (Measure.pi (fun i => noiseLaw (d := d) (Mdn.piOf P (rows i).z (rows i).w))) (noiseLaw (Mdn.piOf P (rows i).z (rows i).w)) :=
    fun i => measurePreserving_eval _ i
  unfold meanLoss drawLoss
  rw [integral_div, integral_finsetSum]
  · congr 1
    refine Finset.sum_congr rfl (fun i _ => ?_)
    have := integral_map (he i).measurable.aemeasurable (f := fun ω => (h (Mdn.sampleRow P (rows i).z (rows i).w ω) (rows i).w - (rows i).y) ^ 2)
      (by rw [(he i).map_eq]; exact (hi i).aestronglyMeasurable)
    rw [(he i).map_eq] at this
    exact this.symm
  · intro i _
    exact (he i).integrable_comp_of_integrable (hi i)

theorem sq_expand (P : Mdn.Weights zd ed wd h1 h2 k d) (r : Row zd ed wd) (g : (Fin d → ℝ) → (Fin wd → ℝ) → ℝ)
    (hg : MemLp (fun ω => g (Mdn.sampleRow P r.z r.w ω) r.w) 2 (noiseLaw (Mdn.piOf P r.z r.w))) (c : ℝ) :
    ∫ ω, (c * g (Mdn.sampleRow P r.z r.w ω) r.w - r.y) ^ 2 ∂noiseLaw (Mdn.piOf P r.z r.w) =
      c ^ 2 * (∫ ω, g (Mdn.sampleRow P r.z r.w ω) r.w ^ 2 ∂noiseLaw (Mdn.piOf P r.z r.w)) - 2 * c * rowMean P r g * r.y + r.y ^ 2 := by
  haveI := noiseProb (d := d) P r.z r.w
  have h1 : ∀ ω, (c * g (Mdn.sampleRow P r.z r.w ω) r.w - r.y) ^ 2 =
      c ^ 2 * g (Mdn.sampleRow P r.z r.w ω) r.w ^ 2 + ((-2 * c * r.y) * g (Mdn.sampleRow P r.z r.w ω) r.w + r.y ^ 2) := fun ω => by ring
  have i1 := hg.integrable_sq
  have i2 : Integrable (fun ω => g (Mdn.sampleRow P r.z r.w ω) r.w) (noiseLaw (Mdn.piOf P r.z r.w)) := hg.integrable (by norm_num)
  have i3 : Integrable (fun ω => (-2 * c * r.y) * g (Mdn.sampleRow P r.z r.w ω) r.w + r.y ^ 2) (noiseLaw (Mdn.piOf P r.z r.w)) :=
    (i2.const_mul _).add (integrable_const _)
  rw [integral_congr_ae (ae_of_all _ h1), integral_add (i1.const_mul _) i3, integral_add (i2.const_mul _) (integrable_const _),
    integral_const_mul, integral_const_mul, integral_const]
  simp only [probReal_univ, smul_eq_mul, one_mul]
  unfold rowMean
  ring

/-- the second moment is at least the square of the mean, with equality only for a constant -/
theorem second_moment {Ω : Type} [MeasurableSpace Ω] (μ : Measure Ω) [IsProbabilityMeasure μ] (f : Ω → ℝ) (hf : MemLp f 2 μ) :
    (∫ ω, f ω ∂μ) ^ 2 ≤ ∫ ω, f ω ^ 2 ∂μ ∧
    ((∫ ω, f ω ^ 2 ∂μ = (∫ ω, f ω ∂μ) ^ 2) ↔ ∀ᵐ ω ∂μ, f ω = ∫ ω', f ω' ∂μ) := by
  have i1 := hf.integrable_sq
  have i2 : Integrable f μ := hf.integrable (by norm_num)
  set m := ∫ ω, f ω ∂μ with hm
  have i3 : Integrable (fun ω => (-2 * m) * f ω + m ^ 2) μ := (i2.const_mul _).add (integrable_const _)
  have h1 : ∫ ω, (f ω - m) ^ 2 ∂μ = ∫ ω, f ω ^ 2 ∂μ - m ^ 2 := by
    have e : ∀ ω, (f ω - m) ^ 2 = f ω ^ 2 + ((-2 * m) * f ω + m ^ 2) := fun ω => by ring
    rw [integral_congr_ae (ae_of_all _ e), integral_add i1 i3, integral_add (i2.const_mul _) (integrable_const _),
      integral_const_mul, integral_const, ← hm]
    simp only [probReal_univ, smul_eq_mul, one_mul]
    ring
  have h2 : 0 ≤ ∫ ω, (f ω - m) ^ 2 ∂μ := integral_nonneg (fun ω => sq_nonneg _)
  refine ⟨by linarith, ?_⟩
  have h3 : (∫ ω, (f ω - m) ^ 2 ∂μ = 0) ↔ (fun ω => (f ω - m) ^ 2) =ᵐ[μ] 0 :=
    integral_eq_zero_iff_of_nonneg (fun ω => sq_nonneg _) ((hf.sub (memLp_const m)).integrable_sq)
  rw [show (∫ ω, f ω ^ 2 ∂μ = m ^ 2) ↔ (∫ ω, (f ω - m) ^ 2 ∂μ = 0) by rw [h1, sub_eq_zero], h3]
  constructor
  · intro h
    filter_upwards [h] with ω hω
    have : (f ω - m) ^ 2 = 0 := hω
    exact sub_eq_zero.mp (pow_eq_zero_iff (two_ne_zero)|>.mp this)
  · intro h
    filter_upwards [h] with ω hω
    simp [hω]

/-- almost sure under the draws is almost everywhere: the network's density is positive -/
theorem ae_draws (P : Mdn.Weights zd ed wd h1 h2 k d) (z : Mdn.Input zd ed) (w : Fin wd → ℝ) (g : (Fin d → ℝ) → ℝ) (hg : Measurable g) (m : ℝ) :
    (∀ᵐ ω ∂noiseLaw (Mdn.piOf P z w), g (Mdn.sampleRow P z w ω) = m) ↔ ∀ᵐ x : Fin d → ℝ, g x = m := by
  have hA : MeasurableSet {x : Fin d → ℝ | ¬ g x = m} := (hg (measurableSet_singleton m)).compl
  rw [ae_iff, ae_iff]
  have h := C156_sampling P z w {x | ¬ g x = m} hA
  rw [show {ω | ¬ g (Mdn.sampleRow P z w ω) = m} = {ω | Mdn.sampleRow P z w ω ∈ {x | ¬ g x = m}} from rfl, h, ENNReal.ofReal_eq_zero]
  have hd := C156_density P z w
  constructor
  · intro h0
    have h1 : ∫ y in {x | ¬ g x = m}, Mdn.predictProb P z w y = 0 :=
      le_antisymm h0 (integral_nonneg (fun y => (hd.1 y).le))
    rw [setIntegral_eq_zero_iff_of_nonneg_ae (ae_of_all _ (fun y => (hd.1 y).le)) hd.2.1.integrableOn] at h1
    have h2 : ∀ᵐ y ∂(volume.restrict {x : Fin d → ℝ | ¬ g x = m}), False := by
      filter_upwards [h1] with y hy
      exact absurd hy (hd.1 y).ne'
    have h3 : volume.restrict {x : Fin d → ℝ | ¬ g x = m} = 0 := by
      rw [← Measure.measure_univ_eq_zero]
      simpa [ae_iff] using h2
    simpa using h3
  · intro h0
    rw [Measure.restrict_eq_zero.mpr h0, integral_zero_measure]

theorem scaled_loss (P : Mdn.Weights zd ed wd h1 h2 k d) {n : Nat} (rows : Fin n → Row zd ed wd) (g : (Fin d → ℝ) → (Fin wd → ℝ) → ℝ)
    (hg : SquareInt P rows g) (hs : Structural P rows g) (c : ℝ) :
    meanLoss P rows (fun x w => c * g x w) =
      (c ^ 2 * (∑ i, ∫ ω, g (Mdn.sampleRow P (rows i).z (rows i).w ω) (rows i).w ^ 2 ∂noiseLaw (Mdn.piOf P (rows i).z (rows i).w)) -
        2 * c * (∑ i, rowMean P (rows i) g ^ 2) + ∑ i, (rows i).y ^ 2) / n := by
  rw [meanLoss_eq P rows _ (fun i => (hg i).const_mul c)]
  congr 1
  have h := hs (fun z w => ∫ ω, g (Mdn.sampleRow P z w ω) w ∂noiseLaw (Mdn.piOf P z w))
  have h' : ∑ i, rowMean P (rows i) g * (rows i).y = ∑ i, rowMean P (rows i) g ^ 2 := by
    have e : ∑ i, rowMean P (rows i) g * ((rows i).y - rowMean P (rows i) g) = 0 := h
    rw [← sub_eq_zero, ← Finset.sum_sub_distrib, ← e]
    exact Finset.sum_congr rfl (fun i _ => by ring)
  rw [Finset.sum_congr rfl (fun i _ => sq_expand P (rows i) g (hg i) c), Finset.sum_add_distrib, Finset.sum_sub_distrib,
    ← Finset.mul_sum, ← h']
  congr 2
  rw [Finset.mul_sum]
  exact Finset.sum_congr rfl (fun i _ => by ring)

/-- The structural function is a minimiser of the expected training loss, even among its own multiples, exactly when the treatment
has no effect: in every row it takes the same value for almost every treatment. -/
theorem C157_structural_refuted (P : Mdn.Weights zd ed wd h1 h2 k d) {n : Nat} (hn : 0 < n) (rows : Fin n → Row zd ed wd)
    (g : (Fin d → ℝ) → (Fin wd → ℝ) → ℝ) (hm : ∀ w, Measurable (fun x => g x w)) (hg : SquareInt P rows g) (hs : Structural P rows g) :
    (∀ c, meanLoss P rows g ≤ meanLoss P rows (fun x w => c * g x w)) ↔
      ∀ i, ∀ᵐ x : Fin d → ℝ, g x (rows i).w = rowMean P (rows i) g := by
  have hn' : (0 : ℝ) < n := by exact_mod_cast hn
  have hl := scaled_loss P rows g hg hs
  have h1 : meanLoss P rows g = meanLoss P rows (fun x w => 1 * g x w) := by simp only [one_mul]
  set A := ∑ i, ∫ ω, g (Mdn.sampleRow P (rows i).z (rows i).w ω) (rows i).w ^ 2 ∂noiseLaw (Mdn.piOf P (rows i).z (rows i).w) with hA
  set B := ∑ i, rowMean P (rows i) g ^ 2 with hB
  have sm := fun i => by
    haveI := noiseProb (d := d) P (rows i).z (rows i).w
    exact second_moment _ _ (hg i)
  have hBA : B ≤ A := Finset.sum_le_sum (fun i _ => (sm i).1)
  have hB0 : 0 ≤ B := Finset.sum_nonneg (fun i _ => sq_nonneg _)
  have hmin : (∀ c, meanLoss P rows g ≤ meanLoss P rows (fun x w => c * g x w)) ↔ A = B := by
    rw [h1]
    simp only [hl]
    constructor
    · intro h
      rcases eq_or_lt_of_le (hB0.trans hBA) with h0 | h0
      · linarith
      · have h2 := h (B / A)
        rw [div_le_div_iff_of_pos_right hn'] at h2
        have h3 : (B / A) ^ 2 * A - 2 * (B / A) * B = -(B ^ 2 / A) := by field_simp; ring
        have h4 : A - 2 * B ≤ -(B ^ 2 / A) := by linarith
        have h5 : (A - 2 * B) * A ≤ -(B ^ 2) := by
          have := mul_le_mul_of_nonneg_right h4 h0.le
          rwa [neg_mul, div_mul_cancel₀ _ h0.ne'] at this
        have h6 : (A - B) ^ 2 ≤ 0 := by nlinarith
        have h7 : A - B = 0 := pow_eq_zero_iff (two_ne_zero) |>.mp (le_antisymm h6 (sq_nonneg _))
        linarith
    · intro h c
      rw [div_le_div_iff_of_pos_right hn', h]
      nlinarith [mul_nonneg hB0 (sq_nonneg (c - 1))]
  rw [hmin]
  have hsum : A = B ↔ ∀ i, ∫ ω, g (Mdn.sampleRow P (rows i).z (rows i).w ω) (rows i).w ^ 2 ∂noiseLaw (Mdn.piOf P (rows i).z (rows i).w) =
      rowMean P (rows i) g ^ 2 := by
    have sle : ∀ i ∈ Finset.univ, rowMean P (rows i) g ^ 2 ≤
        ∫ ω, g (Mdn.sampleRow P (rows i).z (rows i).w ω) (rows i).w ^ 2 ∂noiseLaw (Mdn.piOf P (rows i).z (rows i).w) := fun i _ => (sm i).1
    rw [hA, hB, eq_comm, Finset.sum_eq_sum_iff_of_le sle]
    simp only [Finset.mem_univ, forall_const]
    exact forall_congr' (fun i => eq_comm)
  rw [hsum]
  refine forall_congr' (fun i => ?_)
  rw [← ae_draws P (rows i).z (rows i).w (fun x => g x (rows i).w) (hm _)]
  exact (sm i).2

/-- Among the multiples of the structural function the expected loss is smallest at a factor below one, unless the treatment has no
effect: the trained network is attenuated. -/
theorem C157_attenuation (P : Mdn.Weights zd ed wd h1 h2 k d) {n : Nat} (hn : 0 < n) (rows : Fin n → Row zd ed wd)
    (g : (Fin d → ℝ) → (Fin wd → ℝ) → ℝ) (hm : ∀ w, Measurable (fun x => g x w)) (hg : SquareInt P rows g) (hs : Structural P rows g)
    (i₀ : Fin n) (he : ¬ ∀ᵐ x : Fin d → ℝ, g x (rows i₀).w = rowMean P (rows i₀) g) :
    ∃ c, 0 ≤ c ∧ c < 1 ∧ ∀ c', c' ≠ c → meanLoss P rows (fun x w => c * g x w) < meanLoss P rows (fun x w => c' * g x w) := by
  have hn' : (0 : ℝ) < n := by exact_mod_cast hn
  have hl := scaled_loss P rows g hg hs
  set A := ∑ i, ∫ ω, g (Mdn.sampleRow P (rows i).z (rows i).w ω) (rows i).w ^ 2 ∂noiseLaw (Mdn.piOf P (rows i).z (rows i).w) with hA
  set B := ∑ i, rowMean P (rows i) g ^ 2 with hB
  have sm := fun i => by
    haveI := noiseProb (d := d) P (rows i).z (rows i).w
    exact second_moment _ _ (hg i)
  have hB0 : 0 ≤ B := Finset.sum_nonneg (fun i _ => sq_nonneg _)
  have hlt : B < A := by
    refine Finset.sum_lt_sum (fun i _ => (sm i).1) ⟨i₀, Finset.mem_univ _, lt_of_le_of_ne (sm i₀).1 (fun h => he ?_)⟩
    rw [← ae_draws P (rows i₀).z (rows i₀).w (fun x => g x (rows i₀).w) (hm _)]
    exact (sm i₀).2.mp h.symm
  have hA0 : 0 < A := lt_of_le_of_lt hB0 hlt
  refine ⟨B / A, div_nonneg hB0 hA0.le, (div_lt_one hA0).mpr hlt, fun c' hc => ?_⟩
  rw [hl, hl, div_lt_div_iff_of_pos_right hn']
  have h1 : (c' ^ 2 * A - 2 * c' * B) - ((B / A) ^ 2 * A - 2 * (B / A) * B) = A * (c' - B / A) ^ 2 := by field_simp; ring
  have h2 : 0 < A * (c' - B / A) ^ 2 := mul_pos hA0 (sq_pos_of_ne_zero (sub_ne_zero.mpr hc))
  linarith

/-! ## A linear effect -/

/-- the mean and the variance of the draws of a row -/
noncomputable def drawMean (P : Mdn.Weights zd ed wd h1 h2 k 1) (r : Row zd ed wd) : ℝ :=
  ∫ ω, Mdn.sampleRow P r.z r.w ω 0 ∂noiseLaw (Mdn.piOf P r.z r.w)

noncomputable def drawVar (P : Mdn.Weights zd ed wd h1 h2 k 1) (r : Row zd ed wd) : ℝ :=
  ∫ ω, (Mdn.sampleRow P r.z r.w ω 0 - drawMean P r) ^ 2 ∂noiseLaw (Mdn.piOf P r.z r.w)

theorem coord_memLp (P : Mdn.Weights zd ed wd h1 h2 k d) (z : Mdn.Input zd ed) (w : Fin wd → ℝ) (j : Fin d) :
    MemLp (fun ω => Mdn.sampleRow P z w ω j) 2 (noiseLaw (Mdn.piOf P z w)) := by
  have hms : Measurable (Mdn.sampleRow P z w) := draw_measurable _ _
  have hmj : AEStronglyMeasurable (fun ω => Mdn.sampleRow P z w ω j) (noiseLaw (Mdn.piOf P z w)) :=
    ((measurable_pi_apply j).comp hms).aestronglyMeasurable
  rw [memLp_two_iff_integrable_sq hmj]
  have h1 : Integrable (fun y : Fin d → ℝ => y j ^ 2) (mixLaw (Mdn.piOf P z w) (Mdn.muOf P z w) (Mdn.sigmaOf P z w)) := by
    unfold mixLaw
    rw [integrable_finsetSum_measure]
    intro i _
    apply Integrable.smul_measure _ ENNReal.ofReal_ne_top
    have h2 := gauss_int_sq (Mdn.muOf P z w i j) 0 (sqVar (Mdn.sigmaOf P z w i j))
    rw [← coord_law (Mdn.muOf P z w i) (fun j => sqVar (Mdn.sigmaOf P z w i j)) j] at h2
    have h3 := h2.comp_measurable (measurable_pi_apply j)
    simpa [Function.comp_def] using h3
  rw [← draw_law] at h1
  exact h1.comp_measurable hms

theorem drawVar_pos (P : Mdn.Weights zd ed wd h1 h2 k 1) (r : Row zd ed wd) : 0 < drawVar P r := by
  unfold drawVar
  rw [C156_spread]
  obtain ⟨hp, _, _, hs, _⟩ := C156_outputs P r.z r.w
  refine Finset.sum_pos (fun i _ => mul_pos (hp i) ?_) ⟨0, Finset.mem_univ _⟩
  have := pow_pos (hs i 0) 2
  have := sq_nonneg (Mdn.muOf P r.z r.w i 0 - drawMean P r)
  linarith

theorem affine_memLp (P : Mdn.Weights zd ed wd h1 h2 k 1) (r : Row zd ed wd) (α β : ℝ) :
    MemLp (fun ω => α + β * Mdn.sampleRow P r.z r.w ω 0) 2 (noiseLaw (Mdn.piOf P r.z r.w)) := by
  haveI := noiseProb (d := 1) P r.z r.w
  exact (memLp_const α).add ((coord_memLp P r.z r.w 0).const_mul β)

theorem affine_mean (P : Mdn.Weights zd ed wd h1 h2 k 1) (r : Row zd ed wd) (α β : ℝ) :
    rowMean P r (fun x _ => α + β * x 0) = α + β * drawMean P r := by
  haveI := noiseProb (d := 1) P r.z r.w
  unfold rowMean drawMean
  have i1 : Integrable (fun ω => Mdn.sampleRow P r.z r.w ω 0) (noiseLaw (Mdn.piOf P r.z r.w)) :=
    (coord_memLp P r.z r.w 0).integrable (by norm_num)
  rw [integral_add (integrable_const _) (i1.const_mul _), integral_const, integral_const_mul]
  simp

theorem affine_sq (P : Mdn.Weights zd ed wd h1 h2 k 1) (r : Row zd ed wd) (α β : ℝ) :
    ∫ ω, (α + β * Mdn.sampleRow P r.z r.w ω 0 - r.y) ^ 2 ∂noiseLaw (Mdn.piOf P r.z r.w) =
      (α + β * drawMean P r - r.y) ^ 2 + β ^ 2 * drawVar P r := by
  haveI := noiseProb (d := 1) P r.z r.w
  have i1 : Integrable (fun ω => Mdn.sampleRow P r.z r.w ω 0) (noiseLaw (Mdn.piOf P r.z r.w)) :=
    (coord_memLp P r.z r.w 0).integrable (by norm_num)
  have i2 : Integrable (fun ω => (Mdn.sampleRow P r.z r.w ω 0 - drawMean P r) ^ 2) (noiseLaw (Mdn.piOf P r.z r.w)) :=
    ((coord_memLp P r.z r.w 0).sub (memLp_const _)).integrable_sq
  set M := drawMean P r with hM
  have e : ∀ ω, (α + β * Mdn.sampleRow P r.z r.w ω 0 - r.y) ^ 2 = β ^ 2 * (Mdn.sampleRow P r.z r.w ω 0 - M) ^ 2 +
      ((2 * β * (α + β * M - r.y)) * Mdn.sampleRow P r.z r.w ω 0 +
        ((α + β * M - r.y) ^ 2 - 2 * β * (α + β * M - r.y) * M)) := fun ω => by ring
  have i3 : Integrable (fun ω => (2 * β * (α + β * M - r.y)) * Mdn.sampleRow P r.z r.w ω 0 +
        ((α + β * M - r.y) ^ 2 - 2 * β * (α + β * M - r.y) * M)) (noiseLaw (Mdn.piOf P r.z r.w)) :=
    (i1.const_mul _).add (integrable_const _)
  rw [integral_congr_ae (ae_of_all _ e), integral_add (i2.const_mul _) i3, integral_add (i1.const_mul _) (integrable_const _),
    integral_const_mul, integral_const_mul, integral_const]
  have hM' : ∫ ω, Mdn.sampleRow P r.z r.w ω 0 ∂noiseLaw (Mdn.piOf P r.z r.w) = M := rfl
  have hV : ∫ ω, (Mdn.sampleRow P r.z r.w ω 0 - M) ^ 2 ∂noiseLaw (Mdn.piOf P r.z r.w) = drawVar P r := rfl
  rw [hM', hV]
  simp only [probReal_univ, smul_eq_mul, one_mul]
  ring

theorem quad_zero (A B : ℝ) (h : ∀ t : ℝ, 0 ≤ A * t ^ 2 + 2 * B * t) : B = 0 := by
  by_contra hB
  have hA : 0 ≤ A := by
    by_contra hA
    push Not at hA
    have h1 := h (-(2 * |B| + 1) / A)
    have h2 := h ((2 * |B| + 1) / A)
    have h3 : 0 ≤ A * ((2 * |B| + 1) / A) ^ 2 := by
      have e : (-(2 * |B| + 1) / A) = -((2 * |B| + 1) / A) := by ring
      rw [e] at h1
      nlinarith
    have h4 : A * ((2 * |B| + 1) / A) ^ 2 = (2 * |B| + 1) ^ 2 / A := by field_simp
    rw [h4] at h3
    have h5 : (2 * |B| + 1) ^ 2 / A < 0 := div_neg_of_pos_of_neg (by positivity) hA
    linarith
  have h1 := h (-(B / (A + 1)))
  have hp : 0 < A + 1 := by linarith
  have h2 : A * (-(B / (A + 1))) ^ 2 + 2 * B * -(B / (A + 1)) = B ^ 2 * (A - 2 * (A + 1)) / (A + 1) ^ 2 := by
    field_simp
    ring
  rw [h2] at h1
  have h3 : B ^ 2 * (A - 2 * (A + 1)) / (A + 1) ^ 2 < 0 := by
    apply div_neg_of_neg_of_pos _ (by positivity)
    have := sq_pos_of_ne_zero hB
    nlinarith
  linarith

/-- A linear effect: if the outcome is `a + b x` plus a disturbance unrelated to instrument and adjustment, then every affine function
that minimises the expected training loss has slope `b S / (S + V)`, where `S` is the spread of the predicted treatments over the rows
and `V` the total variance of the draws. -/
theorem C157_linear (P : Mdn.Weights zd ed wd h1 h2 k 1) {n : Nat} (hn : 0 < n) (rows : Fin n → Row zd ed wd) (a b : ℝ)
    (hs : Structural P rows (fun x _ => a + b * x 0)) (α β : ℝ)
    (hmin : ∀ α' β', meanLoss P rows (fun x _ => α + β * x 0) ≤ meanLoss P rows (fun x _ => α' + β' * x 0)) :
    β * ((∑ i, (drawMean P (rows i) - (∑ j, drawMean P (rows j)) / n) ^ 2) + ∑ i, drawVar P (rows i)) =
      b * ∑ i, (drawMean P (rows i) - (∑ j, drawMean P (rows j)) / n) ^ 2 := by
  have hn' : (0 : ℝ) < n := by exact_mod_cast hn
  set T := (∑ j, drawMean P (rows j)) / n with hT
  have hl : ∀ α' β', meanLoss P rows (fun x _ => α' + β' * x 0) =
      (∑ i, ((α' + β' * drawMean P (rows i) - (rows i).y) ^ 2 + β' ^ 2 * drawVar P (rows i))) / n := by
    intro α' β'
    rw [meanLoss_eq P rows _ (fun i => affine_memLp P (rows i) α' β')]
    congr 1
    exact Finset.sum_congr rfl (fun i _ => affine_sq P (rows i) α' β')
  have hB : (∑ i, ((drawMean P (rows i) - T) * (α + β * drawMean P (rows i) - (rows i).y) + β * drawVar P (rows i))) = 0 := by
    apply quad_zero (∑ i, ((drawMean P (rows i) - T) ^ 2 + drawVar P (rows i)))
    intro t
    have h := hmin (α - t * T) (β + t)
    rw [hl, hl, div_le_div_iff_of_pos_right hn'] at h
    have h2 : ∑ i, ((α - t * T + (β + t) * drawMean P (rows i) - (rows i).y) ^ 2 + (β + t) ^ 2 * drawVar P (rows i)) -
        ∑ i, ((α + β * drawMean P (rows i) - (rows i).y) ^ 2 + β ^ 2 * drawVar P (rows i)) =
        (∑ i, ((drawMean P (rows i) - T) ^ 2 + drawVar P (rows i))) * t ^ 2 +
        2 * (∑ i, ((drawMean P (rows i) - T) * (α + β * drawMean P (rows i) - (rows i).y) + β * drawVar P (rows i))) * t := by
      rw [← Finset.sum_sub_distrib, Finset.sum_mul, Finset.mul_sum, Finset.sum_mul, ← Finset.sum_add_distrib]
      exact Finset.sum_congr rfl (fun i _ => by ring)
    linarith
  have hφ : ∑ i, (drawMean P (rows i) - T) * ((rows i).y - (a + b * drawMean P (rows i))) = 0 := by
    have := hs (fun z w => (∫ ω, Mdn.sampleRow P z w ω 0 ∂noiseLaw (Mdn.piOf P z w)) - T)
    simp only [affine_mean] at this
    exact this
  have hc : ∑ i, (drawMean P (rows i) - T) = 0 := by
    rw [Finset.sum_sub_distrib, Finset.sum_const, Finset.card_univ, Fintype.card_fin, nsmul_eq_mul, hT, mul_div_cancel₀ _ hn'.ne',
      sub_self]
  have hsum : ∑ i, ((drawMean P (rows i) - T) * (α + β * drawMean P (rows i) - (rows i).y) + β * drawVar P (rows i)) +
      ∑ i, (drawMean P (rows i) - T) * ((rows i).y - (a + b * drawMean P (rows i))) =
      (α - a + (β - b) * T) * (∑ i, (drawMean P (rows i) - T)) + (β - b) * (∑ i, (drawMean P (rows i) - T) ^ 2) +
        β * ∑ i, drawVar P (rows i) := by
    rw [Finset.mul_sum, Finset.mul_sum, Finset.mul_sum, ← Finset.sum_add_distrib, ← Finset.sum_add_distrib, ← Finset.sum_add_distrib]
    exact Finset.sum_congr rfl (fun i _ => by ring)
  rw [hB, hφ, hc] at hsum
  linarith

/-- so its slope is strictly closer to zero than the effect -/
theorem C157_linear_refuted (P : Mdn.Weights zd ed wd h1 h2 k 1) {n : Nat} (hn : 0 < n) (rows : Fin n → Row zd ed wd) (a b : ℝ) (hb : b ≠ 0)
    (hs : Structural P rows (fun x _ => a + b * x 0)) (α β : ℝ)
    (hmin : ∀ α' β', meanLoss P rows (fun x _ => α + β * x 0) ≤ meanLoss P rows (fun x _ => α' + β' * x 0)) : |β| < |b| := by
  have h := C157_linear P hn rows a b hs α β hmin
  have hV : 0 < ∑ i, drawVar P (rows i) := Finset.sum_pos (fun i _ => drawVar_pos P (rows i)) ⟨⟨0, hn⟩, Finset.mem_univ _⟩
  have hS : 0 ≤ ∑ i, (drawMean P (rows i) - (∑ j, drawMean P (rows j)) / n) ^ 2 := Finset.sum_nonneg (fun i _ => sq_nonneg _)
  set S := ∑ i, (drawMean P (rows i) - (∑ j, drawMean P (rows j)) / n) ^ 2
  set V := ∑ i, drawVar P (rows i)
  have h2 : |β| * (S + V) = |b| * S := by
    have := congrArg abs h
    rwa [abs_mul, abs_mul, abs_of_nonneg hS, abs_of_nonneg (by linarith : 0 ≤ S + V)] at this
  have hb' : 0 < |b| := abs_pos.mpr hb
  by_contra hle
  push Not at hle
  have : |b| * (S + V) ≤ |β| * (S + V) := mul_le_mul_of_nonneg_right hle (by linarith)
  nlinarith

/-! ### A concrete case: the mean of the treatment is the instrument -/

/-- a network of one component that predicts the instrument, with scale one -/
noncomputable def echoNet : Mdn.Weights 1 1 0 1 1 0 1 :=
  { embed := fun _ _ => 0, w1 := fun _ _ => 1, b1 := fun _ => 0, w2 := fun _ _ => 1, b2 := fun _ => 0, wpi := fun _ _ => 0, bpi := fun _ => 0,
    wmu := fun _ _ => 1, bmu := fun _ => 0, wsg := fun _ _ => 0, bsg := fun _ => 0, bound := 200 }

theorem echo_out (c : ℝ) (hc : 0 < c) (w : Fin 0 → ℝ) : Mdn.muOf echoNet (.row (fun _ => c)) w 0 0 = c ∧
    Mdn.sigmaOf echoNet (.row (fun _ => c)) w 0 0 = 1 ∧ Mdn.piOf echoNet (.row (fun _ => c)) w 0 = 1 := by
  have happ : ∀ q : Fin (1 + 0), Fin.append (fun _ : Fin 1 => c) w q = c := by
    intro q
    have : q = Fin.castAdd 0 (0 : Fin 1) := by fin_cases q; rfl
    rw [this, Fin.append_left]
  refine ⟨?_, ?_, ?_⟩
  · simp [Mdn.muOf, echoNet, Mdn.linear, Mdn.hiddenRow, Mdn.embedded, happ, Mdn.elu, hc]
  · simp [Mdn.sigmaOf, echoNet, Mdn.linear, Mdn.clamp]
  · have := (C156_outputs echoNet (.row (fun _ => c)) w).2.1
    rwa [Fin.sum_univ_one] at this

/-- two rows with instruments 1 and 2 and outcomes 1 and 2 -/
noncomputable def echoRows : Fin 2 → Row 1 1 0 := fun i => ⟨.row (fun _ => (i.val : ℝ) + 1), fun _ => 0, (i.val : ℝ) + 1⟩

theorem echo_mean (i : Fin 2) : drawMean echoNet (echoRows i) = (i.val : ℝ) + 1 ∧ drawVar echoNet (echoRows i) = 1 := by
  have hc : (0 : ℝ) < (i.val : ℝ) + 1 := by positivity
  obtain ⟨h1, h2, h3⟩ := echo_out ((i.val : ℝ) + 1) hc (fun _ => 0)
  have hm : drawMean echoNet (echoRows i) = (i.val : ℝ) + 1 := by
    unfold drawMean echoRows
    rw [C156_mean, Fin.sum_univ_one, h1, h3, one_mul]
  refine ⟨hm, ?_⟩
  unfold drawVar
  rw [C156_spread, hm]
  unfold echoRows
  rw [Fin.sum_univ_one, h1, h2, h3]
  ring

/-- The effect of the treatment is one, instrument and treatment network are perfect, and the affine function that minimises the
expected loss has slope one fifth. -/
theorem C157_fifth_refuted : Structural echoNet echoRows (fun x _ => 0 + 1 * x 0) ∧
    ∀ α β, meanLoss echoNet echoRows (fun x _ => 6 / 5 + (1 / 5) * x 0) ≤ meanLoss echoNet echoRows (fun x _ => α + β * x 0) := by
  constructor
  · intro φ
    refine Finset.sum_eq_zero (fun i _ => ?_)
    rw [affine_mean, (echo_mean i).1]
    simp [echoRows]
  · intro α β
    have hl : ∀ α' β' : ℝ, meanLoss echoNet echoRows (fun x _ => α' + β' * x 0) =
        ((α' + β' - 1) ^ 2 + (α' + 2 * β' - 2) ^ 2 + 2 * β' ^ 2) / 2 := by
      intro α' β'
      rw [meanLoss_eq echoNet echoRows _ (fun i => affine_memLp echoNet (echoRows i) α' β')]
      rw [Finset.sum_congr rfl (fun i _ => affine_sq echoNet (echoRows i) α' β')]
      have hy : ∀ i : Fin 2, (echoRows i).y = (i.val : ℝ) + 1 := fun i => rfl
      rw [Fin.sum_univ_two, (echo_mean 0).1, (echo_mean 0).2, (echo_mean 1).1, (echo_mean 1).2, hy, hy]
      norm_num
      ring
    rw [hl, hl]
    nlinarith [sq_nonneg (2 * α + 3 * β - 3), sq_nonneg (5 * β - 1)]

/-- the hypotheses of `C157_attenuation` and `C157_structural_refuted` hold there -/
example : ∃ c, 0 ≤ c ∧ c < 1 ∧ ∀ c', c' ≠ c → meanLoss echoNet echoRows (fun x _ => c * (0 + 1 * x 0)) <
    meanLoss echoNet echoRows (fun x _ => c' * (0 + 1 * x 0)) := by
  have hg : SquareInt echoNet echoRows (fun x _ => 0 + 1 * x 0) := fun i => affine_memLp echoNet (echoRows i) 0 1
  have hm : ∀ w : Fin 0 → ℝ, Measurable (fun x : Fin 1 → ℝ => 0 + 1 * x 0) := fun w => by fun_prop
  refine C157_attenuation echoNet (by norm_num) echoRows _ hm hg C157_fifth_refuted.1 0 (fun h => ?_)
  have h1 := (ae_draws echoNet (echoRows 0).z (echoRows 0).w (fun x => 0 + 1 * x 0) (hm (echoRows 0).w) _).mpr h
  have h2 : drawVar echoNet (echoRows 0) = 0 := by
    unfold drawVar
    rw [integral_congr_ae (g := fun _ => (0 : ℝ))]
    · simp
    · filter_upwards [h1] with ω hω
      rw [affine_mean] at hω
      have : Mdn.sampleRow echoNet (echoRows 0).z (echoRows 0).w ω 0 = drawMean echoNet (echoRows 0) := by linarith
      rw [this]; ring
  rw [(echo_mean 0).2] at h2
  norm_num at h2

/-! ## A discrete treatment: the outcome network converges to the structural function -/

section Discrete

open DeepIV

/-- the prediction of a structural function in row `b`, given the treatment probabilities -/
def mixedMean (g : Nat → List ℚ → ℚ) (xd : Nat) (X W : List (List ℚ)) (b : Nat) : ℚ :=
  ((List.range xd).map (fun k => (X.getD b []).getD k 0 * g k (W.getD b []))).sum

/-- With exact treatment probabilities and an outcome that is a structural function of treatment and adjustment plus a disturbance
unrelated to functions of them, a network that equals the structural function minimises the training loss; and a network minimises
it exactly when it has the same mean in every row. -/
theorem C157_discrete (g : Nat → List ℚ → ℚ) (xd : Nat) (X W y : List (List ℚ)) (hne : W ≠ [])
    (hs : ∀ φ : List ℚ → List ℚ → ℚ, ∑ b ∈ Finset.range W.length, φ (X.getD b []) (W.getD b []) *
      ((y.getD b []).getD 0 0 - mixedMean g xd X W b) = 0) (f₀ f : Inp → List ℚ → List ℚ)
    (h₀ : ∀ k w, (f₀ (.label k) w).getD 0 0 = g k w) :
    mixLoss f₀ xd X W y ≤ mixLoss f xd X W y ∧
    (mixLoss f xd X W y = mixLoss f₀ xd X W y ↔
      ∀ b < W.length, mixedMean (fun k w => (f (.label k) w).getD 0 0) xd X W b = mixedMean g xd X W b) := by
  have hn : (0 : ℚ) < W.length := by exact_mod_cast List.length_pos_iff.mpr hne
  have hp : ∀ (F : Inp → List ℚ → List ℚ), mixLoss F xd X W y =
      (∑ b ∈ Finset.range W.length, (mixedMean (fun k w => (F (.label k) w).getD 0 0) xd X W b - (y.getD b []).getD 0 0) ^ 2) / W.length := by
    intro F
    unfold mixLoss
    congr 1
    refine Finset.sum_congr rfl (fun b hb => ?_)
    rw [C135_mixture_prediction F xd 1 X W b 0 (Finset.mem_range.mp hb) one_pos]
    rfl
  have hg : (fun k w => (f₀ (.label k) w).getD 0 0) = g := by funext k w; exact h₀ k w
  set m := mixedMean g xd X W with hm
  set q := mixedMean (fun k w => (f (.label k) w).getD 0 0) xd X W with hq
  have hx : ∑ b ∈ Finset.range W.length, (q b - m b) * ((y.getD b []).getD 0 0 - m b) = 0 := by
    have := hs (fun x w => ((List.range xd).map (fun k => x.getD k 0 * (f (.label k) w).getD 0 0)).sum -
      ((List.range xd).map (fun k => x.getD k 0 * g k w)).sum)
    exact this
  have key : ∑ b ∈ Finset.range W.length, (q b - (y.getD b []).getD 0 0) ^ 2 =
      ∑ b ∈ Finset.range W.length, (m b - (y.getD b []).getD 0 0) ^ 2 + ∑ b ∈ Finset.range W.length, (q b - m b) ^ 2 := by
    have : ∑ b ∈ Finset.range W.length, (q b - (y.getD b []).getD 0 0) ^ 2 =
        ∑ b ∈ Finset.range W.length, (m b - (y.getD b []).getD 0 0) ^ 2 + ∑ b ∈ Finset.range W.length, (q b - m b) ^ 2 -
        2 * ∑ b ∈ Finset.range W.length, (q b - m b) * ((y.getD b []).getD 0 0 - m b) := by
      rw [Finset.mul_sum, ← Finset.sum_add_distrib, ← Finset.sum_sub_distrib]
      exact Finset.sum_congr rfl (fun b _ => by ring)
    rw [this, hx]; ring
  have hpos : 0 ≤ ∑ b ∈ Finset.range W.length, (q b - m b) ^ 2 := Finset.sum_nonneg (fun b _ => sq_nonneg _)
  rw [hp f₀, hp f, hg, ← hm, ← hq]
  constructor
  · rw [div_le_div_iff_of_pos_right hn]
    linarith
  · rw [div_left_inj' hn.ne', key]
    constructor
    · intro h b hb
      have h0 : ∑ b ∈ Finset.range W.length, (q b - m b) ^ 2 = 0 := by linarith
      have := (Finset.sum_eq_zero_iff_of_nonneg (fun b _ => sq_nonneg _)).mp h0 b (Finset.mem_range.mpr hb)
      exact sub_eq_zero.mp (pow_eq_zero_iff two_ne_zero |>.mp this)
    · intro h
      have h0 : ∑ b ∈ Finset.range W.length, (q b - m b) ^ 2 = 0 :=
        Finset.sum_eq_zero (fun b hb => by rw [h b (Finset.mem_range.mp hb)]; ring)
      linarith

/-- If moreover the treatment probabilities of the rows with adjustment `w` determine the treatment values (the instrument is relevant),
every minimiser equals the structural function there. -/
theorem C157_discrete_unique (g : Nat → List ℚ → ℚ) (xd : Nat) (X W y : List (List ℚ)) (hne : W ≠ [])
    (hs : ∀ φ : List ℚ → List ℚ → ℚ, ∑ b ∈ Finset.range W.length, φ (X.getD b []) (W.getD b []) *
      ((y.getD b []).getD 0 0 - mixedMean g xd X W b) = 0) (f : Inp → List ℚ → List ℚ)
    (hmin : ∀ f', mixLoss f xd X W y ≤ mixLoss f' xd X W y) (w : List ℚ)
    (hrel : ∀ v : Nat → ℚ, (∀ b < W.length, W.getD b [] = w → ((List.range xd).map (fun k => (X.getD b []).getD k 0 * v k)).sum = 0) →
      ∀ k < xd, v k = 0) : ∀ k < xd, (f (.label k) w).getD 0 0 = g k w := by
  let f₀ : Inp → List ℚ → List ℚ := fun i w => match i with
    | .label k => [g k w]
    | .vec _ => []
  have h₀ : ∀ k w, (f₀ (.label k) w).getD 0 0 = g k w := fun k w => rfl
  obtain ⟨h1, h2⟩ := C157_discrete g xd X W y hne hs f₀ f h₀
  have h3 := h2.mp (le_antisymm (hmin f₀) h1)
  intro k hk
  have := hrel (fun k => (f (.label k) w).getD 0 0 - g k w) (fun b hb hw => ?_) k hk
  · exact sub_eq_zero.mp this
  · have h4 := h3 b hb
    unfold mixedMean at h4
    rw [hw] at h4
    have e : ∀ l : List Nat, (l.map (fun k => (X.getD b []).getD k 0 * ((f (.label k) w).getD 0 0 - g k w))).sum =
        (l.map (fun k => (X.getD b []).getD k 0 * (f (.label k) w).getD 0 0)).sum - (l.map (fun k => (X.getD b []).getD k 0 * g k w)).sum := by
      intro l
      induction l with
      | nil => simp
      | cons a l ih => simp only [List.map_cons, List.sum_cons, ih]; ring
    rw [e, h4, sub_self]

/-- two rows with different treatment probabilities: the hypotheses hold, and the values of the two treatments are determined -/
example : (∀ φ : List ℚ → List ℚ → ℚ, ∑ b ∈ Finset.range ([[0], [0]] : List (List ℚ)).length,
      φ (([[1/4, 3/4], [1/2, 1/2]] : List (List ℚ)).getD b []) (([[0], [0]] : List (List ℚ)).getD b []) *
      (((([[11/2], [4]] : List (List ℚ)).getD b []).getD 0 0) - mixedMean (fun k _ => 1 + 6 * k) 2 [[1/4, 3/4], [1/2, 1/2]] [[0], [0]] b) = 0) ∧
    (∀ v : Nat → ℚ, (∀ b < 2, ((List.range 2).map (fun k => ((([[1/4, 3/4], [1/2, 1/2]] : List (List ℚ)).getD b []).getD k 0 * v k))).sum = 0) →
      ∀ k < 2, v k = 0) := by
  constructor
  · intro φ
    simp [Finset.sum_range_succ, mixedMean, List.range_succ]
    norm_num
  · intro v hv k hk
    have h0 := hv 0 (by norm_num)
    have h1 := hv 1 (by norm_num)
    simp [List.range_succ] at h0 h1
    have e1 : v 1 = 0 := by linarith
    have e0 : v 0 = 0 := by linarith
    interval_cases k
    · exact e0
    · exact e1

end Discrete

end YL.Props
