import Verif.Model.BNNodes
import Mathlib.Analysis.SpecialFunctions.Log.Basic
import Mathlib.Analysis.Complex.ExponentialBounds
import Mathlib.Analysis.Convex.SpecificFunctions.Basic
import Mathlib.Tactic.FieldSimp
import Mathlib.Tactic.FinCases
import Mathlib.Algebra.BigOperators.Fin
import Mathlib.Algebra.BigOperators.Field

/-!
# C152: which distributions the nodes of a Bayesian network can have
-/

set_option linter.unusedSectionVars false

namespace YL.Props

open YL BNN

noncomputable section

variable {n K : Nat}

theorem catDen_pos (hK : 0 < K) (l : Fin K → ℝ) : 0 < ∑ j, Real.exp (l j) := by
  haveI : Nonempty (Fin K) := ⟨⟨0, hK⟩⟩
  exact Finset.sum_pos (fun j _ => Real.exp_pos _) Finset.univ_nonempty

/-- the chord of the exponential function -/
theorem exp_le_chord (S t : ℝ) (hS : 0 < S) (h0 : 0 ≤ t) (h1 : t ≤ S) : Real.exp t ≤ 1 + t * ((Real.exp S - 1) / S) := by
  have hc := convexOn_exp.2 (Set.mem_univ (0 : ℝ)) (Set.mem_univ S) (show 0 ≤ 1 - t / S by rw [sub_nonneg, div_le_one hS]; exact h1) (div_nonneg h0 hS.le) (by ring)
  simp only [smul_eq_mul, mul_zero, zero_add, Real.exp_zero, mul_one] at hc
  rw [div_mul_cancel₀ _ hS.ne'] at hc
  have : 1 - t / S + t / S * Real.exp S = 1 + t * ((Real.exp S - 1) / S) := by ring
  linarith

/-- logits that are not negative and have the sum `S`: every probability is between `1 / (e^S + K - 1)` and `e^S / (e^S + K - 1)` -/
theorem categorical_bounds (l : Fin K → ℝ) (S : ℝ) (h0 : ∀ k, 0 ≤ l k) (hS : ∑ k, l k = S) (k : Fin K) :
    1 / (Real.exp S + K - 1) ≤ categorical l k ∧ categorical l k ≤ Real.exp S / (Real.exp S + K - 1) := by
  classical
  have hK : 0 < K := lt_of_le_of_lt (Nat.zero_le _) k.2
  have hK1 : (1 : ℝ) ≤ K := by exact_mod_cast hK
  have hle : ∀ k, l k ≤ S := fun k => by rw [← hS]; exact Finset.single_le_sum (fun j _ => h0 j) (Finset.mem_univ k)
  have hS0 : 0 ≤ S := (h0 k).trans (hle k)
  have hden := catDen_pos hK l
  have hE : 0 < Real.exp S := Real.exp_pos S
  have hD : 0 < Real.exp S + K - 1 := by linarith
  have hcard : ((Finset.univ.erase k).card : ℝ) = K - 1 := by
    rw [Finset.card_erase_of_mem (Finset.mem_univ k), Finset.card_univ, Fintype.card_fin, Nat.cast_sub hK, Nat.cast_one]
  unfold categorical
  constructor
  · rw [div_le_div_iff₀ hD hden, one_mul]
    have hup : ∑ j, Real.exp (l j) ≤ Real.exp S + K - 1 := by
      rcases hS0.lt_or_eq with hpos | hz
      · have h1 := Finset.sum_le_sum (fun (j : Fin K) (_ : j ∈ Finset.univ) => exp_le_chord S (l j) hpos (h0 j) (hle j))
        rw [Finset.sum_add_distrib, ← Finset.sum_mul, hS, Finset.sum_const, Finset.card_univ, Fintype.card_fin, nsmul_eq_mul, mul_one,
          mul_div_cancel₀ _ hpos.ne'] at h1
        linarith
      · have hall : ∀ j, l j = 0 := fun j => le_antisymm ((hle j).trans hz.ge) (h0 j)
        simp only [hall, ← hz, Real.exp_zero, Finset.sum_const, Finset.card_univ, Fintype.card_fin, nsmul_eq_mul, mul_one]
        linarith
    have h1 : 1 ≤ Real.exp (l k) := Real.one_le_exp (h0 k)
    nlinarith
  · rw [div_le_div_iff₀ hden hD]
    have hlow : Real.exp (l k) + (K - 1) ≤ ∑ j, Real.exp (l j) := by
      rw [← Finset.add_sum_erase _ _ (Finset.mem_univ k)]
      have h2 : ∑ j ∈ Finset.univ.erase k, (1 : ℝ) ≤ ∑ j ∈ Finset.univ.erase k, Real.exp (l j) :=
        Finset.sum_le_sum (fun j _ => Real.one_le_exp (h0 j))
      rw [Finset.sum_const, nsmul_eq_mul, mul_one, hcard] at h2
      linarith
    have h1 : Real.exp (l k) ≤ Real.exp S := Real.exp_le_exp.2 (hle k)
    have h3 : Real.exp (l k) * (K - 1) ≤ Real.exp S * (K - 1) := mul_le_mul_of_nonneg_right h1 (by linarith)
    nlinarith [mul_le_mul_of_nonneg_left hlow hE.le]

/-- C152. The probabilities of a categorical node are probabilities: positive, with sum one - whatever its weights and the values of its parents. -/
theorem C152_probabilities (hK : 0 < K) (l : Fin K → ℝ) : (∀ k, 0 < categorical l k) ∧ ∑ k, categorical l k = 1 := by
  have hden := catDen_pos hK l
  refine ⟨fun k => div_pos (Real.exp_pos _) hden, ?_⟩
  unfold categorical
  rw [← Finset.sum_div, div_self hden.ne']

/-- C152. A categorical node without parents: whatever the data and the training, each of its `K` classes has a probability between `1 / (e + K - 1)` and `e / (e + K - 1)` (0.269 and 0.731 for two
classes). Both bounds are attained. -/
theorem C152_root (w : Fin K → ℝ) (hw : OnSimplex w) (k : Fin K) :
    1 / (Real.exp 1 + K - 1) ≤ niCategorical w k ∧ niCategorical w k ≤ Real.exp 1 / (Real.exp 1 + K - 1) :=
  categorical_bounds w 1 hw.1 hw.2 k

/-- C152. Exactly which distributions a categorical node without parents can have: a positive distribution `p` can be learned if and only if, for every class `k`, the sum of the logarithms of the ratios
`p j / p k` is at most 1. -/
theorem C152_root_exact (hK : 0 < K) (p : Fin K → ℝ) (hp : ∀ k, 0 < p k) (h1 : ∑ k, p k = 1) :
    (∃ w, OnSimplex w ∧ ∀ k, niCategorical w k = p k) ↔ ∀ k, ∑ j, Real.log (p j / p k) ≤ 1 := by
  have hK' : (0 : ℝ) < K := Nat.cast_pos.2 hK
  have hexp : ∀ k, ∑ j, Real.log (p j / p k) = ∑ j, Real.log (p j) - K * Real.log (p k) := by
    intro k
    rw [Finset.sum_congr rfl (fun j _ => Real.log_div (hp j).ne' (hp k).ne'), Finset.sum_sub_distrib, Finset.sum_const, Finset.card_univ, Fintype.card_fin, nsmul_eq_mul]
  constructor
  · rintro ⟨w, hw, hwp⟩ k
    have hden := catDen_pos hK w
    have hlog : ∀ j, Real.log (p j) = w j - Real.log (∑ i, Real.exp (w i)) := by
      intro j
      rw [← hwp j]
      unfold niCategorical categorical
      rw [Real.log_div (Real.exp_pos _).ne' hden.ne', Real.log_exp]
    rw [hexp]
    simp only [hlog, Finset.sum_sub_distrib, Finset.sum_const, Finset.card_univ, Fintype.card_fin, nsmul_eq_mul, hw.2]
    have := mul_nonneg hK'.le (hw.1 k)
    linarith
  · intro h
    refine ⟨fun k => Real.log (p k) + (1 - ∑ j, Real.log (p j)) / K, ⟨fun k => ?_, ?_⟩, fun k => ?_⟩
    · have h2 := h k
      rw [hexp] at h2
      have h3 : Real.log (p k) + (1 - ∑ j, Real.log (p j)) / K = (1 - (∑ j, Real.log (p j) - K * Real.log (p k))) / K := by
        field_simp; ring
      show 0 ≤ Real.log (p k) + (1 - ∑ j, Real.log (p j)) / K
      rw [h3]
      exact div_nonneg (by linarith) hK'.le
    · rw [Finset.sum_add_distrib, Finset.sum_const, Finset.card_univ, Fintype.card_fin, nsmul_eq_mul]
      field_simp
      ring
    · unfold niCategorical categorical
      have e : ∀ j, Real.exp (Real.log (p j) + (1 - ∑ j, Real.log (p j)) / K) = p j * Real.exp ((1 - ∑ j, Real.log (p j)) / K) := fun j => by
        rw [Real.exp_add, Real.exp_log (hp j)]
      simp only [e]
      rw [← Finset.sum_mul, h1, one_mul]
      exact mul_div_cancel_right₀ _ (Real.exp_pos _).ne'

theorem linear_sum (W : Fin n → Fin K → ℝ) (hW : DirichletRows W) (x : Fin n → ℝ) : ∑ k, linear W x k = ∑ i, x i := by
  unfold linear
  rw [Finset.sum_comm]
  refine Finset.sum_congr rfl (fun i _ => ?_)
  rw [← Finset.mul_sum, (hW i).2, mul_one]

theorem linear_nonneg (W : Fin n → Fin K → ℝ) (hW : DirichletRows W) (x : Fin n → ℝ) (hx : ∀ i, 0 ≤ x i) (k : Fin K) : 0 ≤ linear W x k :=
  Finset.sum_nonneg (fun i _ => mul_nonneg (hx i) ((hW i).1 k))

/-- C152. A categorical node with parents: if the parents have the codes `x i` (0 for the first class, 1 for the second, ...), each of the `K` classes has a probability between `1 / (e^S + K - 1)` and
`e^S / (e^S + K - 1)` with `S` the sum of the codes, whatever the data and the training. -/
theorem C152_linear (W : Fin n → Fin K → ℝ) (hW : DirichletRows W) (x : Fin n → ℝ) (hx : ∀ i, 0 ≤ x i) (k : Fin K) :
    1 / (Real.exp (∑ i, x i) + K - 1) ≤ linearCategorical W x k ∧ linearCategorical W x k ≤ Real.exp (∑ i, x i) / (Real.exp (∑ i, x i) + K - 1) :=
  categorical_bounds _ _ (linear_nonneg W hW x hx) (linear_sum W hW x) k

/-- C152. The bounds of `C152_linear` (and of `C152_root`) are attained: with all weight on class `k`, class `k` has the largest of these probabilities and every other class the smallest. -/
theorem C152_linear_sharp (x : Fin n → ℝ) (k : Fin K) : ∃ W : Fin n → Fin K → ℝ, DirichletRows W ∧
    linearCategorical W x k = Real.exp (∑ i, x i) / (Real.exp (∑ i, x i) + K - 1) ∧
    ∀ j ≠ k, linearCategorical W x j = 1 / (Real.exp (∑ i, x i) + K - 1) := by
  classical
  have hK : 0 < K := lt_of_le_of_lt (Nat.zero_le _) k.2
  have hcard : ((Finset.univ.erase k).card : ℝ) = K - 1 := by
    rw [Finset.card_erase_of_mem (Finset.mem_univ k), Finset.card_univ, Fintype.card_fin, Nat.cast_sub hK, Nat.cast_one]
  have hl : ∀ j, linear (fun (_ : Fin n) (j : Fin K) => if j = k then (1 : ℝ) else 0) x j = if j = k then ∑ i, x i else 0 := by
    intro j
    unfold linear
    by_cases h : j = k <;> simp [h]
  have hden : ∑ j, Real.exp (linear (fun (_ : Fin n) (j : Fin K) => if j = k then (1 : ℝ) else 0) x j) = Real.exp (∑ i, x i) + K - 1 := by
    rw [← Finset.add_sum_erase _ _ (Finset.mem_univ k), hl, if_pos rfl]
    rw [Finset.sum_congr rfl (fun j hj => show Real.exp (linear _ x j) = 1 by rw [hl, if_neg (Finset.ne_of_mem_erase hj), Real.exp_zero]), Finset.sum_const, nsmul_eq_mul, mul_one, hcard]
    ring
  refine ⟨fun _ j => if j = k then 1 else 0, fun i => ⟨fun j => ?_, by simp⟩, ?_, fun j hj => ?_⟩
  · dsimp only; split_ifs <;> norm_num
  · unfold linearCategorical categorical
    rw [hden, hl, if_pos rfl]
  · unfold linearCategorical categorical
    rw [hden, hl, if_neg hj, Real.exp_zero]

/-- C152, refuted: that a node can learn its distribution given its parents. If all parents take their first class, the node is uniformly distributed over its classes, for all data and after any training. -/
theorem C152_first_class_refuted (W : Fin n → Fin K → ℝ) (k : Fin K) : linearCategorical W (fun _ => 0) k = 1 / K := by
  unfold linearCategorical categorical linear
  simp

/-- C152. A larger network does not help: for all inputs that are not negative (codes of classes are not) the `MLPCategorical` node is a `LinearCategorical` node, with one and the same matrix of weights in the support. -/
theorem C152_mlp : ∀ {n K : Nat} (L : Layers n K), DirichletLayers L → ∃ W : Fin n → Fin K → ℝ, DirichletRows W ∧
    ∀ x : Fin n → ℝ, (∀ i, 0 ≤ x i) → ∀ k, mlpCategorical L x k = linearCategorical W x k := by
  have key : ∀ {n K : Nat} (L : Layers n K), DirichletLayers L → ∃ W : Fin n → Fin K → ℝ, DirichletRows W ∧
      ∀ x : Fin n → ℝ, (∀ i, 0 ≤ x i) → mlp L x = linear W x := by
    intro n K L
    induction L with
    | last W => exact fun h => ⟨W, h, fun x _ => rfl⟩
    | @more n m K V rest ih =>
      rintro ⟨hV, hrest⟩
      obtain ⟨W, hW, hmlp⟩ := ih hrest
      have hprod : ∀ x : Fin n → ℝ, linear W (linear V x) = linear (fun i k => linear W (V i) k) x := by
        intro x
        funext k
        unfold linear
        simp only [Finset.sum_mul, Finset.mul_sum]
        rw [Finset.sum_comm]
        refine Finset.sum_congr rfl (fun i _ => Finset.sum_congr rfl (fun j _ => by ring))
      refine ⟨fun i k => linear W (V i) k, fun i => ⟨fun k => linear_nonneg W hW _ (hV i).1 k, ?_⟩, fun x hx => ?_⟩
      · rw [linear_sum W hW, (hV i).2]
      · have hel : (fun k => elu (linear V x k)) = linear V x := by
          funext k
          unfold elu
          rcases (linear_nonneg V hV x hx k).lt_or_eq with h | h
          · rw [if_pos h]
          · rw [← h, if_neg (lt_irrefl _), Real.exp_zero, sub_self]
        show mlp rest (fun k => elu (linear V x k)) = _
        rw [hel, hmlp _ (linear_nonneg V hV x hx), hprod]
  intro n K L hL
  obtain ⟨W, hW, h⟩ := key L hL
  exact ⟨W, hW, fun x hx k => by unfold mlpCategorical linearCategorical; rw [h x hx]⟩

/-- C152. The effect of a two-valued treatment on a class of an outcome whose only parent is the treatment: the difference of the probabilities under the second and the first value of the treatment - what
`estimate` averages - lies between `1 / (e + K - 1) - 1 / K` and `e / (e + K - 1) - 1 / K`, whatever the data. -/
theorem C152_effect (W : Fin 1 → Fin K → ℝ) (hW : DirichletRows W) (k : Fin K) :
    1 / (Real.exp 1 + K - 1) - 1 / K ≤ linearCategorical W (fun _ => 1) k - linearCategorical W (fun _ => 0) k ∧
      linearCategorical W (fun _ => 1) k - linearCategorical W (fun _ => 0) k ≤ Real.exp 1 / (Real.exp 1 + K - 1) - 1 / K := by
  obtain ⟨h1, h2⟩ := C152_linear W hW (fun _ => 1) (fun _ => zero_le_one) k
  rw [C152_first_class_refuted]
  simp only [Finset.univ_unique, Finset.sum_const, Finset.card_singleton, one_smul] at h1 h2
  exact ⟨by linarith, by linarith⟩

/-- C152, refuted: that a network learns a deterministic relation. If a two-valued outcome is a copy of its two-valued parent - the true effect is 1 - no fitted network says that the effect is larger than 0.232. -/
theorem C152_copy_refuted (W : Fin 1 → Fin 2 → ℝ) (hW : DirichletRows W) :
    linearCategorical W (fun _ => 1) 1 - linearCategorical W (fun _ => 0) 1 < 0.232 ∧ linearCategorical W (fun _ => 0) 0 = 1 / 2 := by
  refine ⟨?_, by rw [C152_first_class_refuted]; norm_num⟩
  refine lt_of_le_of_lt (C152_effect W hW 1).2 ?_
  have he := Real.exp_one_lt_d9
  have he' := Real.exp_one_gt_d9
  push_cast
  rw [div_sub_div _ _ (by linarith) (by norm_num), div_lt_iff₀ (by nlinarith)]
  nlinarith

/-- C152. Numerical nodes are different: every affine function of the parents' values is the mean for suitable weights (all values of the weights are in the support of their prior), and only those. -/
theorem C152_normal (f : (Fin n → ℝ) → ℝ) :
    (∃ w b, ∀ x, linearNormalMean w b x = f x) ↔ ∃ (c : Fin n → ℝ) (a : ℝ), ∀ x, f x = a + ∑ i, c i * x i := by
  have h : ∀ w b x, linearNormalMean w b x = b + ∑ i : Fin n, w i * x i := fun w b x => by
    unfold linearNormalMean linearBias linear
    rw [add_comm]
    refine congrArg (_ + ·) (Finset.sum_congr rfl (fun i _ => mul_comm _ _))
  constructor
  · rintro ⟨w, b, hf⟩
    exact ⟨w, b, fun x => by rw [← hf, h]⟩
  · rintro ⟨c, a, hf⟩
    exact ⟨c, a, fun x => by rw [hf, h]⟩

/-- non-vacuity: weights for two parents and three classes; the probabilities for the codes (1, 0) and (0, 0) -/
example : ∃ W : Fin 2 → Fin 3 → ℝ, DirichletRows W ∧ linearCategorical W ![1, 0] 0 = Real.exp 1 / (Real.exp 1 + 2) ∧ linearCategorical W ![0, 0] 2 = 1 / 3 ∧
    DirichletLayers (.more W (.last (fun i j => if i = j then 1 else 0))) := by
  have hW : DirichletRows (fun (i : Fin 2) (k : Fin 3) => if i = 0 then (if k = 0 then (1 : ℝ) else 0) else if k = 0 then 0 else 1 / 2) := by
    intro i
    refine ⟨fun k => ?_, ?_⟩
    · dsimp only; split_ifs <;> norm_num
    · fin_cases i <;> simp [Fin.sum_univ_three] <;> norm_num
  refine ⟨_, hW, ?_, ?_, hW, fun i => ⟨fun k => ?_, by simp⟩⟩
  · simp [linearCategorical, categorical, linear, Fin.sum_univ_two, Fin.sum_univ_three]
    ring
  · simp [linearCategorical, categorical, linear, Fin.sum_univ_two, Fin.sum_univ_three]
  · dsimp only; split_ifs <;> norm_num

/-- non-vacuity of `C152_root_exact`: 2/3 and 1/3 can be learned, 9/10 and 1/10 cannot -/
example : (∃ w : Fin 2 → ℝ, OnSimplex w ∧ ∀ k, niCategorical w k = ![2 / 3, 1 / 3] k) ∧ ¬ ∃ w : Fin 2 → ℝ, OnSimplex w ∧ ∀ k, niCategorical w k = ![9 / 10, 1 / 10] k := by
  have h2 : Real.log 2 ≤ 1 := by have := Real.log_two_lt_d9; linarith
  constructor
  · rw [C152_root_exact (by norm_num) _ (fun k => by fin_cases k <;> norm_num) (by norm_num [Fin.sum_univ_two])]
    intro k
    fin_cases k
    · norm_num [Fin.sum_univ_two]
      rw [one_div, Real.log_inv]
      have := Real.log_two_gt_d9
      linarith
    · norm_num [Fin.sum_univ_two]
      exact h2
  · rw [C152_root_exact (by norm_num) _ (fun k => by fin_cases k <;> norm_num) (by norm_num [Fin.sum_univ_two])]
    intro h
    have h1 := h 1
    norm_num [Fin.sum_univ_two] at h1
    have h9 : Real.log 9 = 2 * Real.log 3 := by
      rw [show (9 : ℝ) = 3 ^ 2 by norm_num, Real.log_pow]; norm_num
    have h3 : Real.log 2 ≤ Real.log 3 := Real.log_le_log (by norm_num) (by norm_num)
    have := Real.log_two_gt_d9
    linarith

end

end YL.Props
