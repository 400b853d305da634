import Mathlib.LinearAlgebra.Matrix.NonsingularInverse
import Mathlib.LinearAlgebra.Matrix.ToLinearEquiv
import Mathlib.LinearAlgebra.Matrix.Adjugate
import Mathlib.Data.Real.Basic
import Mathlib.Algebra.Order.BigOperators.Ring.Finset
import Mathlib.Data.Finset.Max
import Mathlib.Tactic.Linarith
import Mathlib.Tactic.Positivity
import Mathlib.Tactic.FieldSimp
import Mathlib.Tactic.Ring
import Verif.Props.NoTears

/-!
# M-matrices: `s I - A` with `A` nonnegative

Library facts behind the penalty of `Dagma`.
-/

set_option linter.unusedSectionVars false

namespace YL.MMat

open YL Spec

variable {d : Nat}

/-- determinant of `s I - A` for an acyclic `A`: only the identity permutation contributes -/
theorem det_acyclic (s : ℝ) (A : Matrix (Fin d) (Fin d) ℝ) (h : Acyclic (fun i j => A i j ≠ 0)) :
    (s • (1 : Matrix (Fin d) (Fin d) ℝ) - A).det = s ^ d := by
  classical
  obtain ⟨rank, hr⟩ := Props.exists_rank h
  have hdiag : ∀ i, A i i = 0 := fun i => by
    by_contra hi
    exact absurd (hr i i hi) (lt_irrefl _)
  rw [Matrix.det_apply, Finset.sum_eq_single (1 : Equiv.Perm (Fin d))]
  · simp [hdiag]
  · intro σ _ hσ
    have : ∃ i, (s • (1 : Matrix (Fin d) (Fin d) ℝ) - A) (σ i) i = 0 := by
      by_contra hc
      push Not at hc
      have hle : ∀ i, rank (σ i) ≤ rank i := fun i => by
        by_cases hi : σ i = i
        · rw [hi]
        · have := hc i
          rw [Matrix.sub_apply, Matrix.smul_apply, Matrix.one_apply_ne hi] at this
          simp only [smul_eq_mul, mul_zero, zero_sub, ne_eq, neg_eq_zero] at this
          exact (hr _ _ this).le
      have hsum : ∑ i, rank (σ i) = ∑ i, rank i := Equiv.sum_comp σ rank
      have heq := (Finset.sum_eq_sum_iff_of_le (fun i _ => hle i)).1 hsum
      refine hσ (Equiv.ext fun i => ?_)
      by_contra hi
      have h1 : σ i ≠ i := hi
      have := hc i
      rw [Matrix.sub_apply, Matrix.smul_apply, Matrix.one_apply_ne h1] at this
      simp only [smul_eq_mul, mul_zero, zero_sub, ne_eq, neg_eq_zero] at this
      exact absurd (heq i (Finset.mem_univ i)) (hr _ _ this).ne
    obtain ⟨i, hi⟩ := this
    rw [Finset.prod_eq_zero (f := fun i => (s • (1 : Matrix (Fin d) (Fin d) ℝ) - A) (σ i) i) (Finset.mem_univ i) hi, smul_zero]
  · intro h; exact absurd (Finset.mem_univ _) h

/-- `s I - A` as a matrix -/
abbrev sub (s : ℝ) (A : Matrix (Fin d) (Fin d) ℝ) : Matrix (Fin d) (Fin d) ℝ := s • (1 : Matrix (Fin d) (Fin d) ℝ) - A

theorem sub_mulVec (s : ℝ) (A : Matrix (Fin d) (Fin d) ℝ) (x : Fin d → ℝ) (i : Fin d) :
    (sub s A).mulVec x i = s * x i - ∑ j, A i j * x j := by
  rw [sub, Matrix.sub_mulVec, Pi.sub_apply, Matrix.smul_mulVec, Matrix.one_mulVec]
  rfl

/-- semipositive: some positive vector is mapped to a positive vector -/
def Semi (s : ℝ) (A : Matrix (Fin d) (Fin d) ℝ) : Prop :=
  ∃ x : Fin d → ℝ, (∀ i, 0 < x i) ∧ ∀ i, ∑ j, A i j * x j < s * x i

theorem monotone_of_semi {s : ℝ} {A : Matrix (Fin d) (Fin d) ℝ} (hA : ∀ i j, 0 ≤ A i j) (h : Semi s A)
    (y : Fin d → ℝ) (hy : ∀ i, 0 ≤ (sub s A).mulVec y i) (i : Fin d) : 0 ≤ y i := by
  obtain ⟨x, hx, hsx⟩ := h
  obtain ⟨k, -, hk⟩ := Finset.exists_min_image Finset.univ (fun i => y i / x i) ⟨i, Finset.mem_univ i⟩
  have hmin : ∀ j, y k / x k * x j ≤ y j := fun j => by
    have := hk j (Finset.mem_univ j)
    rwa [le_div_iff₀ (hx j)] at this
  have hk0 : 0 ≤ y k / x k := by
    by_contra hneg
    push Not at hneg
    have h1 := hy k
    rw [sub_mulVec] at h1
    have h2 : ∑ j, A k j * (y k / x k * x j) ≤ ∑ j, A k j * y j :=
      Finset.sum_le_sum (fun j _ => mul_le_mul_of_nonneg_left (hmin j) (hA k j))
    have h3 : ∑ j, A k j * (y k / x k * x j) = y k / x k * ∑ j, A k j * x j := by
      rw [Finset.mul_sum]; exact Finset.sum_congr rfl (fun j _ => by ring)
    have h4 : s * y k = y k / x k * (s * x k) := by field_simp [(hx k).ne']
    have h5 := mul_lt_mul_of_neg_left (hsx k) hneg
    linarith
  exact le_trans (mul_nonneg hk0 (hx i).le) (hmin i)

theorem det_ne_of_semi {s : ℝ} {A : Matrix (Fin d) (Fin d) ℝ} (hA : ∀ i j, 0 ≤ A i j) (h : Semi s A) :
    (sub s A).det ≠ 0 := by
  intro h0
  obtain ⟨v, hv, hMv⟩ := Matrix.exists_mulVec_eq_zero_iff.2 h0
  apply hv
  funext i
  have h1 := monotone_of_semi hA h v (fun i => by rw [hMv]; exact le_refl _) i
  have h2 := monotone_of_semi hA h (-v) (fun i => by rw [Matrix.mulVec_neg, hMv]; simp) i
  rw [Pi.neg_apply] at h2
  exact le_antisymm (neg_nonneg.1 h2) h1

theorem inv_nonneg_of_semi {s : ℝ} {A : Matrix (Fin d) (Fin d) ℝ} (hA : ∀ i j, 0 ≤ A i j) (h : Semi s A)
    (i j : Fin d) : 0 ≤ (sub s A)⁻¹ i j := by
  have hu : IsUnit (sub s A).det := (det_ne_of_semi hA h).isUnit
  refine monotone_of_semi hA h (fun i => (sub s A)⁻¹ i j) (fun k => ?_) i
  have : (sub s A).mulVec (fun i => (sub s A)⁻¹ i j) k = ((sub s A) * (sub s A)⁻¹) k j := rfl
  rw [this, Matrix.mul_nonsing_inv _ hu, Matrix.one_apply]
  split_ifs <;> norm_num

theorem semi_of_inv {s : ℝ} {A : Matrix (Fin d) (Fin d) ℝ} (hd : (sub s A).det ≠ 0)
    (hB : ∀ i j, 0 ≤ (sub s A)⁻¹ i j) : Semi s A := by
  classical
  have hu : IsUnit (sub s A).det := hd.isUnit
  refine ⟨fun i => ∑ j, (sub s A)⁻¹ i j, fun i => ?_, fun i => ?_⟩
  · refine lt_of_le_of_ne (Finset.sum_nonneg (fun j _ => hB i j)) (fun h0 => ?_)
    have hz : ∀ j, (sub s A)⁻¹ i j = 0 := fun j =>
      (Finset.sum_eq_zero_iff_of_nonneg (fun j _ => hB i j)).1 h0.symm j (Finset.mem_univ j)
    have : ((sub s A)⁻¹ * sub s A) i i = 1 := by rw [Matrix.nonsing_inv_mul _ hu, Matrix.one_apply_eq]
    rw [Matrix.mul_apply] at this
    simp [hz] at this
  · have h1 : (sub s A).mulVec (fun i => ∑ j, (sub s A)⁻¹ i j) i = 1 := by
      have : (fun i => ∑ j, (sub s A)⁻¹ i j) = (sub s A)⁻¹.mulVec (fun _ => 1) := by
        funext i; simp [Matrix.mulVec, dotProduct]
      rw [this, Matrix.mulVec_mulVec, Matrix.mul_nonsing_inv _ hu, Matrix.one_mulVec]
    rw [sub_mulVec] at h1
    linarith

/-- a bound on the row sums is enough -/
theorem semi_of_rows {s : ℝ} {A : Matrix (Fin d) (Fin d) ℝ} (h : ∀ i, ∑ j, A i j < s) : Semi s A :=
  ⟨fun _ => 1, fun _ => one_pos, fun i => by simpa using h i⟩

theorem semi_minor {s : ℝ} {A : Matrix (Fin (d + 1)) (Fin (d + 1)) ℝ} (hA : ∀ i j, 0 ≤ A i j) (h : Semi s A)
    (k : Fin (d + 1)) : Semi s (A.submatrix k.succAbove k.succAbove) := by
  obtain ⟨x, hx, hsx⟩ := h
  refine ⟨fun i => x (k.succAbove i), fun i => hx _, fun i => lt_of_le_of_lt ?_ (hsx (k.succAbove i))⟩
  rw [Fin.sum_univ_succAbove _ k]
  have := mul_nonneg (hA (k.succAbove i) k) (hx k).le
  simp only [Matrix.submatrix_apply]
  linarith

theorem sub_submatrix (s : ℝ) (A : Matrix (Fin (d + 1)) (Fin (d + 1)) ℝ) (k : Fin (d + 1)) :
    (sub s A).submatrix k.succAbove k.succAbove = sub s (A.submatrix k.succAbove k.succAbove) := by
  ext i j
  simp [sub, Matrix.one_apply]

/-- `det M * (M⁻¹)ₖₖ` is the principal minor -/
theorem det_mul_inv (s : ℝ) (A : Matrix (Fin (d + 1)) (Fin (d + 1)) ℝ) (hd : (sub s A).det ≠ 0) (k : Fin (d + 1)) :
    (sub s A).det * (sub s A)⁻¹ k k = (sub s (A.submatrix k.succAbove k.succAbove)).det := by
  rw [Matrix.inv_def, Matrix.smul_apply, Ring.inverse_eq_inv', smul_eq_mul, ← mul_assoc, mul_inv_cancel₀ hd, one_mul,
    Matrix.adjugate_fin_succ_eq_det_submatrix, sub_submatrix]
  have : ((-1 : ℝ)) ^ ((k : ℕ) + (k : ℕ)) = 1 := by rw [← two_mul, pow_mul]; norm_num
  rw [this, one_mul]

theorem inv_eq_row {s : ℝ} {A : Matrix (Fin d) (Fin d) ℝ} (hd : (sub s A).det ≠ 0) (i k : Fin d) :
    s * (sub s A)⁻¹ i k = (if i = k then 1 else 0) + ∑ j, A i j * (sub s A)⁻¹ j k := by
  have : ((sub s A) * (sub s A)⁻¹) i k = if i = k then 1 else 0 := by
    rw [Matrix.mul_nonsing_inv _ hd.isUnit, Matrix.one_apply]
  rw [← this]
  have h2 : ((sub s A) * (sub s A)⁻¹) i k = (sub s A).mulVec (fun j => (sub s A)⁻¹ j k) i := rfl
  rw [h2, sub_mulVec]; ring

theorem inv_eq_col {s : ℝ} {A : Matrix (Fin d) (Fin d) ℝ} (hd : (sub s A).det ≠ 0) (i k : Fin d) :
    s * (sub s A)⁻¹ i k = (if i = k then 1 else 0) + ∑ j, (sub s A)⁻¹ i j * A j k := by
  have : ((sub s A)⁻¹ * (sub s A)) i k = if i = k then 1 else 0 := by
    rw [Matrix.nonsing_inv_mul _ hd.isUnit, Matrix.one_apply]
  have h2 : (sub s A)⁻¹ * (sub s A) = s • (sub s A)⁻¹ - (sub s A)⁻¹ * A := by
    conv_lhs => rhs; rw [sub]
    rw [Matrix.mul_sub, Matrix.mul_smul, Matrix.mul_one]
  rw [h2, Matrix.sub_apply, Matrix.smul_apply, smul_eq_mul, Matrix.mul_apply] at this
  linarith

theorem s_pos {s : ℝ} {A : Matrix (Fin d) (Fin d) ℝ} (hA : ∀ i j, 0 ≤ A i j) (h : Semi s A) (i : Fin d) : 0 < s := by
  obtain ⟨x, hx, hsx⟩ := h
  have h1 : 0 ≤ ∑ j, A i j * x j := Finset.sum_nonneg (fun j _ => mul_nonneg (hA i j) (hx j).le)
  have h2 := lt_of_le_of_lt h1 (hsx i)
  exact pos_of_mul_pos_left h2 (hx i).le

/-- determinant of an M-matrix: positive and at most `s ^ d` -/
theorem det_bounds : ∀ {d : Nat} {s : ℝ} {A : Matrix (Fin d) (Fin d) ℝ}, (∀ i j, 0 ≤ A i j) → Semi s A →
    0 < (sub s A).det ∧ (sub s A).det ≤ s ^ d
  | 0, s, A, _, _ => by simp
  | d + 1, s, A, hA, h => by
    have hd := det_ne_of_semi hA h
    have hB := inv_nonneg_of_semi hA h
    have hs := s_pos hA h 0
    obtain ⟨hp, hle⟩ := det_bounds (d := d) (A := A.submatrix (0 : Fin (d + 1)).succAbove (0 : Fin (d + 1)).succAbove)
      (fun i j => hA _ _) (semi_minor hA h 0)
    have hm := det_mul_inv s A hd 0
    have hr := inv_eq_row hd (0 : Fin (d + 1)) 0
    rw [if_pos rfl] at hr
    have hge : 1 ≤ s * (sub s A)⁻¹ 0 0 := by
      rw [hr]
      have : 0 ≤ ∑ j, A 0 j * (sub s A)⁻¹ j 0 := Finset.sum_nonneg (fun j _ => mul_nonneg (hA _ _) (hB _ _))
      linarith
    have hb : 0 < (sub s A)⁻¹ 0 0 := by
      by_contra hc
      have h0 : (sub s A)⁻¹ 0 0 = 0 := le_antisymm (not_lt.1 hc) (hB 0 0)
      rw [h0, mul_zero] at hge
      linarith
    have hdet : 0 < (sub s A).det := by
      rw [← hm] at hp
      exact pos_of_mul_pos_left hp hb.le
    refine ⟨hdet, ?_⟩
    calc (sub s A).det ≤ (sub s A).det * (s * (sub s A)⁻¹ 0 0) := le_mul_of_one_le_right hdet.le hge
      _ = s * ((sub s A).det * (sub s A)⁻¹ 0 0) := by ring
      _ = s * (sub s (A.submatrix (0 : Fin (d + 1)).succAbove (0 : Fin (d + 1)).succAbove)).det := by rw [hm]
      _ ≤ s * s ^ d := mul_le_mul_of_nonneg_left hle hs.le
      _ = s ^ (d + 1) := by ring

/-- the entry of the inverse is positive along every walk -/
theorem inv_pos_of_reach {s : ℝ} {A : Matrix (Fin d) (Fin d) ℝ} (hA : ∀ i j, 0 ≤ A i j) (h : Semi s A) {j i : Fin d}
    (hr : Relation.ReflTransGen (fun a b => A a b ≠ 0) j i) : 0 < (sub s A)⁻¹ j i := by
  have hd := det_ne_of_semi hA h
  have hB := inv_nonneg_of_semi hA h
  have hs := s_pos hA h j
  induction hr with
  | refl =>
    have hr := inv_eq_row hd j j
    rw [if_pos rfl] at hr
    have : 0 ≤ ∑ l, A j l * (sub s A)⁻¹ l j := Finset.sum_nonneg (fun l _ => mul_nonneg (hA _ _) (hB _ _))
    by_contra hc
    have h0 : (sub s A)⁻¹ j j = 0 := le_antisymm (not_lt.1 hc) (hB j j)
    rw [h0, mul_zero] at hr
    linarith
  | @tail b c _ hbc ih =>
    have hr := inv_eq_col hd j c
    have h1 : (sub s A)⁻¹ j b * A b c ≤ ∑ l, (sub s A)⁻¹ j l * A l c :=
      Finset.single_le_sum (f := fun l => (sub s A)⁻¹ j l * A l c) (fun l _ => mul_nonneg (hB _ _) (hA _ _)) (Finset.mem_univ b)
    have h2 : 0 < (sub s A)⁻¹ j b * A b c := mul_pos ih (lt_of_le_of_ne (hA _ _) (Ne.symm hbc))
    have h3 : (0 : ℝ) ≤ if j = c then 1 else 0 := by split_ifs <;> norm_num
    by_contra hc
    have h0 : (sub s A)⁻¹ j c = 0 := le_antisymm (not_lt.1 hc) (hB j c)
    rw [h0, mul_zero] at hr
    linarith

theorem acyclic_of_det {s : ℝ} {A : Matrix (Fin d) (Fin d) ℝ} (hA : ∀ i j, 0 ≤ A i j) (h : Semi s A)
    (he : (sub s A).det = s ^ d) : Acyclic (fun i j => A i j ≠ 0) := by
  intro i hi
  obtain ⟨j, hij, hji⟩ := Relation.TransGen.head'_iff.1 hi
  have hd := det_ne_of_semi hA h
  have hB := inv_nonneg_of_semi hA h
  have hs := s_pos hA h i
  have hpos := inv_pos_of_reach hA h hji
  cases d with
  | zero => exact i.elim0
  | succ d =>
    obtain ⟨hp, hle⟩ := det_bounds (A := A.submatrix i.succAbove i.succAbove) (fun i j => hA _ _) (semi_minor hA h i)
    have hm := det_mul_inv s A hd i
    have hr := inv_eq_row hd i i
    rw [if_pos rfl] at hr
    have h1 : A i j * (sub s A)⁻¹ j i ≤ ∑ l, A i l * (sub s A)⁻¹ l i :=
      Finset.single_le_sum (f := fun l => A i l * (sub s A)⁻¹ l i) (fun l _ => mul_nonneg (hA _ _) (hB _ _)) (Finset.mem_univ j)
    have h2 : 0 < A i j * (sub s A)⁻¹ j i := mul_pos (lt_of_le_of_ne (hA _ _) (Ne.symm hij)) hpos
    have h3 : 1 < s * (sub s A)⁻¹ i i := by rw [hr]; linarith
    have h4 : (sub s A).det * (s * (sub s A)⁻¹ i i) ≤ s ^ (d + 1) := by
      calc (sub s A).det * (s * (sub s A)⁻¹ i i) = s * ((sub s A).det * (sub s A)⁻¹ i i) := by ring
        _ = s * (sub s (A.submatrix i.succAbove i.succAbove)).det := by rw [hm]
        _ ≤ s * s ^ d := mul_le_mul_of_nonneg_left hle hs.le
        _ = s ^ (d + 1) := by ring
    rw [he] at h4
    have h5 : 0 < s ^ (d + 1) := pow_pos hs _
    have := mul_lt_mul_of_pos_left h3 h5
    linarith

/-- an acyclic nonnegative matrix is inside the region for every positive `s` -/
theorem semi_of_acyclic {s : ℝ} (hs : 0 < s) {A : Matrix (Fin d) (Fin d) ℝ} (hA : ∀ i j, 0 ≤ A i j)
    (h : Acyclic (fun i j => A i j ≠ 0)) : Semi s A := by
  classical
  obtain ⟨rank, hr⟩ := Props.exists_rank h
  -- a geometric weight that decreases along the edges
  obtain ⟨q, hq, hqs⟩ : ∃ q : ℝ, 1 ≤ q ∧ ∀ i, ∑ j, A i j < s * q := by
    refine ⟨max 1 ((∑ i, ∑ j, A i j + 1) / s), le_max_left _ _, fun i => ?_⟩
    have h1 : ∑ j, A i j ≤ ∑ i, ∑ j, A i j :=
      Finset.single_le_sum (f := fun i => ∑ j, A i j) (fun i _ => Finset.sum_nonneg (fun j _ => hA i j)) (Finset.mem_univ i)
    have h2 : s * ((∑ i, ∑ j, A i j + 1) / s) ≤ s * max 1 ((∑ i, ∑ j, A i j + 1) / s) :=
      mul_le_mul_of_nonneg_left (le_max_right _ _) hs.le
    rw [mul_div_cancel₀ _ hs.ne'] at h2
    linarith
  have hq0 : 0 < q := lt_of_lt_of_le one_pos hq
  refine ⟨fun i => (q⁻¹) ^ rank i, fun i => pow_pos (inv_pos.2 hq0) _, fun i => ?_⟩
  have hterm : ∀ j, A i j * q⁻¹ ^ rank j ≤ A i j * (q⁻¹ ^ (rank i + 1)) := fun j => by
    by_cases hij : A i j = 0
    · simp [hij]
    · exact mul_le_mul_of_nonneg_left (pow_le_pow_of_le_one (inv_pos.2 hq0).le (inv_le_one_of_one_le₀ hq) (hr i j hij)) (hA i j)
  calc ∑ j, A i j * q⁻¹ ^ rank j ≤ ∑ j, A i j * (q⁻¹ ^ (rank i + 1)) := Finset.sum_le_sum (fun j _ => hterm j)
    _ = (∑ j, A i j) * (q⁻¹ ^ (rank i + 1)) := by rw [Finset.sum_mul]
    _ < (s * q) * (q⁻¹ ^ (rank i + 1)) := mul_lt_mul_of_pos_right (hqs i) (pow_pos (inv_pos.2 hq0) _)
    _ = s * q⁻¹ ^ rank i := by rw [pow_succ]; field_simp

end YL.MMat
