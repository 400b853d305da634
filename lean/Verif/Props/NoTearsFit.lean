import Verif.Model.NoTearsFit
import Verif.Props.NoTears
import Verif.Props.GolemFit
import Mathlib.Tactic.FieldSimp
import Mathlib.Tactic.FinCases

/-!
# C151: what `CausalDiscovery` minimises

Scaling, the objective of the linear model, and the parameters that are trained.
-/

set_option linter.unusedSectionVars false

namespace YL.Spec

/-- the average of `n` numbers -/
noncomputable def sMean {n : Nat} (x : Fin n → ℝ) : ℝ := (∑ a, x a) / n

/-- the covariance of two columns in the sample -/
noncomputable def sCov {n : Nat} (x y : Fin n → ℝ) : ℝ := sMean (fun a => (x a - sMean x) * (y a - sMean y))

/-- the variance of a column in the sample -/
noncomputable def sVar {n : Nat} (x : Fin n → ℝ) : ℝ := sCov x x

end YL.Spec

namespace YL.Props

open YL Spec Discovery NoTears

noncomputable section

variable {n : Nat}

/-- the column `j` of a table -/
def column (X : Data n) (j : Nat) : Fin n → ℝ := fun a => X a j

/-- C151. The values of `scale` that are accepted, and what they mean: `None` and `False` leave the data alone; `True`, `'auto'` (the default) and `'minmax'` map every column onto
the unit interval; `'std'` and `'standard'` give every column mean 0 and variance 1; an object with `fit_transform` is used as it is; everything else raises `ValueError`. -/
theorem C151_scale [NeZero n] (s : Scale n) (X : Data n) :
    scaled s X = match s with
      | .absent => .ok X
      | .bool b => .ok (if b then minMax X else X)
      | .name t => if t ∈ ["auto", "minmax"] then .ok (minMax X) else if t ∈ ["std", "standard"] then .ok (standard X) else .error .value
      | .transformer f => .ok (f X)
      | .other => .error .value := by
  cases s with
  | absent => rfl
  | bool b => cases b <;> rfl
  | name t =>
    by_cases h1 : t = "auto" ∨ t = "minmax"
    · have h1' : t ∈ ["auto", "minmax"] := by simpa using h1
      simp only [scaled, getScaler, if_pos h1, if_pos h1']
    · have h1' : t ∉ ["auto", "minmax"] := by simpa using h1
      by_cases h2 : t = "std" ∨ t = "standard"
      · have h2' : t ∈ ["std", "standard"] := by simpa using h2
        simp only [scaled, getScaler, if_neg h1, if_neg h1', if_pos h2, if_pos h2']
      · have h2' : t ∉ ["std", "standard"] := by simpa using h2
        simp only [scaled, getScaler, if_neg h1, if_neg h1', if_neg h2, if_neg h2']
  | transformer f => rfl
  | other => rfl

/-! ### Units -/

theorem colMin_affine [NeZero n] (X : Data n) (j : Nat) (c b : ℝ) (hc : 0 < c) (Y : Data n) (hY : ∀ a, Y a j = c * X a j + b) :
    colMin Y j = c * colMin X j + b := by
  unfold colMin
  refine le_antisymm ?_ ?_
  · obtain ⟨a, -, ha⟩ := Finset.exists_mem_eq_inf' (Finset.univ_nonempty (α := Fin n)) (fun a => X a j)
    rw [ha, ← hY a]
    exact Finset.inf'_le _ (Finset.mem_univ a)
  · refine Finset.le_inf' _ _ (fun a _ => ?_)
    rw [hY a]
    have : Finset.univ.inf' Finset.univ_nonempty (fun a => X a j) ≤ X a j := Finset.inf'_le _ (Finset.mem_univ a)
    nlinarith

theorem colMax_affine [NeZero n] (X : Data n) (j : Nat) (c b : ℝ) (hc : 0 < c) (Y : Data n) (hY : ∀ a, Y a j = c * X a j + b) :
    colMax Y j = c * colMax X j + b := by
  unfold colMax
  refine le_antisymm ?_ ?_
  · refine Finset.sup'_le _ _ (fun a _ => ?_)
    rw [hY a]
    have : X a j ≤ Finset.univ.sup' Finset.univ_nonempty (fun a => X a j) := Finset.le_sup' (fun a => X a j) (Finset.mem_univ a)
    nlinarith
  · obtain ⟨a, -, ha⟩ := Finset.exists_mem_eq_sup' (Finset.univ_nonempty (α := Fin n)) (fun a => X a j)
    rw [ha, ← hY a]
    exact Finset.le_sup' (fun a => Y a j) (Finset.mem_univ a)

theorem noZero_mul (c s : ℝ) (hc : 0 < c) (x : ℝ) (hx : s = 0 → x = 0) : c * x / noZero (c * s) = x / noZero s := by
  unfold noZero
  by_cases hs : s = 0
  · rw [if_pos hs, hs, mul_zero, if_pos rfl, hx hs, mul_zero]
  · rw [if_neg hs, if_neg (mul_ne_zero hc.ne' hs)]
    exact mul_div_mul_left _ _ hc.ne'

theorem minMax_affine [NeZero n] (X Y : Data n) (c b : Nat → ℝ) (hc : ∀ j, 0 < c j) (hY : ∀ a j, Y a j = c j * X a j + b j) : minMax Y = minMax X := by
  funext a j
  unfold minMax
  rw [colMin_affine X j (c j) (b j) (hc j) Y (fun a => hY a j), colMax_affine X j (c j) (b j) (hc j) Y (fun a => hY a j), hY a j]
  have e1 : c j * X a j + b j - (c j * colMin X j + b j) = c j * (X a j - colMin X j) := by ring
  have e2 : c j * colMax X j + b j - (c j * colMin X j + b j) = c j * (colMax X j - colMin X j) := by ring
  rw [e1, e2]
  refine noZero_mul _ _ (hc j) _ (fun h0 => ?_)
  have h1 : colMin X j ≤ X a j := Finset.inf'_le (fun a => X a j) (Finset.mem_univ a)
  have h2 : X a j ≤ colMax X j := Finset.le_sup' (fun a => X a j) (Finset.mem_univ a)
  linarith

theorem colMean_affine [NeZero n] (X : Data n) (j : Nat) (c b : ℝ) (Y : Data n) (hY : ∀ a, Y a j = c * X a j + b) :
    colMean Y j = c * colMean X j + b := by
  have hn : (n : ℝ) ≠ 0 := Nat.cast_ne_zero.2 (NeZero.ne n)
  unfold colMean
  simp only [hY, Finset.sum_add_distrib, ← Finset.mul_sum, Finset.sum_const, Finset.card_univ, Fintype.card_fin, nsmul_eq_mul]
  field_simp

theorem standard_affine [NeZero n] (X Y : Data n) (c b : Nat → ℝ) (hc : ∀ j, 0 < c j) (hY : ∀ a j, Y a j = c j * X a j + b j) : standard Y = standard X := by
  have hn : (0 : ℝ) < n := Nat.cast_pos.2 (Nat.pos_of_ne_zero (NeZero.ne n))
  funext a j
  unfold standard
  rw [colMean_affine X j (c j) (b j) Y (fun a => hY a j)]
  have e1 : ∀ a, Y a j - (c j * colMean X j + b j) = c j * (X a j - colMean X j) := fun a => by rw [hY a j]; ring
  simp only [e1, mul_pow, ← Finset.mul_sum]
  have e2 : Real.sqrt (c j ^ 2 * (∑ a, (X a j - colMean X j) ^ 2) / n) = c j * Real.sqrt ((∑ a, (X a j - colMean X j) ^ 2) / n) := by
    rw [mul_div_assoc, Real.sqrt_mul (sq_nonneg _), Real.sqrt_sq (hc j).le]
  rw [e2]
  refine noZero_mul _ _ (hc j) _ (fun h0 => ?_)
  have h1 : (∑ a, (X a j - colMean X j) ^ 2) / n = 0 := by
    refine (Real.sqrt_eq_zero ?_).1 h0
    exact div_nonneg (Finset.sum_nonneg (fun _ _ => sq_nonneg _)) hn.le
  have h2 : ∑ a, (X a j - colMean X j) ^ 2 = 0 := by
    rcases div_eq_zero_iff.1 h1 with h | h
    · exact h
    · exact absurd h hn.ne'
  have h3 := (Finset.sum_eq_zero_iff_of_nonneg (fun a _ => sq_nonneg (X a j - colMean X j))).1 h2 a (Finset.mem_univ a)
  exact pow_eq_zero_iff two_ne_zero |>.1 h3

/-- C151. With the default scaling, and with every other built-in one, discovery does not depend on the units of the data: measuring every column in another unit (`c j > 0`) from another
zero (`b j`) changes nothing in what `CausalDiscovery` returns. For every optimiser, initial network, threshold and number of epochs. -/
theorem C151_units [NeZero n] (X Y : Data n) (c b : Nat → ℝ) (hc : ∀ j, 0 < c j) (hY : ∀ a j, Y a j = c j * X a j + b j)
    (s : Scale n) (hs : s = .bool true ∨ ∃ t, s = .name t)
    (fuel f : Nat) (rhoMax tol : ℝ) (threshold : Option ℝ) (epoch : Nat) (net : Net ℝ) (step : Data n → ℝ → ℝ → Params → Params) (isNan : Params → Bool) :
    discoveryCall fuel f s rhoMax tol threshold epoch net step isNan Y = discoveryCall fuel f s rhoMax tol threshold epoch net step isNan X := by
  have h : scaled s Y = scaled s X := by
    rw [C151_scale, C151_scale]
    rcases hs with rfl | ⟨t, rfl⟩
    · simp only [if_true, minMax_affine X Y c b hc hY]
    · simp only [minMax_affine X Y c b hc hY, standard_affine X Y c b hc hY]
  unfold discoveryCall
  rw [h]

/-! ### The objective of the linear model -/

/-- the default model, without hidden layers: `dims = [d, 1]` (_discovery.py:199-200), with parameters `θ` -/
def linNet (d : Nat) (θ : Params) : Net ℝ := ⟨d, 1, θ.1, θ.2, []⟩

/-- what `get_W()` reports for it -/
def linW (d : Nat) (θ : Params) : Mat d ℝ := getW (linNet d θ)

/-- the parameters that the training looks for: no cycle, and no other parameters without a cycle have a smaller objective -/
def IsBest (d : Nat) (σ : ℝ → ℝ) (lambdaa rho alpha : ℝ) (X : Data n) (θ : Params) : Prop :=
  Acyclic (MatEdge (linW d θ)) ∧ ∀ θ', Acyclic (MatEdge (linW d θ')) →
    objective σ lambdaa rho alpha X (linNet d θ) ≤ objective σ lambdaa rho alpha X (linNet d θ')

theorem penalty_zero {net : Net ℝ} (h : Acyclic (MatEdge (getW net))) : hFunc net = 0 := (C107_penalty net).2.2 h

/-- C151. The objective is the squared error of the reconstruction plus a ridge plus a penalty that is never negative and that vanishes exactly for the networks whose graph has no cycle
(as long as one of `rho`, `alpha` is positive, which holds from the start: `rho` is 1 at first). -/
theorem C151_objective (σ : ℝ → ℝ) (lambdaa rho alpha : ℝ) (hr : 0 ≤ rho) (ha : 0 ≤ alpha) (hra : 0 < rho ∨ 0 < alpha) (X : Data n) (net : Net ℝ) :
    squaredLoss σ net X + 0.5 * lambdaa * l2Reg net ≤ objective σ lambdaa rho alpha X net ∧
      (objective σ lambdaa rho alpha X net = squaredLoss σ net X + 0.5 * lambdaa * l2Reg net ↔ Acyclic (MatEdge (getW net))) := by
  obtain ⟨h0, h1⟩ := C107_penalty net
  have hq : 0 ≤ 0.5 * rho * hFunc net * hFunc net := by
    have := mul_nonneg hr (mul_self_nonneg (hFunc net))
    nlinarith
  have hl : 0 ≤ alpha * hFunc net := mul_nonneg ha h0
  unfold objective
  refine ⟨by linarith, ?_, fun h => ?_⟩
  · intro h
    refine h1.1 ?_
    have e1 : 0.5 * rho * hFunc net * hFunc net = 0 := by linarith
    have e2 : alpha * hFunc net = 0 := by linarith
    rcases hra with h | h
    · have : rho * (hFunc net * hFunc net) = 0 := by linarith
      rcases mul_eq_zero.1 this with h' | h'
      · exact absurd h' h.ne'
      · exact mul_self_eq_zero.1 h'
    · rcases mul_eq_zero.1 e2 with h' | h'
      · exact absurd h' h.ne'
      · exact h'
  · rw [penalty_zero h]; ring

/-- the average of the squared error of a regression of `y` on `x` -/
theorem mean_sq (hn : 0 < n) (x y : Fin n → ℝ) (w b : ℝ) :
    sMean (fun a => (w * x a + b - y a) ^ 2) = (w * sMean x + b - sMean y) ^ 2 + w ^ 2 * sVar x - 2 * w * sCov x y + sVar y := by
  have hn' : (n : ℝ) ≠ 0 := (Nat.cast_pos.2 hn).ne'
  have hx : ∑ a, (x a - sMean x) = 0 := by
    rw [Finset.sum_sub_distrib, Finset.sum_const, Finset.card_univ, Fintype.card_fin, nsmul_eq_mul]
    unfold sMean; field_simp; ring
  have hy : ∑ a, (y a - sMean y) = 0 := by
    rw [Finset.sum_sub_distrib, Finset.sum_const, Finset.card_univ, Fintype.card_fin, nsmul_eq_mul]
    unfold sMean; field_simp; ring
  have h : ∀ a, (w * x a + b - y a) ^ 2 = (w * sMean x + b - sMean y) ^ 2 + w ^ 2 * ((x a - sMean x) * (x a - sMean x))
      - 2 * w * ((x a - sMean x) * (y a - sMean y)) + (y a - sMean y) * (y a - sMean y)
      + 2 * (w * sMean x + b - sMean y) * (w * (x a - sMean x) - (y a - sMean y)) := fun a => by ring
  have hs : ∑ a, (w * x a + b - y a) ^ 2 = n * (w * sMean x + b - sMean y) ^ 2 + w ^ 2 * ∑ a, (x a - sMean x) * (x a - sMean x)
      - 2 * w * ∑ a, (x a - sMean x) * (y a - sMean y) + ∑ a, (y a - sMean y) * (y a - sMean y) := by
    rw [Finset.sum_congr rfl (fun a _ => h a), Finset.sum_add_distrib, Finset.sum_add_distrib, Finset.sum_sub_distrib, Finset.sum_add_distrib,
      ← Finset.mul_sum, ← Finset.mul_sum, ← Finset.mul_sum, Finset.sum_sub_distrib, ← Finset.mul_sum, hx, hy, Finset.sum_const, Finset.card_univ,
      Fintype.card_fin, nsmul_eq_mul]
    ring
  have key : ∀ f : Fin n → ℝ, sMean f = (∑ a, f a) / n := fun _ => rfl
  rw [key, hs]
  unfold sVar sCov
  rw [key (fun a => (x a - sMean x) * (x a - sMean x)), key (fun a => (x a - sMean x) * (y a - sMean y)), key (fun a => (y a - sMean y) * (y a - sMean y))]
  field_simp

theorem lin_edge {d : Nat} (θ : Params) (i j : Fin d) : MatEdge (linW d θ) i j ↔ θ.1 j i ≠ 0 := by
  refine (getW_ne (linNet d θ) i j).trans ?_
  simp [strength, linNet]

theorem lin_forward {d : Nat} (σ : ℝ → ℝ) (θ : Params) (x : Nat → ℝ) (k : Nat) :
    NoTears.forward σ (linNet d θ) x k = ∑ i ∈ Finset.range d, θ.1 k i * x i + θ.2 k := by
  simp [NoTears.forward, NoTears.first, linNet]

theorem lin_loss {d : Nat} (hn : 0 < n) (σ : ℝ → ℝ) (θ : Params) (X : Data n) :
    squaredLoss σ (linNet d θ) X = 0.5 * ∑ k ∈ Finset.range d, sMean (fun a => (∑ i ∈ Finset.range d, θ.1 k i * X a i + θ.2 k - X a k) ^ 2) := by
  have hn' : (n : ℝ) ≠ 0 := (Nat.cast_pos.2 hn).ne'
  unfold squaredLoss
  rw [Finset.sum_comm]
  show 0.5 / (n : ℝ) * ∑ k ∈ Finset.range d, _ = _
  simp only [lin_forward]
  rw [Finset.mul_sum, Finset.mul_sum]
  refine Finset.sum_congr rfl (fun k _ => ?_)
  unfold sMean
  field_simp

theorem lin_reg {d : Nat} (θ : Params) : l2Reg (linNet d θ) = ∑ r ∈ Finset.range d, ∑ i ∈ Finset.range d, θ.1 r i ^ 2 := by
  simp [l2Reg, layersReg, linNet]

theorem lin_objective {d : Nat} (hn : 0 < n) (σ : ℝ → ℝ) (la rho alpha : ℝ) (X : Data n) (θ : Params) (hac : Acyclic (MatEdge (linW d θ))) :
    objective σ la rho alpha X (linNet d θ) = 0.5 * (∑ k ∈ Finset.range d, sMean (fun a => (∑ i ∈ Finset.range d, θ.1 k i * X a i + θ.2 k - X a k) ^ 2) +
      la * ∑ r ∈ Finset.range d, ∑ i ∈ Finset.range d, θ.1 r i ^ 2) := by
  unfold objective
  rw [penalty_zero hac, lin_reg, lin_loss hn]
  ring

/-- the objective of an acyclic linear network for two columns with no edge from `j` to `i` -/
theorem objective_two (hn : 0 < n) (σ : ℝ → ℝ) (la rho alpha : ℝ) (X : Data n) (θ : Params)
    (hac : Acyclic (MatEdge (linW 2 θ))) (i j : Fin 2) (hij : i ≠ j) (hji : θ.1 i j = 0) :
    objective σ la rho alpha X (linNet 2 θ) = 0.5 * ((θ.2 i - sMean (column X i)) ^ 2 + (θ.1 j i * sMean (column X i) + θ.2 j - sMean (column X j)) ^ 2
      + sVar (column X i) + sVar (column X j) + (θ.1 j i ^ 2 * (sVar (column X i) + la) - 2 * θ.1 j i * sCov (column X i) (column X j))) := by
  have hdiag : ∀ k : Fin 2, θ.1 k k = 0 := by
    intro k
    by_contra hne
    exact hac k (.single ((lin_edge θ k k).2 hne))
  have h00 : θ.1 0 0 = 0 := hdiag 0
  have h11 : θ.1 1 1 = 0 := hdiag 1
  have ei := mean_sq hn (column X i) (column X i) 0 (θ.2 i)
  have ej := mean_sq hn (column X i) (column X j) (θ.1 j i) (θ.2 j)
  rw [lin_objective hn _ _ _ _ _ _ hac]
  simp only [Finset.sum_range_succ, Finset.sum_range_zero]
  fin_cases i <;> fin_cases j
  · exact absurd rfl hij
  · simp only [Fin.zero_eta, Fin.mk_one, Fin.val_zero, Fin.val_one] at hji ei ej ⊢
    simp only [column] at ei ej ⊢
    simp only [h00, h11, hji, zero_mul, zero_add, add_zero] at ei ej ⊢
    rw [ei, ej]
    ring
  · simp only [Fin.zero_eta, Fin.mk_one, Fin.val_zero, Fin.val_one] at hji ei ej ⊢
    simp only [column] at ei ej ⊢
    simp only [h00, h11, hji, zero_mul, zero_add, add_zero] at ei ej ⊢
    rw [ei, ej]
    ring
  · exact absurd rfl hij

/-- the weights with one edge, from `i` to `j`, and the best bias -/
def oneEdge (X : Data n) (i j : Nat) (w : ℝ) : Params :=
  (fun r c => if r = j ∧ c = i then w else 0, fun r => if r = j then sMean (column X j) - w * sMean (column X i) else sMean (column X r))

theorem two_acyclic (θ : Params) (i j : Fin 2) (hij : i ≠ j) (h0 : ∀ k : Fin 2, θ.1 k k = 0) (hji : θ.1 i j = 0) : Acyclic (MatEdge (linW 2 θ)) := by
  refine acyclic_of_rank (fun k : Fin 2 => if k = i then 0 else 1) (fun a b hab => ?_)
  rw [lin_edge (d := 2) θ a b] at hab
  have ha : a = i ∨ a = j := by fin_cases i <;> fin_cases j <;> fin_cases a <;> simp_all
  have hb : b = i ∨ b = j := by fin_cases i <;> fin_cases j <;> fin_cases b <;> simp_all
  rcases ha with rfl | rfl <;> rcases hb with rfl | rfl
  · exact absurd (h0 _) hab
  · simp [Ne.symm hij]
  · exact absurd hji hab
  · exact absurd (h0 _) hab

theorem two_cases (θ : Params) (hac : Acyclic (MatEdge (linW 2 θ))) (i j : Fin 2) : θ.1 i j = 0 ∨ θ.1 j i = 0 := by
  by_contra h
  push Not at h
  exact hac i (.tail (.single ((lin_edge θ i j).2 h.2)) ((lin_edge θ j i).2 h.1))

theorem sVar_nonneg (x : Fin n → ℝ) : 0 ≤ sVar x := div_nonneg (Finset.sum_nonneg (fun a _ => mul_self_nonneg _)) (Nat.cast_nonneg n)

theorem sCov_comm (x y : Fin n → ℝ) : sCov x y = sCov y x := by
  unfold sCov
  congr 1
  funext a
  ring

theorem sVar_pos_of_cov (hn : 0 < n) (x y : Fin n → ℝ) (h : sCov x y ≠ 0) : 0 < sVar x := by
  refine lt_of_le_of_ne (sVar_nonneg x) (fun h0 => h ?_)
  have hn' : (n : ℝ) ≠ 0 := (Nat.cast_pos.2 hn).ne'
  have h1 : ∑ a, (x a - sMean x) * (x a - sMean x) = 0 := by
    have : sVar x = (∑ a, (x a - sMean x) * (x a - sMean x)) / n := rfl
    rw [this] at h0
    rcases div_eq_zero_iff.1 h0.symm with h | h
    · exact h
    · exact absurd h hn'
  have h2 : ∀ a, x a - sMean x = 0 := fun a =>
    mul_self_eq_zero.1 ((Finset.sum_eq_zero_iff_of_nonneg (fun a _ => mul_self_nonneg (x a - sMean x))).1 h1 a (Finset.mem_univ a))
  unfold sCov sMean
  simp only [show ∀ a, x a - (∑ a, x a) / n = 0 from h2, zero_mul, Finset.sum_const_zero, zero_div]

/-- a quadratic and its minimum -/
theorem quad_min (w v c : ℝ) (hv : 0 < v) : w ^ 2 * v - 2 * w * c = v * (w - c / v) ^ 2 - c ^ 2 / v := by
  field_simp
  ring

theorem oneEdge_value (hn : 0 < n) (σ : ℝ → ℝ) (la rho alpha : ℝ) (X : Data n) (i j : Fin 2) (hij : i ≠ j) (hv : 0 < sVar (column X i) + la) :
    Acyclic (MatEdge (linW 2 (oneEdge X i j (sCov (column X i) (column X j) / (sVar (column X i) + la))))) ∧
    objective σ la rho alpha X (linNet 2 (oneEdge X i j (sCov (column X i) (column X j) / (sVar (column X i) + la)))) =
      0.5 * (sVar (column X i) + sVar (column X j) - sCov (column X i) (column X j) ^ 2 / (sVar (column X i) + la)) := by
  have hne : (i : Nat) ≠ j := fun h => hij (Fin.ext h)
  have hac : Acyclic (MatEdge (linW 2 (oneEdge X i j (sCov (column X i) (column X j) / (sVar (column X i) + la))))) := by
    refine two_acyclic _ i j hij (fun k => ?_) ?_
    · simp only [oneEdge]
      exact if_neg (fun h => hne (h.2.symm.trans h.1))
    · simp only [oneEdge]
      exact if_neg (fun h => hne h.1)
  refine ⟨hac, ?_⟩
  rw [objective_two hn σ la rho alpha X _ hac i j hij (by simp only [oneEdge]; exact if_neg (fun h => hne h.1))]
  simp only [oneEdge, if_true, and_self, if_neg hne]
  rw [quad_min _ _ _ hv, sub_self]
  ring

/-- C151. Which way an edge points. For two correlated columns, whatever the ridge, the parameters that the default (linear) model looks for always exist, and the edge they have points from the
column with the smaller variance (after scaling) to the one with the larger variance: its weight is the (ridge) regression coefficient, there is no other edge. Nothing else about the data
matters: the choice is not a choice of the cause. -/
theorem C151_two (hn : 0 < n) (σ : ℝ → ℝ) (la rho alpha : ℝ) (hla : 0 ≤ la) (X : Data n) (i j : Fin 2)
    (hc : sCov (column X i) (column X j) ≠ 0) (hlt : sVar (column X i) < sVar (column X j)) :
    (∃ θ, IsBest 2 σ la rho alpha X θ) ∧
    ∀ θ, IsBest 2 σ la rho alpha X θ → θ.1 j i = sCov (column X i) (column X j) / (sVar (column X i) + la) ∧ θ.1 i j = 0 ∧ ∀ k : Fin 2, θ.1 k k = 0 := by
  have hij : i ≠ j := fun h => absurd hlt (by rw [h]; exact lt_irrefl _)
  have hvi : 0 < sVar (column X i) := sVar_pos_of_cov hn _ _ hc
  have hv : 0 < sVar (column X i) + la := by linarith
  have hv' : 0 < sVar (column X j) + la := by linarith
  have hcj : 0 < sCov (column X i) (column X j) ^ 2 := by positivity
  have hgain : sCov (column X i) (column X j) ^ 2 / (sVar (column X j) + la) < sCov (column X i) (column X j) ^ 2 / (sVar (column X i) + la) :=
    div_lt_div_of_pos_left hcj hv (by linarith)
  obtain ⟨hbac, hbv⟩ := oneEdge_value hn σ la rho alpha X i j hij hv
  have hlow : ∀ θ, Acyclic (MatEdge (linW 2 θ)) →
      0.5 * (sVar (column X i) + sVar (column X j) - sCov (column X i) (column X j) ^ 2 / (sVar (column X i) + la)) ≤ objective σ la rho alpha X (linNet 2 θ) ∧
      (objective σ la rho alpha X (linNet 2 θ) = 0.5 * (sVar (column X i) + sVar (column X j) - sCov (column X i) (column X j) ^ 2 / (sVar (column X i) + la)) →
        θ.1 j i = sCov (column X i) (column X j) / (sVar (column X i) + la) ∧ θ.1 i j = 0) := by
    intro θ hac
    rcases two_cases θ hac i j with h0 | h0
    · rw [objective_two hn σ la rho alpha X θ hac i j hij h0, quad_min _ _ _ hv]
      have h1 := sq_nonneg (θ.2 i - sMean (column X i))
      have h2 := sq_nonneg (θ.1 j i * sMean (column X i) + θ.2 j - sMean (column X j))
      have h3 := mul_nonneg hv.le (sq_nonneg (θ.1 j i - sCov (column X i) (column X j) / (sVar (column X i) + la)))
      refine ⟨by linarith, fun he => ⟨?_, h0⟩⟩
      have h4 : (sVar (column X i) + la) * (θ.1 j i - sCov (column X i) (column X j) / (sVar (column X i) + la)) ^ 2 = 0 := by linarith
      rcases mul_eq_zero.1 h4 with h | h
      · exact absurd h hv.ne'
      · exact sub_eq_zero.1 (pow_eq_zero_iff two_ne_zero |>.1 h)
    · rw [objective_two hn σ la rho alpha X θ hac j i (Ne.symm hij) h0, sCov_comm (column X j), quad_min _ _ _ hv']
      have h1 := sq_nonneg (θ.2 j - sMean (column X j))
      have h2 := sq_nonneg (θ.1 i j * sMean (column X j) + θ.2 i - sMean (column X i))
      have h3 := mul_nonneg hv'.le (sq_nonneg (θ.1 i j - sCov (column X i) (column X j) / (sVar (column X j) + la)))
      exact ⟨by linarith, fun he => by linarith⟩
  refine ⟨⟨_, hbac, fun θ' h' => by rw [hbv]; exact (hlow θ' h').1⟩, fun θ hθ => ?_⟩
  have hle := hθ.2 _ hbac
  rw [hbv] at hle
  obtain ⟨e1, e2⟩ := (hlow θ hθ.1).2 (le_antisymm hle (hlow θ hθ.1).1)
  refine ⟨e1, e2, fun k => ?_⟩
  by_contra hne
  exact hθ.1 k (.single ((lin_edge θ k k).2 hne))

/-- C151. ... and what `CausalDiscovery` returns for these parameters: one edge, from the column with the smaller variance to the other one, with the absolute value of the regression
coefficient as its strength - or no edge, if that is below the threshold. -/
theorem C151_two_result (hn : 0 < n) (σ : ℝ → ℝ) (la rho alpha : ℝ) (hla : 0 ≤ la) (X : Data n) (i j : Fin 2)
    (hc : sCov (column X i) (column X j) ≠ 0) (hlt : sVar (column X i) < sVar (column X j)) (θ : Params) (hθ : IsBest 2 σ la rho alpha X θ)
    (t : ℝ) (f : Nat) (hf : 4 < f) :
    causalDiscovery f (some t) (linW 2 θ) = .ok (.matrix (fun a b : Fin 2 =>
      if a = i ∧ b = j ∧ t ≤ |sCov (column X i) (column X j)| / (sVar (column X i) + la) then |sCov (column X i) (column X j)| / (sVar (column X i) + la) else 0)) := by
  obtain ⟨h1, h2, h3⟩ := (C151_two hn σ la rho alpha hla X i j hc hlt).2 θ hθ
  have hij : i ≠ j := fun h => absurd hlt (by rw [h]; exact lt_irrefl _)
  have hv : 0 < sVar (column X i) + la := by have := sVar_pos_of_cov hn _ _ hc; linarith
  have hW : ∀ a b : Fin 2, linW 2 θ a b = |θ.1 b a| := fun a b => (C107_linear σ (linNet 2 θ) rfl rfl (fun _ => 0) a b).2
  have hab : ∀ a : Fin 2, a = i ∨ a = j := by
    intro a; fin_cases i <;> fin_cases j <;> fin_cases a <;> simp_all
  have hcut : ∀ a b : Fin 2, cutSmall (some t) (linW 2 θ) a b =
      if a = i ∧ b = j ∧ t ≤ |sCov (column X i) (column X j)| / (sVar (column X i) + la) then |sCov (column X i) (column X j)| / (sVar (column X i) + la) else 0 := by
    intro a b
    show (if |linW 2 θ a b| < t then 0 else linW 2 θ a b) = _
    rw [hW, abs_abs]
    rcases hab a with ha | ha <;> rcases hab b with hb | hb <;> rw [ha, hb]
    · rw [h3 i, abs_zero, ite_self, if_neg (fun h => hij h.2.1)]
    · rw [h1, abs_div, abs_of_pos hv]
      by_cases hlt' : |sCov (column X i) (column X j)| / (sVar (column X i) + la) < t
      · rw [if_pos hlt', if_neg (fun h => absurd h.2.2 (not_le.2 hlt'))]
      · rw [if_neg hlt', if_pos ⟨rfl, rfl, not_lt.1 hlt'⟩]
    · rw [h2, abs_zero, ite_self, if_neg (fun h => hij h.2.1)]
    · rw [h3 j, abs_zero, ite_self, if_neg (fun h => hij h.1.symm)]
  have hnn : ∀ a b : Fin 2, 0 ≤ cutSmall (some t) (linW 2 θ) a b := by
    intro a b
    rw [hcut]
    split_ifs
    · positivity
    · exact le_rfl
  obtain ⟨W', hW', -⟩ := C26_to_dag_acyclic (n := 2) (cutSmall (some t) (linW 2 θ)) hnn
  have hkeep := (C27_to_dag_keeps_stronger (n := 2) (cutSmall (some t) (linW 2 θ)) hnn f W' (by omega) (hW' f (by omega))).2 (by
    refine acyclic_of_rank (fun k : Fin 2 => if k = i then 0 else 1) (fun a b h => ?_)
    rw [MatEdge, hcut] at h
    by_cases hcond : a = i ∧ b = j ∧ t ≤ |sCov (column X i) (column X j)| / (sVar (column X i) + la)
    · rw [hcond.1, hcond.2.1]; simp [Ne.symm hij]
    · rw [if_neg hcond] at h; exact absurd rfl h)
  unfold causalDiscovery
  rw [show toDag f (cutSmall (some t) (linW 2 θ)) = .ok W' from hW' f (by omega), hkeep]
  show Except.ok (Answer.matrix _) = _
  congr 2
  funext a b
  exact hcut a b

/-- C151. Columns of equal variance: the data do not decide, the best parameters with the edge in one direction and in the other have the same objective, and both are best. -/
theorem C151_tie (hn : 0 < n) (σ : ℝ → ℝ) (la rho alpha : ℝ) (hla : 0 ≤ la) (X : Data n)
    (hc : sCov (column X 0) (column X 1) ≠ 0) (he : sVar (column X 0) = sVar (column X 1)) :
    (∃ θ, IsBest 2 σ la rho alpha X θ ∧ θ.1 1 0 ≠ 0 ∧ θ.1 0 1 = 0) ∧ ∃ θ, IsBest 2 σ la rho alpha X θ ∧ θ.1 0 1 ≠ 0 ∧ θ.1 1 0 = 0 := by
  have hv0 : 0 < sVar (column X 0) + la := by have := sVar_pos_of_cov hn _ _ hc; linarith
  have hv1 : 0 < sVar (column X 1) + la := by rw [← he]; exact hv0
  obtain ⟨a0, b0⟩ := oneEdge_value hn σ la rho alpha X 0 1 (by decide) hv0
  obtain ⟨a1, b1⟩ := oneEdge_value hn σ la rho alpha X 1 0 (by decide) hv1
  simp only [Fin.val_zero, Fin.val_one] at a0 b0 a1 b1
  have heq : 0.5 * (sVar (column X 1) + sVar (column X 0) - sCov (column X 1) (column X 0) ^ 2 / (sVar (column X 1) + la)) =
      0.5 * (sVar (column X 0) + sVar (column X 1) - sCov (column X 0) (column X 1) ^ 2 / (sVar (column X 0) + la)) := by
    rw [sCov_comm (column X 1), he]
  rw [heq] at b1
  have hlow : ∀ θ, Acyclic (MatEdge (linW 2 θ)) →
      0.5 * (sVar (column X 0) + sVar (column X 1) - sCov (column X 0) (column X 1) ^ 2 / (sVar (column X 0) + la)) ≤ objective σ la rho alpha X (linNet 2 θ) := by
    intro θ hac
    rcases two_cases θ hac 0 1 with h0 | h0
    · rw [objective_two hn σ la rho alpha X θ hac 0 1 (by decide) h0]
      simp only [Fin.val_zero, Fin.val_one]
      rw [quad_min _ _ _ hv0]
      have h1 := sq_nonneg (θ.2 0 - sMean (column X 0))
      have h2 := sq_nonneg (θ.1 1 0 * sMean (column X 0) + θ.2 1 - sMean (column X 1))
      have h3 := mul_nonneg hv0.le (sq_nonneg (θ.1 1 0 - sCov (column X 0) (column X 1) / (sVar (column X 0) + la)))
      linarith
    · rw [objective_two hn σ la rho alpha X θ hac 1 0 (by decide) h0]
      simp only [Fin.val_zero, Fin.val_one]
      rw [quad_min _ _ _ hv1]
      have h1 := sq_nonneg (θ.2 1 - sMean (column X 1))
      have h2 := sq_nonneg (θ.1 0 1 * sMean (column X 1) + θ.2 0 - sMean (column X 0))
      have h3 := mul_nonneg hv1.le (sq_nonneg (θ.1 0 1 - sCov (column X 1) (column X 0) / (sVar (column X 1) + la)))
      rw [sCov_comm (column X 1), ← he] at *
      linarith
  refine ⟨⟨_, ⟨a0, fun θ' h' => by rw [b0]; exact hlow θ' h'⟩, ?_, ?_⟩, ⟨_, ⟨a1, fun θ' h' => by rw [b1]; exact hlow θ' h'⟩, ?_, ?_⟩⟩
  · simp only [oneEdge, and_self, if_true]; exact div_ne_zero hc hv0.ne'
  · simp [oneEdge]
  · simp only [oneEdge, and_self, if_true]; rw [sCov_comm]; exact div_ne_zero hc hv1.ne'
  · simp [oneEdge]

/-! ### Scaling and the direction of an edge -/

theorem sMean_affine (hn : 0 < n) (x : Fin n → ℝ) (p q : ℝ) : sMean (fun a => p * x a + q) = p * sMean x + q := by
  have hn' : (n : ℝ) ≠ 0 := (Nat.cast_pos.2 hn).ne'
  unfold sMean
  simp only [Finset.sum_add_distrib, ← Finset.mul_sum, Finset.sum_const, Finset.card_univ, Fintype.card_fin, nsmul_eq_mul]
  field_simp

theorem sCov_affine (hn : 0 < n) (x y : Fin n → ℝ) (p q r t : ℝ) : sCov (fun a => p * x a + q) (fun a => r * y a + t) = p * r * sCov x y := by
  unfold sCov
  rw [sMean_affine hn, sMean_affine hn]
  have : (fun a => (p * x a + q - (p * sMean x + q)) * (r * y a + t - (r * sMean y + t))) = fun a => p * r * ((x a - sMean x) * (y a - sMean y)) + 0 := by
    funext a; ring
  rw [this, sMean_affine hn, add_zero]

theorem standard_column (X : Data n) (j : Nat) (hv : 0 < sVar (column X j)) :
    column (standard X) j = fun a => (1 / Real.sqrt (sVar (column X j))) * column X j a + (-(sMean (column X j)) / Real.sqrt (sVar (column X j))) := by
  have e : (∑ a, (X a j - colMean X j) ^ 2) / n = sVar (column X j) := by
    unfold sVar sCov sMean colMean column
    simp only [sq]
  funext a
  show (X a j - colMean X j) / noZero (Real.sqrt ((∑ a, (X a j - colMean X j) ^ 2) / n)) = _
  rw [e, noZero, if_neg (Real.sqrt_pos.2 hv).ne']
  show (X a j - sMean (column X j)) / _ = _ * X a j + _
  ring

/-- C151. `scale='std'` (or `'standard'`): both columns get variance 1, so for any two correlated columns the direction is left open: there are best parameters with the edge in either direction. -/
theorem C151_standardised [NeZero n] (σ : ℝ → ℝ) (la rho alpha : ℝ) (hla : 0 ≤ la) (X Y : Data n) (t : String) (ht : t = "std" ∨ t = "standard")
    (hY : scaled (.name t) X = .ok Y) (hc : sCov (column X 0) (column X 1) ≠ 0) :
    (∃ θ, IsBest 2 σ la rho alpha Y θ ∧ θ.1 1 0 ≠ 0 ∧ θ.1 0 1 = 0) ∧ ∃ θ, IsBest 2 σ la rho alpha Y θ ∧ θ.1 0 1 ≠ 0 ∧ θ.1 1 0 = 0 := by
  have hn : 0 < n := Nat.pos_of_ne_zero (NeZero.ne n)
  have hYs : Y = standard X := by
    rw [C151_scale] at hY
    rcases ht with rfl | rfl <;> simp at hY <;> exact hY.symm
  have hv0 : 0 < sVar (column X 0) := sVar_pos_of_cov hn _ _ hc
  have hv1 : 0 < sVar (column X 1) := sVar_pos_of_cov hn (column X 1) (column X 0) (by rw [sCov_comm]; exact hc)
  have hone : ∀ j, 0 < sVar (column X j) → sVar (column (standard X) j) = 1 := by
    intro j hv
    rw [standard_column X j hv]
    unfold sVar
    have hv' : 0 < sCov (column X j) (column X j) := hv
    rw [sCov_affine hn, div_mul_div_comm, Real.mul_self_sqrt hv'.le]
    field_simp
  subst hYs
  refine C151_tie hn σ la rho alpha hla _ ?_ (by rw [hone 0 hv0, hone 1 hv1])
  rw [standard_column X 0 hv0, standard_column X 1 hv1, sCov_affine hn]
  have h0 := (Real.sqrt_pos.2 hv0).ne'
  have h1 := (Real.sqrt_pos.2 hv1).ne'
  exact mul_ne_zero (mul_ne_zero (one_div_ne_zero h0) (one_div_ne_zero h1)) hc

theorem colMin_eq [NeZero n] (X : Data n) (j : Nat) (v : ℝ) (h : ∃ a, X a j = v) (hle : ∀ a, v ≤ X a j) : colMin X j = v := by
  obtain ⟨a, ha⟩ := h
  refine le_antisymm ?_ (Finset.le_inf' _ _ (fun a _ => hle a))
  rw [← ha]
  exact Finset.inf'_le (fun a => X a j) (Finset.mem_univ a)

theorem colMax_eq [NeZero n] (X : Data n) (j : Nat) (v : ℝ) (h : ∃ a, X a j = v) (hle : ∀ a, X a j ≤ v) : colMax X j = v := by
  obtain ⟨a, ha⟩ := h
  refine le_antisymm (Finset.sup'_le _ _ (fun a _ => hle a)) ?_
  rw [← ha]
  exact Finset.le_sup' (fun a => X a j) (Finset.mem_univ a)

/-- four rows: the first column takes the values 1 and -1, the second column is the first one plus an uncorrelated noise with the values 1 and -1 -/
def causeTable : Data 4 := fun a j => if j = 0 then ![1, 1, -1, -1] a else if j = 1 then ![2, 0, 0, -2] a else 0

/-- what min-max scaling makes of it -/
def causeScaled : Data 4 := fun a j => if j = 0 then ![1, 1, 0, 0] a else if j = 1 then ![1, 1 / 2, 1 / 2, 0] a else 0

theorem causeScaled_eq : minMax causeTable = causeScaled := by
  have e0 : colMin causeTable 0 = -1 := colMin_eq _ _ _ ⟨2, by simp [causeTable]⟩ (fun a => by fin_cases a <;> norm_num [causeTable])
  have f0 : colMax causeTable 0 = 1 := colMax_eq _ _ _ ⟨0, by simp [causeTable]⟩ (fun a => by fin_cases a <;> norm_num [causeTable])
  have e1 : colMin causeTable 1 = -2 := colMin_eq _ _ _ ⟨3, by simp [causeTable]⟩ (fun a => by fin_cases a <;> norm_num [causeTable])
  have f1 : colMax causeTable 1 = 2 := colMax_eq _ _ _ ⟨0, by simp [causeTable]⟩ (fun a => by fin_cases a <;> norm_num [causeTable])
  funext a j
  rcases Nat.lt_or_ge j 2 with hj | hj
  · interval_cases j
    · show (causeTable a 0 - colMin causeTable 0) / noZero (colMax causeTable 0 - colMin causeTable 0) = causeScaled a 0
      rw [e0, f0, noZero]
      fin_cases a <;> norm_num [causeTable, causeScaled]
    · show (causeTable a 1 - colMin causeTable 1) / noZero (colMax causeTable 1 - colMin causeTable 1) = causeScaled a 1
      rw [e1, f1, noZero]
      fin_cases a <;> norm_num [causeTable, causeScaled]
  · have hz : ∀ a, causeTable a j = 0 := fun a => by unfold causeTable; rw [if_neg (by omega), if_neg (by omega)]
    have : colMin causeTable j = 0 := colMin_eq _ _ _ ⟨0, hz 0⟩ (fun a => (hz a).ge)
    show (causeTable a j - colMin causeTable j) / _ = causeScaled a j
    rw [hz, this, sub_zero, zero_div]
    unfold causeScaled
    rw [if_neg (by omega), if_neg (by omega)]

theorem cause_moments : sVar (column causeTable 0) = 1 ∧ sVar (column causeTable 1) = 2 ∧ sCov (column causeTable 0) (column causeTable 1) = 1 ∧
    sVar (column causeScaled 0) = 1 / 4 ∧ sVar (column causeScaled 1) = 1 / 8 ∧ sCov (column causeScaled 0) (column causeScaled 1) = 1 / 8 := by
  refine ⟨?_, ?_, ?_, ?_, ?_, ?_⟩ <;>
    simp [sVar, sCov, sMean, column, causeTable, causeScaled, Fin.sum_univ_four] <;> norm_num

/-- C151, refuted: that discovery with its default settings finds the direction of a linear effect. In the table the first column causes the second one (the second is the first plus an independent
noise of the same variance) and without scaling every best solution has just that edge; with the default scaling (and the default ridge 0.01) every best solution has the reverse edge only,
and `CausalDiscovery` reports it with the default threshold 0.01. -/
theorem C151_direction_refuted (σ : ℝ → ℝ) (rho alpha : ℝ) :
    (∃ Y, scaled .absent causeTable = .ok Y ∧ (∃ θ, IsBest 2 σ 0.01 rho alpha Y θ) ∧
      ∀ θ, IsBest 2 σ 0.01 rho alpha Y θ → ∀ f > 4, causalDiscovery f (some 0.01) (linW 2 θ) = .ok (.matrix ![![0, 1 / 1.01], ![0, 0]])) ∧
    ∃ Y, scaled (.name "auto") causeTable = .ok Y ∧ (∃ θ, IsBest 2 σ 0.01 rho alpha Y θ) ∧
      ∀ θ, IsBest 2 σ 0.01 rho alpha Y θ → ∀ f > 4, causalDiscovery f (some 0.01) (linW 2 θ) = .ok (.matrix ![![0, 0], ![(1 / 8) / (1 / 8 + 0.01), 0]]) := by
  obtain ⟨m1, m2, m3, m4, m5, m6⟩ := cause_moments
  refine ⟨⟨causeTable, rfl, ?_, ?_⟩, ⟨causeScaled, ?_, ?_, ?_⟩⟩
  · refine (C151_two (by norm_num) σ 0.01 rho alpha (by norm_num) causeTable 0 1 ?_ ?_).1
    · show sCov (column causeTable 0) (column causeTable 1) ≠ 0
      rw [m3]; norm_num
    · show sVar (column causeTable 0) < sVar (column causeTable 1)
      rw [m1, m2]; norm_num
  · intro θ hθ f hf
    rw [C151_two_result (by norm_num) σ 0.01 rho alpha (by norm_num) causeTable 0 1 (by show sCov (column causeTable 0) (column causeTable 1) ≠ 0; rw [m3]; norm_num)
      (by show sVar (column causeTable 0) < sVar (column causeTable 1); rw [m1, m2]; norm_num) θ hθ 0.01 f hf]
    congr 2
    funext a b
    simp only [Fin.val_zero, Fin.val_one]
    rw [m1, m3]
    fin_cases a <;> fin_cases b <;> norm_num
  · rw [C151_scale]
    simp [causeScaled_eq]
  · refine (C151_two (by norm_num) σ 0.01 rho alpha (by norm_num) causeScaled 1 0 ?_ ?_).1
    · show sCov (column causeScaled 1) (column causeScaled 0) ≠ 0
      rw [sCov_comm, m6]; norm_num
    · show sVar (column causeScaled 1) < sVar (column causeScaled 0)
      rw [m4, m5]; norm_num
  · intro θ hθ f hf
    rw [C151_two_result (by norm_num) σ 0.01 rho alpha (by norm_num) causeScaled 1 0 (by show sCov (column causeScaled 1) (column causeScaled 0) ≠ 0; rw [sCov_comm, m6]; norm_num)
      (by show sVar (column causeScaled 1) < sVar (column causeScaled 0); rw [m4, m5]; norm_num) θ hθ 0.01 f hf]
    congr 2
    funext a b
    simp only [Fin.val_zero, Fin.val_one]
    rw [m5, sCov_comm, m6]
    fin_cases a <;> fin_cases b <;> norm_num

/-- C151, refuted without scaling: that the answer does not depend on the units. If the second column of the table is measured in a unit ten times as large, every best solution has the reverse edge only. -/
theorem C151_units_unscaled_refuted (σ : ℝ → ℝ) (rho alpha : ℝ) :
    ∃ Y : Data 4, (∀ a, Y a 0 = causeTable a 0 ∧ Y a 1 = causeTable a 1 / 10) ∧
      (∃ θ, IsBest 2 σ 0.01 rho alpha causeTable θ) ∧ (∃ θ, IsBest 2 σ 0.01 rho alpha Y θ) ∧
      (∀ θ, IsBest 2 σ 0.01 rho alpha causeTable θ → θ.1 1 0 ≠ 0 ∧ θ.1 0 1 = 0) ∧
      ∀ θ, IsBest 2 σ 0.01 rho alpha Y θ → θ.1 0 1 ≠ 0 ∧ θ.1 1 0 = 0 := by
  obtain ⟨m1, m2, m3, -, -, -⟩ := cause_moments
  let Y : Data 4 := fun a j => if j = 1 then causeTable a 1 / 10 else causeTable a j
  have hY0 : column Y 0 = column causeTable 0 := by funext a; simp [column, Y]
  have hY1 : column Y 1 = fun a => (1 / 10) * column causeTable 1 a + 0 := by funext a; simp [column, Y]; ring
  have hY0' : column Y 0 = fun a => 1 * column causeTable 0 a + 0 := by rw [hY0]; funext a; ring
  have v0 : sVar (column Y 0) = 1 := by rw [hY0, m1]
  have v1 : sVar (column Y 1) = 2 / 100 := by
    unfold sVar
    rw [hY1, sCov_affine (by norm_num)]
    show _ * sVar (column causeTable 1) = _
    rw [m2]; norm_num
  have c01 : sCov (column Y 1) (column Y 0) = 1 / 10 := by
    rw [hY0', hY1, sCov_affine (by norm_num), sCov_comm, m3]; norm_num
  have A := C151_two (by norm_num) σ 0.01 rho alpha (by norm_num) causeTable 0 1 (by show sCov (column causeTable 0) (column causeTable 1) ≠ 0; rw [m3]; norm_num)
    (by show sVar (column causeTable 0) < sVar (column causeTable 1); rw [m1, m2]; norm_num)
  have B := C151_two (by norm_num) σ 0.01 rho alpha (by norm_num) Y 1 0 (by show sCov (column Y 1) (column Y 0) ≠ 0; rw [c01]; norm_num)
    (by show sVar (column Y 1) < sVar (column Y 0); rw [v0, v1]; norm_num)
  refine ⟨Y, fun a => ⟨by simp [Y], by simp [Y]⟩, A.1, B.1, fun θ hθ => ?_, fun θ hθ => ?_⟩
  · obtain ⟨h1, h2, -⟩ := A.2 θ hθ
    simp only [Fin.val_zero, Fin.val_one] at h1 h2
    refine ⟨?_, h2⟩
    rw [h1, m1, m3]; norm_num
  · obtain ⟨h1, h2, -⟩ := B.2 θ hθ
    simp only [Fin.val_zero, Fin.val_one] at h1 h2
    refine ⟨?_, h2⟩
    rw [h1, v1, c01]; norm_num

/-! ### Hidden layers are not trained -/

/-- C151. With hidden layers the training changes the first layer only. So whatever the training does (for all values `θ` of the trained parameters), the reconstruction of column `j` stays inside the interval
that the initial values of the last layer `L` allow: between its bias plus the sum of the negative weights and its bias plus the sum of the positive weights. -/
theorem C151_hidden (σ : ℝ → ℝ) (hσ : ∀ t, 0 ≤ σ t ∧ σ t ≤ 1) (net : Net ℝ) (ls : List (Layer ℝ)) (L : Layer ℝ) (hL : net.layers = ls ++ [L]) (θ : Params) (x : Nat → ℝ) (j : Nat) :
    L.bias j 0 + ∑ k ∈ Finset.range L.inF, min (L.weight j k 0) 0 ≤ NoTears.forward σ (assemble net θ) x j ∧
      NoTears.forward σ (assemble net θ) x j ≤ L.bias j 0 + ∑ k ∈ Finset.range L.inF, max (L.weight j k 0) 0 := by
  have hf : ∃ h : Nat → Nat → ℝ, NoTears.forward σ (assemble net θ) x j = ∑ k ∈ Finset.range L.inF, σ (h j k) * L.weight j k 0 + L.bias j 0 := by
    unfold NoTears.forward
    refine ⟨ls.foldl (fun h L => applyLayer σ L h) (first (assemble net θ) x), ?_⟩
    have : (assemble net θ).layers = ls ++ [L] := hL
    rw [this, List.foldl_append]
    rfl
  obtain ⟨h, hh⟩ := hf
  rw [hh]
  constructor
  · rw [add_comm]
    refine add_le_add (Finset.sum_le_sum (fun k _ => ?_)) le_rfl
    obtain ⟨s0, s1⟩ := hσ (h j k)
    rcases le_total (L.weight j k 0) 0 with hw | hw
    · rw [min_eq_left hw]; nlinarith
    · rw [min_eq_right hw]; exact mul_nonneg s0 hw
  · rw [add_comm]
    refine add_le_add le_rfl (Finset.sum_le_sum (fun k _ => ?_))
    obtain ⟨s0, s1⟩ := hσ (h j k)
    rcases le_total (L.weight j k 0) 0 with hw | hw
    · rw [max_eq_right hw]; nlinarith
    · rw [max_eq_left hw]; nlinarith

/-- C151, refuted: that a model with hidden layers can be fitted to the data. The last layer, of width `m`, keeps its random initial values, so the reconstruction never leaves the interval from
`-(m + 1) / √m` to `(m + 1) / √m`. For data further away from zero (`|X a j| ≥ R`, say 10 for unscaled ages and any `m` up to 97) the error cannot be trained away. -/
theorem C151_hidden_loss_refuted (hn : 0 < n) (σ : ℝ → ℝ) (hσ : ∀ t, 0 ≤ σ t ∧ σ t ≤ 1) (net : Net ℝ) (ls : List (Layer ℝ)) (L : Layer ℝ) (hL : net.layers = ls ++ [L])
    (hfresh : FreshLayer L) (X : Data n) (R : ℝ) (hR : (L.inF + 1) / Real.sqrt L.inF ≤ R) (hX : ∀ a, ∀ j < net.d, R ≤ |X a j|) (θ : Params) :
    net.d / 2 * (R - (L.inF + 1) / Real.sqrt L.inF) ^ 2 ≤ squaredLoss σ (assemble net θ) X := by
  have hn' : (0 : ℝ) < n := Nat.cast_pos.2 hn
  have hb : ∀ x j, |NoTears.forward σ (assemble net θ) x j| ≤ (L.inF + 1) / Real.sqrt L.inF := by
    intro x j
    obtain ⟨h1, h2⟩ := C151_hidden σ hσ net ls L hL θ x j
    have hw : ∀ k ∈ Finset.range L.inF, -(1 / Real.sqrt L.inF) ≤ min (L.weight j k 0) 0 := fun k _ => by
      refine le_min (neg_le_of_abs_le (hfresh.1 j k 0)) ?_
      have : 0 ≤ 1 / Real.sqrt L.inF := by positivity
      linarith
    have hw' : ∀ k ∈ Finset.range L.inF, max (L.weight j k 0) 0 ≤ 1 / Real.sqrt L.inF := fun k _ =>
      max_le (le_of_abs_le (hfresh.1 j k 0)) (by positivity)
    have hs := Finset.sum_le_sum hw
    have hs' := Finset.sum_le_sum hw'
    rw [Finset.sum_const, Finset.card_range, nsmul_eq_mul] at hs hs'
    have hbi := abs_le.1 (hfresh.2 j 0)
    have e : (L.inF + 1) / Real.sqrt L.inF = L.inF * (1 / Real.sqrt L.inF) + 1 / Real.sqrt L.inF := by ring
    rw [abs_le, e]
    constructor <;> nlinarith
  have hterm : ∀ a, ∀ j ∈ Finset.range net.d, (R - (L.inF + 1) / Real.sqrt L.inF) ^ 2 ≤ (NoTears.forward σ (assemble net θ) (X a) j - X a j) ^ 2 := by
    intro a j hj
    have h1 := hb (X a) j
    have h2 := hX a j (Finset.mem_range.1 hj)
    rw [← sq_abs (NoTears.forward σ (assemble net θ) (X a) j - X a j)]
    refine pow_le_pow_left₀ (by linarith) ?_ 2
    have := abs_sub_abs_le_abs_sub (X a j) (NoTears.forward σ (assemble net θ) (X a) j)
    rw [abs_sub_comm] at this
    linarith
  have hsum : ∑ a : Fin n, ∑ j ∈ Finset.range net.d, (R - (L.inF + 1) / Real.sqrt L.inF) ^ 2 ≤
      ∑ a, ∑ j ∈ Finset.range net.d, (NoTears.forward σ (assemble net θ) (X a) j - X a j) ^ 2 :=
    Finset.sum_le_sum (fun a _ => Finset.sum_le_sum (hterm a))
  rw [Finset.sum_const, Finset.sum_const, Finset.card_univ, Fintype.card_fin, Finset.card_range, nsmul_eq_mul, nsmul_eq_mul] at hsum
  unfold squaredLoss
  have h3 := mul_le_mul_of_nonneg_left hsum (show (0 : ℝ) ≤ 0.5 / n by positivity)
  refine le_trans (le_of_eq ?_) h3
  field_simp
  ring

/-! ### Finding the truth -/

/-- the errors of the weights `W` in row `a`: what is left of column `j` -/
def rest {d : Nat} (X : Data n) (B : Fin d → Fin d → ℝ) (j : Fin d) : Fin n → ℝ := fun a => X a j - ∑ i : Fin d, X a i * B i j

theorem mean_sq_le (hn : 0 < n) (y : Fin n → ℝ) (b : ℝ) : sVar y ≤ sMean (fun a => (b - y a) ^ 2) ∧ (b = sMean y → sMean (fun a => (b - y a) ^ 2) = sVar y) := by
  have h := mean_sq hn y y 0 b
  have e : (fun a => (b - y a) ^ 2) = fun a => (0 * y a + b - y a) ^ 2 := by funext a; ring
  rw [e, h]
  refine ⟨?_, fun hb => by rw [hb]; ring⟩
  have := sq_nonneg (0 * sMean y + b - sMean y)
  linarith

theorem sMean_add (hn : 0 < n) (x y : Fin n → ℝ) : sMean (fun a => x a + y a) = sMean x + sMean y := by
  unfold sMean
  rw [Finset.sum_add_distrib, add_div]

theorem sMean_sum {ι : Type} (s : Finset ι) (x : ι → Fin n → ℝ) : sMean (fun a => ∑ i ∈ s, x i a) = ∑ i ∈ s, sMean (x i) := by
  unfold sMean
  rw [Finset.sum_comm, Finset.sum_div]

theorem lin_rest {d : Nat} (X : Data n) (θ : Params) (k : Fin d) (a : Fin n) :
    (∑ i ∈ Finset.range d, θ.1 k i * X a i + θ.2 k - X a k) = θ.2 k - rest X (fun i j : Fin d => θ.1 j i) k a := by
  unfold rest
  rw [Finset.sum_range (fun i => θ.1 k i * X a i)]
  have : ∑ i : Fin d, θ.1 k i * X a i = ∑ i : Fin d, X a i * θ.1 k i := Finset.sum_congr rfl (fun i _ => mul_comm _ _)
  rw [this]
  ring

/-- the centred data -/
def centred {d : Nat} (X : Data n) : Matrix (Fin n) (Fin d) ℝ := Matrix.of (fun a j => X a j - sMean (column X j))

theorem centred_rest {d : Nat} (hn : 0 < n) (X : Data n) (B : Fin d → Fin d → ℝ) (a : Fin n) (j : Fin d) :
    ((centred X - centred X * Matrix.of B : Matrix (Fin n) (Fin d) ℝ)) a j = rest X B j a - sMean (rest X B j) := by
  have hm : sMean (rest X B j) = sMean (column X j) - ∑ i : Fin d, sMean (column X i) * B i j := by
    have e : rest X B j = fun a => column X j a + ∑ i : Fin d, (-(B i j)) * column X i a := by
      funext a
      unfold rest column
      rw [sub_eq_add_neg, ← Finset.sum_neg_distrib]
      refine congrArg (_ + ·) (Finset.sum_congr rfl (fun i _ => by ring))
    rw [e, sMean_add hn, sMean_sum, sub_eq_add_neg, ← Finset.sum_neg_distrib]
    refine congrArg (_ + ·) (Finset.sum_congr rfl (fun i _ => ?_))
    have := sMean_affine hn (column X i) (-(B i j)) 0
    simp only [add_zero] at this
    rw [this]; ring
  rw [hm, Matrix.sub_apply, Matrix.mul_apply]
  unfold rest centred
  simp only [Matrix.of_apply, sub_mul, Finset.sum_sub_distrib]
  ring

theorem residual_centred {d : Nat} (hn : 0 < n) (X : Data n) (B : Fin d → Fin d → ℝ) :
    Dagma.residual (centred X) (Matrix.of B) = n * ∑ j : Fin d, sVar (rest X B j) := by
  have hn' : (n : ℝ) ≠ 0 := (Nat.cast_pos.2 hn).ne'
  unfold Dagma.residual
  rw [Finset.sum_comm, Finset.mul_sum]
  refine Finset.sum_congr rfl (fun j _ => ?_)
  have : sVar (rest X B j) = (∑ a, (rest X B j a - sMean (rest X B j)) * (rest X B j a - sMean (rest X B j))) / n := rfl
  rw [this, mul_div_cancel₀ _ hn']
  refine Finset.sum_congr rfl (fun a _ => ?_)
  rw [centred_rest hn, sq]

/-- C151. When discovery is right: without scaling and without ridge, if the data come from linear equations `x_j = Σ x_i B i j + e_j` without a cycle (and any constants), the noise terms being uncorrelated and of the
same variance in the sample, then best parameters exist and every best solution has exactly the weights `B`: the graph that is reported is the true one and the strengths are the
absolute values of the true coefficients. For any number of columns. -/
theorem C151_truth {d : Nat} (hn : 0 < n) (σ : ℝ → ℝ) (rho alpha : ℝ) (X : Data n) (B : Fin d → Fin d → ℝ) (s : ℝ) (hs : 0 < s) (hB : Acyclic (fun i j => B i j ≠ 0))
    (hE : ∀ j k, sCov (rest X B j) (rest X B k) = if j = k then s else 0) :
    (∃ θ, IsBest d σ 0 rho alpha X θ) ∧ ∀ θ, IsBest d σ 0 rho alpha X θ → (∀ i j : Fin d, θ.1 j i = B i j) ∧ ∀ i j, linW d θ i j = |B i j| := by
  have hn0 : (0 : ℝ) < n := Nat.cast_pos.2 hn
  have hn' : (n : ℝ) ≠ 0 := hn0.ne'
  -- the objective is at least the sum of the variances of the errors
  have hobj : ∀ θ, Acyclic (MatEdge (linW d θ)) → 0.5 * ∑ j : Fin d, sVar (rest X (fun i j : Fin d => θ.1 j i) j) ≤ objective σ 0 rho alpha X (linNet d θ) ∧
      ((∀ j : Fin d, θ.2 j = sMean (rest X (fun i j : Fin d => θ.1 j i) j)) →
        objective σ 0 rho alpha X (linNet d θ) = 0.5 * ∑ j : Fin d, sVar (rest X (fun i j : Fin d => θ.1 j i) j)) := by
    intro θ hac
    rw [lin_objective hn σ 0 rho alpha X θ hac, zero_mul, add_zero, Finset.sum_range (fun k => sMean (fun a => (∑ i ∈ Finset.range d, θ.1 k i * X a i + θ.2 k - X a k) ^ 2))]
    simp only [lin_rest]
    refine ⟨?_, fun h => ?_⟩
    · have := Finset.sum_le_sum (fun (j : Fin d) (_ : j ∈ Finset.univ) => (mean_sq_le hn (rest X (fun i j : Fin d => θ.1 j i) j) (θ.2 j)).1)
      linarith
    · rw [Finset.sum_congr rfl (fun (j : Fin d) _ => (mean_sq_le hn (rest X (fun i j : Fin d => θ.1 j i) j) (θ.2 j)).2 (h j))]
  -- the true parameters
  let θB : Params := (fun k i => if h : k < d ∧ i < d then B ⟨i, h.2⟩ ⟨k, h.1⟩ else 0, fun k => if h : k < d then sMean (rest X B ⟨k, h⟩) else 0)
  have hθB : (fun i j : Fin d => θB.1 j i) = B := by
    funext i j
    simp [θB]
  have hacB : Acyclic (MatEdge (linW d θB)) := by
    have : MatEdge (linW d θB) = fun i j => B i j ≠ 0 := by
      funext i j
      rw [lin_edge, ← congrFun (congrFun hθB i) j]
    rw [this]; exact hB
  have hvalB : objective σ 0 rho alpha X (linNet d θB) = 0.5 * ∑ j : Fin d, sVar (rest X B j) := by
    rw [(hobj θB hacB).2, hθB]
    intro j
    rw [hθB]
    simp [θB]
  have hacB' : Acyclic (MatEdge (fun i j => Matrix.of B i j)) := hB
  have hnoise : (centred X - centred X * Matrix.of B).transpose * (centred X - centred X * Matrix.of B) = (n * s) • (1 : Matrix (Fin d) (Fin d) ℝ) := by
    ext j k
    rw [Matrix.mul_apply, Matrix.smul_apply, Matrix.one_apply, smul_eq_mul]
    have h1 : ∑ a, (centred X - centred X * Matrix.of B).transpose j a * ((centred X - centred X * Matrix.of B : Matrix (Fin n) (Fin d) ℝ)) a k = n * sCov (rest X B j) (rest X B k) := by
      have : sCov (rest X B j) (rest X B k) = (∑ a, (rest X B j a - sMean (rest X B j)) * (rest X B k a - sMean (rest X B k))) / n := rfl
      rw [this, mul_div_cancel₀ _ hn']
      refine Finset.sum_congr rfl (fun a _ => ?_)
      rw [Matrix.transpose_apply, centred_rest hn, centred_rest hn]
    rw [h1, hE]
    split_ifs <;> ring
  -- every other acyclic matrix has larger errors
  have hother : ∀ V : Fin d → Fin d → ℝ, Acyclic (fun i j => V i j ≠ 0) → V ≠ B → ∑ j, sVar (rest X B j) < ∑ j, sVar (rest X V j) := by
    intro V hV hne
    have hd : 0 < d := by
      rcases Nat.eq_zero_or_pos d with h0 | h0
      · subst h0; exact absurd (Subsingleton.elim V B) hne
      · exact h0
    have hdet : ∀ V : Matrix (Fin d) (Fin d) ℝ, Acyclic (MatEdge (fun i j => V i j)) → (1 - V).det = 1 := fun V h => by
      have := MMat.det_acyclic 1 V h
      rwa [one_smul, one_pow] at this
    have hT := (C148_truth (centred X) (Matrix.of B) (n * s) (by positivity) hacB' hnoise (Matrix.of V) (by rw [hdet (Matrix.of V) hV]; exact one_ne_zero)).2 hV
      (fun h => hne (by funext i j; exact congrFun (congrFun h i) j))
    unfold Dagma.likelihood at hT
    rw [if_pos rfl, if_pos rfl, hdet (Matrix.of V) hV, hdet (Matrix.of B) hacB', abs_one, Real.log_one, sub_zero, sub_zero] at hT
    have hd' : (0 : ℝ) < d := Nat.cast_pos.2 hd
    have hlog : Real.log (Dagma.residual (centred X) (Matrix.of B)) < Real.log (Dagma.residual (centred X) (Matrix.of V)) := by
      have : (0 : ℝ) < 0.5 * d := by positivity
      exact lt_of_mul_lt_mul_left hT this.le
    have hsumB : ∑ j : Fin d, sVar (rest X B j) = d * s := by
      rw [Finset.sum_congr rfl (fun j _ => show sVar (rest X B j) = s by unfold sVar; rw [hE, if_pos rfl]), Finset.sum_const, Finset.card_univ, Fintype.card_fin, nsmul_eq_mul]
    have hresB : 0 < Dagma.residual (centred X) (Matrix.of B) := by
      rw [residual_centred hn, hsumB]; positivity
    have hresV : 0 < Dagma.residual (centred X) (Matrix.of V) := by
      rw [residual_centred hn]
      refine lt_of_le_of_ne (mul_nonneg hn0.le (Finset.sum_nonneg (fun j _ => sVar_nonneg _))) (fun h0 => ?_)
      have hz : Dagma.residual (centred X) (Matrix.of V) = 0 := by rw [residual_centred hn]; exact h0.symm
      have hzero : centred X - centred X * Matrix.of V = 0 := by
        ext a j
        have h1 := (Finset.sum_eq_zero_iff_of_nonneg (fun a _ => Finset.sum_nonneg (fun j _ => sq_nonneg _))).1 hz a (Finset.mem_univ a)
        have h2 := (Finset.sum_eq_zero_iff_of_nonneg (fun j _ => sq_nonneg _)).1 h1 j (Finset.mem_univ j)
        exact pow_eq_zero_iff two_ne_zero |>.1 h2
      have hX0 : (centred X : Matrix (Fin n) (Fin d) ℝ) = 0 := by
        have e2 : (centred X : Matrix (Fin n) (Fin d) ℝ) * (1 - Matrix.of V) = 0 := by rw [Matrix.mul_sub, Matrix.mul_one, hzero]
        have hu : IsUnit (1 - Matrix.of V).det := by rw [hdet (Matrix.of V) hV]; exact isUnit_one
        have := congrArg (· * (1 - Matrix.of V)⁻¹) e2
        simpa [Matrix.mul_assoc, Matrix.mul_nonsing_inv _ hu] using this
      have hb0 : Dagma.residual (centred X) (Matrix.of B) = 0 := by
        unfold Dagma.residual
        rw [hX0]
        simp
      exact absurd hb0 hresB.ne'
    have hlt := (Real.log_lt_log_iff hresB hresV).1 hlog
    rw [residual_centred hn, residual_centred hn] at hlt
    exact lt_of_mul_lt_mul_left hlt hn0.le
  have hbest : IsBest d σ 0 rho alpha X θB := by
    refine ⟨hacB, fun θ' h' => ?_⟩
    rw [hvalB]
    refine le_trans ?_ (hobj θ' h').1
    by_cases he : (fun i j : Fin d => θ'.1 j i) = B
    · rw [he]
    · have h2 : Acyclic (fun i j : Fin d => θ'.1 j i ≠ 0) := by
        have : MatEdge (linW d θ') = fun i j : Fin d => θ'.1 j i ≠ 0 := by funext i j; rw [lin_edge]
        rwa [this] at h'
      have := hother _ h2 he
      linarith
  refine ⟨⟨θB, hbest⟩, fun θ hθ => ?_⟩
  have hW : (fun i j : Fin d => θ.1 j i) = B := by
    by_contra hne
    have h2 : Acyclic (fun i j : Fin d => θ.1 j i ≠ 0) := by
      have : MatEdge (linW d θ) = fun i j : Fin d => θ.1 j i ≠ 0 := by funext i j; rw [lin_edge]
      have h3 := hθ.1
      rwa [this] at h3
    have h4 := hother _ h2 hne
    have h5 := hθ.2 θB hacB
    rw [hvalB] at h5
    have h6 := (hobj θ hθ.1).1
    linarith
  refine ⟨fun i j => congrFun (congrFun hW i) j, fun i j => ?_⟩
  rw [← congrFun (congrFun hW i) j]
  exact (C107_linear σ (linNet d θ) rfl rfl (fun _ => 0) i j).2

/-- non-vacuity: the table above comes from `x_1 = x_0 + e`; its noise terms are uncorrelated and have variance 1 -/
example : ∃ B : Fin 2 → Fin 2 → ℝ, Acyclic (fun i j => B i j ≠ 0) ∧ B 0 1 = 1 ∧
    ∀ j k, sCov (rest causeTable B j) (rest causeTable B k) = if j = k then 1 else 0 := by
  refine ⟨![![0, 1], ![0, 0]], ?_, rfl, fun j k => ?_⟩
  · exact forward_acyclic 1
  · fin_cases j <;> fin_cases k <;> simp [sCov, sMean, rest, causeTable, Fin.sum_univ_four] <;> norm_num

/-- non-vacuity of `C151_hidden_loss_refuted`: a hidden layer of width 4, data with the values 10 and 20 -/
example : ∃ (net : Net ℝ) (L : Layer ℝ) (X : Data 2), net.layers = [] ++ [L] ∧ L.inF = 4 ∧ FreshLayer L ∧ (L.inF + 1) / Real.sqrt L.inF ≤ 10 ∧ (∀ a, ∀ j < net.d, 10 ≤ |X a j|) ∧
    net.d / 2 * (10 - (L.inF + 1) / Real.sqrt L.inF) ^ 2 = 56.25 := by
  have h2 : Real.sqrt 4 = 2 := by
    rw [show (4 : ℝ) = 2 ^ 2 by norm_num]
    exact Real.sqrt_sq (by norm_num)
  refine ⟨⟨2, 4, fun _ _ => 0, fun _ => 0, [⟨4, fun _ _ _ => 1 / 2, fun _ _ => -(1 / 2)⟩]⟩, ⟨4, fun _ _ _ => 1 / 2, fun _ _ => -(1 / 2)⟩, fun a j => if j = 0 then 10 else 20, rfl, rfl,
    ⟨fun j k o => ?_, fun j o => ?_⟩, ?_, fun a j _ => ?_, ?_⟩
  · push_cast; rw [h2]; norm_num
  · push_cast; rw [h2]; norm_num [abs_neg]
  · push_cast; rw [h2]; norm_num
  · by_cases h : j = 0 <;> simp only [h, if_true, if_false] <;> norm_num
  · push_cast; rw [h2]; norm_num

/-- non-vacuity of `C151_units`: the first column shifted, the second one in other units -/
example : ∃ (Y : Data 4) (c b : Nat → ℝ), (∀ j, 0 < c j) ∧ (∀ a j, Y a j = c j * causeTable a j + b j) ∧ Y ≠ causeTable :=
  ⟨fun a j => 10 * causeTable a j + 5, fun _ => 10, fun _ => 5, fun _ => by norm_num, fun _ _ => rfl, fun h => by
    have := congrFun (congrFun h 0) 0
    norm_num [causeTable] at this⟩

end

end YL.Props
