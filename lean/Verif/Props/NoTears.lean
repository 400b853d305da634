import Verif.Model.NoTears
import Verif.Props.Discovery
import Mathlib.Topology.Instances.Matrix
import Mathlib.Topology.Algebra.InfiniteSum.Order
import Mathlib.Topology.Algebra.InfiniteSum.Real
import Mathlib.Order.Interval.Finset.Nat
import Mathlib.Algebra.Order.BigOperators.Ring.Finset
import Mathlib.Tactic.Linarith
import Mathlib.Tactic.Positivity
import Mathlib.Data.Finset.Card
import Mathlib.Tactic.NormNum
import Mathlib.Tactic.Ring
import Mathlib.Algebra.Order.Archimedean.Basic

/-!
# C107-C109: the network, the penalty and the training loop of causal discovery
-/

set_option linter.unusedSectionVars false

namespace YL.Props

open YL Spec Discovery NoTears

/-! ### The penalty -/

section Penalty
variable {d : Nat}

theorem pow_entry_nonneg {S : Matrix (Fin d) (Fin d) ℝ} (hS : ∀ i j, 0 ≤ S i j) :
    ∀ (k : Nat) (i j : Fin d), 0 ≤ (S ^ k) i j
  | 0, i, j => by
    rw [pow_zero, Matrix.one_apply]; split_ifs <;> norm_num
  | k + 1, i, j => by
    rw [pow_succ, Matrix.mul_apply]
    exact Finset.sum_nonneg (fun l _ => mul_nonneg (pow_entry_nonneg hS k i l) (hS l j))

theorem pow_pos_of_walk {S : Matrix (Fin d) (Fin d) ℝ} (hS : ∀ i j, 0 ≤ S i j) {i j : Fin d}
    (h : Relation.TransGen (fun a b => S a b ≠ 0) i j) : ∃ k ≥ 1, 0 < (S ^ k) i j := by
  induction h with
  | single h => exact ⟨1, le_rfl, by rw [pow_one]; exact lt_of_le_of_ne (hS _ _) (Ne.symm h)⟩
  | @tail b c _ hbc ih =>
    obtain ⟨k, hk, hp⟩ := ih
    refine ⟨k + 1, by omega, ?_⟩
    rw [pow_succ, Matrix.mul_apply]
    have h1 : 0 < (S ^ k) i b * S b c := mul_pos hp (lt_of_le_of_ne (hS _ _) (Ne.symm hbc))
    exact lt_of_lt_of_le h1 (Finset.single_le_sum (f := fun l => (S ^ k) i l * S l c)
      (fun l _ => mul_nonneg (pow_entry_nonneg hS k i l) (hS l c)) (Finset.mem_univ b))

theorem walk_of_pow {S : Matrix (Fin d) (Fin d) ℝ} : ∀ (k : Nat) (i j : Fin d), (S ^ (k + 1)) i j ≠ 0 →
    Relation.TransGen (fun a b => S a b ≠ 0) i j
  | 0, i, j, h => by rw [zero_add, pow_one] at h; exact .single h
  | k + 1, i, j, h => by
    rw [pow_succ, Matrix.mul_apply] at h
    obtain ⟨l, -, hl⟩ := Finset.exists_ne_zero_of_sum_ne_zero h
    exact .tail (walk_of_pow k i l (left_ne_zero_of_mul hl)) (right_ne_zero_of_mul hl)

theorem traceExp_hasSum (S : Matrix (Fin d) (Fin d) ℝ) :
    HasSum (fun k : Nat => ((Nat.factorial k : ℝ)⁻¹) * (S ^ k).trace) (NormedSpace.exp S).trace := by
  letI : NormedRing (Matrix (Fin d) (Fin d) ℝ) := Matrix.linftyOpNormedRing
  letI : NormedAlgebra ℝ (Matrix (Fin d) (Fin d) ℝ) := Matrix.linftyOpNormedAlgebra
  have h := NormedSpace.exp_series_hasSum_exp' (𝕂 := ℝ) S
  have h2 := h.map (Matrix.traceAddMonoidHom (Fin d) ℝ) (by
    show Continuous (fun A : Matrix (Fin d) (Fin d) ℝ => A.trace)
    exact Continuous.matrix_trace continuous_id)
  have e : (⇑(Matrix.traceAddMonoidHom (Fin d) ℝ) ∘ fun n : Nat => ((Nat.factorial n : ℝ)⁻¹) • S ^ n) =
      fun k : Nat => ((Nat.factorial k : ℝ)⁻¹) * (S ^ k).trace := by
    funext k
    show ((Nat.factorial k : ℝ)⁻¹ • S ^ k).trace = _
    rw [Matrix.trace_smul, smul_eq_mul]
  rw [e] at h2
  exact h2

theorem trace_pow_nonneg {S : Matrix (Fin d) (Fin d) ℝ} (hS : ∀ i j, 0 ≤ S i j) (k : Nat) :
    0 ≤ ((Nat.factorial k : ℝ)⁻¹) * (S ^ k).trace :=
  mul_nonneg (by positivity) (Finset.sum_nonneg (fun i _ => pow_entry_nonneg hS k i i))

theorem traceExp_nonneg {S : Matrix (Fin d) (Fin d) ℝ} (hS : ∀ i j, 0 ≤ S i j) : 0 ≤ traceExp S := by
  have h := le_hasSum (traceExp_hasSum S) 0 (fun k _ => trace_pow_nonneg hS k)
  simp only [Nat.factorial_zero, Nat.cast_one, inv_one, pow_zero, one_mul, Matrix.trace_one, Fintype.card_fin] at h
  unfold traceExp; linarith

theorem traceExp_pos {S : Matrix (Fin d) (Fin d) ℝ} (hS : ∀ i j, 0 ≤ S i j) {k : Nat} (hk : 1 ≤ k) {i : Fin d}
    (hi : 0 < (S ^ k) i i) : 0 < traceExp S := by
  have h := sum_le_hasSum ({0, k} : Finset Nat) (fun k _ => trace_pow_nonneg hS k) (traceExp_hasSum S)
  rw [Finset.sum_pair (by omega)] at h
  simp only [Nat.factorial_zero, Nat.cast_one, inv_one, pow_zero, one_mul, Matrix.trace_one, Fintype.card_fin] at h
  have h1 : 0 < (S ^ k).trace := lt_of_lt_of_le hi (Finset.single_le_sum (f := fun l => (S ^ k) l l)
    (fun l _ => pow_entry_nonneg hS k l l) (Finset.mem_univ i))
  have h2 : 0 < ((Nat.factorial k : ℝ)⁻¹) * (S ^ k).trace := mul_pos (by positivity) h1
  unfold traceExp; linarith

theorem traceExp_zero {S : Matrix (Fin d) (Fin d) ℝ} (hS : ∀ (k : Nat) (i : Fin d), (S ^ (k + 1)) i i = 0) :
    traceExp S = 0 := by
  have h := traceExp_hasSum S
  have h' : HasSum (fun k : Nat => ((Nat.factorial k : ℝ)⁻¹) * (S ^ k).trace) (d : ℝ) := by
    have := hasSum_single (f := fun k : Nat => ((Nat.factorial k : ℝ)⁻¹) * (S ^ k).trace) 0 (by
      intro k hk
      obtain ⟨k', rfl⟩ : ∃ k', k = k' + 1 := ⟨k - 1, by omega⟩
      show ((Nat.factorial (k' + 1) : ℝ)⁻¹) * (∑ i, (S ^ (k' + 1)) i i) = 0
      rw [Finset.sum_eq_zero (fun i _ => hS k' i), mul_zero])
    simpa using this
  unfold traceExp
  rw [h.unique h']; ring

theorem traceExp_zero_iff {S : Matrix (Fin d) (Fin d) ℝ} (hS : ∀ i j, 0 ≤ S i j) :
    traceExp S = 0 ↔ ∀ i, ¬ Relation.TransGen (fun a b => S a b ≠ 0) i i := by
  constructor
  · intro h i hi
    obtain ⟨k, hk, hp⟩ := pow_pos_of_walk hS hi
    exact absurd h (traceExp_pos hS hk hp).ne'
  · intro h
    refine traceExp_zero (fun k i => ?_)
    by_contra hne
    exact h i (walk_of_pow k i i hne)
end Penalty

theorem strength_nonneg (net : Net ℝ) (i j : Nat) : 0 ≤ strength net i j :=
  Finset.sum_nonneg (fun _ _ => sq_nonneg _)

theorem strength_zero {net : Net ℝ} {i j : Nat} (h : strength net i j = 0) {k : Nat} (hk : k < net.m) :
    net.w (j * net.m + k) i = 0 := by
  have := (Finset.sum_eq_zero_iff_of_nonneg (fun k _ => sq_nonneg (net.w (j * net.m + k) i))).1 h k
    (Finset.mem_range.2 hk)
  exact pow_eq_zero_iff (two_ne_zero) |>.1 this

theorem getW_ne (net : Net ℝ) (i j : Fin net.d) : getW net i j ≠ 0 ↔ strength net i j ≠ 0 := by
  unfold getW
  rw [Real.sqrt_ne_zero (strength_nonneg net i j)]

/-- C107. The acyclicity penalty `h_func()` of the reconstruction network is never negative, and it is zero exactly if the
graph of the weights that `get_W()` reports - an edge from `i` to `j` for every non-zero entry - has no directed
cycle. For every network (any number of variables, any hidden layers). -/
theorem C107_penalty (net : Net ℝ) :
    0 ≤ hFunc net ∧ (hFunc net = 0 ↔ Acyclic (MatEdge (getW net))) := by
  refine ⟨traceExp_nonneg (fun i j => strength_nonneg net i j), ?_⟩
  unfold hFunc
  rw [traceExp_zero_iff (fun i j => strength_nonneg net i j)]
  have : (fun a b : Fin net.d => strength net a b ≠ 0) = MatEdge (getW net) := by
    funext a b; exact propext (getW_ne net a b).symm
  rw [this]
  exact Iff.rfl

/-- C107, the classes `Golem`, `Dynotears` and `DyGolem`: the same for their weights `w_est`, of either sign. -/
theorem C107_penalty_golem {d : Nat} (W : Mat d ℝ) :
    0 ≤ hGolem W ∧ (hGolem W = 0 ↔ Acyclic (MatEdge W)) := by
  refine ⟨traceExp_nonneg (fun i j => mul_self_nonneg _), ?_⟩
  unfold hGolem
  rw [traceExp_zero_iff (fun i j => mul_self_nonneg _)]
  have : (fun a b : Fin d => W a b * W a b ≠ 0) = MatEdge W := by
    funext a b; exact propext (by unfold MatEdge; rw [Ne, mul_self_eq_zero])
  rw [this]
  exact Iff.rfl

/-! ### The network -/

/-- The shapes that `DagNet(dims)` gives its layers: without hidden layers `dims = [d, 1]`; otherwise the first
locally connected layer takes the `dims[1]` outputs of `a1`. -/
def Shaped {K : Type} (net : Net K) : Prop :=
  (net.layers = [] → net.m = 1) ∧ ∀ L ∈ net.layers.head?, L.inF = net.m

theorem foldl_layers {K : Type} [CommSemiring K] (σ : K → K) (j : Nat) : ∀ (ls : List (Layer K)) (h h' : Nat → Nat → K),
    (∀ k, h j k = h' j k) → ∀ k, ls.foldl (fun h L => applyLayer σ L h) h j k = ls.foldl (fun h L => applyLayer σ L h) h' j k
  | [], h, h', e, k => e k
  | L :: ls, h, h', e, k => foldl_layers σ j ls _ _ (fun o => by
      unfold applyLayer
      simp only [e]) k

theorem forward_congr {K : Type} [CommSemiring K] (σ : K → K) (net : Net K) (hs : Shaped net) (x x' : Nat → K) (j : Nat)
    (h : ∀ k < net.m, first net x j k = first net x' j k) : forward σ net x j = forward σ net x' j := by
  unfold forward
  cases hl : net.layers with
  | nil => exact h 0 (by rw [hs.1 hl]; exact one_pos)
  | cons L ls =>
    refine foldl_layers σ j ls _ _ (fun o => ?_) 0
    unfold applyLayer
    have hL : L.inF = net.m := hs.2 L (by rw [hl]; rfl)
    refine congrArg (· + _) (Finset.sum_congr rfl (fun k hk => ?_))
    rw [h k (by rw [← hL]; exact Finset.mem_range.1 hk)]

/-- C107. What the reported weights mean: if `get_W()[i, j]` is zero, the network's reconstruction of column `j` does not
depend on column `i` - two rows that agree in all columns with a non-zero weight into `j` have the same reconstruction
of column `j`, whatever the activation function and the hidden layers. -/
theorem C107_reconstruction (σ : ℝ → ℝ) (net : Net ℝ) (hs : Shaped net) (x x' : Nat → ℝ) (j : Fin net.d)
    (h : ∀ i : Fin net.d, MatEdge (getW net) i j → x i = x' i) : forward σ net x j = forward σ net x' j := by
  refine forward_congr σ net hs x x' j (fun k hk => ?_)
  unfold first
  refine congrArg (· + _) (Finset.sum_congr rfl (fun i hi => ?_))
  by_cases hij : strength net i j = 0
  · rw [strength_zero hij hk, zero_mul, zero_mul]
  · rw [h ⟨i, Finset.mem_range.1 hi⟩ ((getW_ne net ⟨i, _⟩ j).2 hij)]

/-- A ranking of the variables that increases along every edge. -/
theorem exists_rank {d : Nat} {E : Fin d → Fin d → Prop} (h : Acyclic E) : ∃ rank : Fin d → Nat, ∀ i j, E i j → rank i < rank j := by
  classical
  refine ⟨fun j => (Finset.univ.filter (fun i => Relation.TransGen E i j)).card, fun i j hij => ?_⟩
  refine Finset.card_lt_card ⟨fun a ha => ?_, fun hsub => ?_⟩
  · rw [Finset.mem_filter] at ha ⊢
    exact ⟨ha.1, ha.2.tail hij⟩
  · have := hsub (Finset.mem_filter.2 ⟨Finset.mem_univ i, .single hij⟩)
    exact h i (Finset.mem_filter.1 this).2

/-- C107. A network with penalty zero is a causal model: the variables can be ranked so that the reconstruction of each
depends only on variables of lower rank; in particular no variable is used to reconstruct itself. -/
theorem C107_ranked (net : Net ℝ) (hs : Shaped net) (h0 : hFunc net = 0) :
    ∃ rank : Fin net.d → Nat, ∀ (σ : ℝ → ℝ) (j : Fin net.d) (x x' : Nat → ℝ),
      (∀ i : Fin net.d, rank i < rank j → x i = x' i) → forward σ net x j = forward σ net x' j := by
  obtain ⟨rank, hr⟩ := exists_rank ((C107_penalty net).2.1 h0)
  exact ⟨rank, fun σ j x x' h => C107_reconstruction σ net hs x x' j (fun i hij => h i (hr i j hij))⟩

/-- C107. Without hidden layers (the default) the reconstruction is a linear regression and the reported weight is the
absolute value of its coefficient. -/
theorem C107_linear (σ : ℝ → ℝ) (net : Net ℝ) (hl : net.layers = []) (hm : net.m = 1) (x : Nat → ℝ) (i j : Fin net.d) :
    forward σ net x j = ∑ i ∈ Finset.range net.d, net.w j i * x i + net.b j ∧ getW net i j = |net.w j i| := by
  constructor
  · unfold forward first
    rw [hl]
    simp [hm]
  · unfold getW strength
    rw [hm, Finset.sum_range_one, mul_one, add_zero, Real.sqrt_sq_eq_abs]

/-- non-vacuity: two variables, one hidden layer, the first variable feeds the second; the penalty is zero -/
noncomputable def chainNet : Net ℝ := ⟨2, 1, fun r i => if r = 1 ∧ i = 0 then 3 else 0, fun _ => 1, [⟨1, fun _ _ _ => 2, fun _ _ => 0⟩]⟩

example : Shaped chainNet ∧ hFunc chainNet = 0 ∧ getW chainNet (0 : Fin 2) (1 : Fin 2) = 3 ∧
    forward (fun t => t) chainNet (fun _ => 5) 1 = 32 := by
  refine ⟨⟨fun h => by simp [chainNet] at h, fun L hL => ?_⟩, ?_, ?_, ?_⟩
  · simp [chainNet] at hL; subst hL; rfl
  · refine traceExp_zero (S := fun i j : Fin 2 => strength chainNet i j) (fun k i => ?_)
    have h1 : ∀ i j : Fin 2, strength chainNet i j = if i = 0 ∧ j = 1 then 9 else 0 := by
      intro i j
      fin_cases i <;> fin_cases j <;> simp [strength, chainNet] <;> norm_num
    have hw : ∀ a b : Fin 2, Relation.TransGen (fun a b : Fin 2 => strength chainNet a b ≠ 0) a b → a = 0 ∧ b = 1 := by
      intro a b hab
      induction hab with
      | single h => by_contra hc; rw [h1, if_neg hc] at h; exact h rfl
      | tail _ h ih => by_contra hc; rw [h1] at h; split_ifs at h with hh
                       · exact absurd (hh.1.symm.trans ih.2) (by decide)
                       · exact h rfl
    by_contra hne
    have := hw i i (walk_of_pow (S := fun i j : Fin 2 => strength chainNet i j) k i i hne)
    exact absurd (this.1.symm.trans this.2) (by decide)
  · have : strength chainNet 0 1 = 3 ^ 2 := by simp [strength, chainNet]
    show Real.sqrt (strength chainNet 0 1) = 3
    rw [this, Real.sqrt_sq (by norm_num)]
  · simp [forward, chainNet, applyLayer, first, Finset.sum_range_succ]; norm_num

/-- non-vacuity: two variables that feed each other have a positive penalty -/
example : 0 < hGolem (fun i j : Fin 2 => if i = j then 0 else 1) := by
  refine lt_of_le_of_ne (C107_penalty_golem _).1 (fun h => ?_)
  exact (C107_penalty_golem _).2.1 h.symm 0 (.tail (.single (b := 1) (by simp [MatEdge])) (by simp [MatEdge]))


/-! ### The training loop -/

section Training
variable {K Θ : Type} [Field K] [LinearOrder K] [IsStrictOrderedRing K]

/-- what one run of the inner loop does: `g` is the number of tenfold increases of `rho` -/
theorem rhoLoop_spec (s : Solver K Θ) (rhoMax alpha : K) (h : Option K) (count : Θ → Nat)
    (hc : ∀ (r a : K) (θ : Θ), count (s.step r a θ) ≤ count θ + 1) :
    ∀ (fuel k : Nat) (θ : Θ) (rho : K) (last : Option K), 0 < rho → rhoMax ≤ rho * 10 ^ k → k < fuel →
      ∃ (θ' : Θ) (g : Nat) (l : Option K), rhoLoop s rhoMax alpha h fuel θ rho last = .ok (θ', rho * 10 ^ g, l) ∧
        count θ' ≤ count θ + g + 1 ∧ (g = 0 ∨ rho * 10 ^ (g - 1) < rhoMax) ∧
        (rhoMax ≤ rho * 10 ^ g ∨ ∃ v, l = some v ∧ tooLarge s v h = false) ∧
        (rho < rhoMax → l = some (s.pen θ')) ∧ (¬ rho < rhoMax → θ' = θ ∧ g = 0 ∧ l = last) := by
  intro fuel
  induction fuel with
  | zero => intro k θ rho last _ _ hk; omega
  | succ f ih =>
    intro k θ rho last hrho hmax hk
    by_cases hlt : rho < rhoMax
    · by_cases hb : tooLarge s (s.pen (s.step rho alpha θ)) h = true
      · obtain ⟨k', rfl⟩ : ∃ k', k = k' + 1 := by
          refine ⟨k - 1, ?_⟩
          by_contra hne
          have : k = 0 := by omega
          subst this
          rw [pow_zero, mul_one] at hmax
          exact absurd hmax (not_le.2 hlt)
        obtain ⟨θ', g, l, e1, e2, e3, e4, e5, e6⟩ := ih k' (s.step rho alpha θ) (rho * 10)
          (some (s.pen (s.step rho alpha θ))) (by positivity) (by rw [mul_assoc, ← pow_succ']; exact hmax) (by omega)
        have hpow : rho * 10 * 10 ^ g = rho * 10 ^ (g + 1) := by rw [pow_succ']; ring
        refine ⟨θ', g + 1, l, ?_, ?_, ?_, ?_, ?_, fun hn => absurd hlt hn⟩
        · rw [rhoLoop, if_pos hlt]
          dsimp only
          rw [if_pos hb, e1, hpow]
        · have := hc rho alpha θ; omega
        · right
          by_cases hg : g = 0
          · subst hg; simpa using hlt
          · obtain ⟨g', rfl⟩ : ∃ g', g = g' + 1 := ⟨g - 1, by omega⟩
            rcases e3 with e3 | e3
            · omega
            · simp only [Nat.add_sub_cancel] at e3 ⊢
              rwa [pow_succ', ← mul_assoc]
        · rw [← hpow]; exact e4
        · intro _
          by_cases hlt' : rho * 10 < rhoMax
          · exact e5 hlt'
          · obtain ⟨a, _, c⟩ := e6 hlt'
            rw [a, c]
      · refine ⟨s.step rho alpha θ, 0, some (s.pen (s.step rho alpha θ)), ?_, ?_, .inl rfl, .inr ⟨_, rfl, ?_⟩, fun _ => rfl,
          fun hn => absurd hlt hn⟩
        · rw [rhoLoop, if_pos hlt]
          dsimp only
          rw [if_neg hb, pow_zero, mul_one]
        · have := hc rho alpha θ; omega
        · simpa using hb
    · refine ⟨θ, 0, last, ?_, by omega, .inl rfl, .inl ?_, fun h => absurd h hlt, fun _ => ⟨rfl, rfl, rfl⟩⟩
      · rw [rhoLoop, if_neg hlt, pow_zero, mul_one]
      · simpa using not_lt.1 hlt

theorem rhoUpdate_spec (s : Solver K Θ) (rhoMax : K) (count : Θ → Nat)
    (hc : ∀ (r a : K) (θ : Θ), count (s.step r a θ) ≤ count θ + 1) (fuel k : Nat) (θ : Θ) (rho alpha : K) (h : Option K)
    (hrho : 0 < rho) (hmax : rhoMax ≤ rho * 10 ^ k) (hk : k < fuel) (hlt : rho < rhoMax) :
    ∃ (θ' : Θ) (g : Nat) (alpha' : K), rhoUpdate s rhoMax fuel θ rho alpha h = .ok (θ', rho * 10 ^ g, alpha', s.pen θ') ∧
        count θ' ≤ count θ + g + 1 ∧ (g = 0 ∨ rho * 10 ^ (g - 1) < rhoMax) ∧
        (rhoMax ≤ rho * 10 ^ g ∨ tooLarge s (s.pen θ') h = false) := by
  obtain ⟨θ', g, l, e1, e2, e3, e4, e5, -⟩ := rhoLoop_spec s rhoMax alpha h count hc fuel k θ rho none hrho hmax hk
  refine ⟨θ', g, alpha + rho * 10 ^ g * s.pen θ', ?_, e2, e3, ?_⟩
  · unfold rhoUpdate
    rw [e1, e5 hlt]
  · rcases e4 with e4 | ⟨v, hv, e4⟩
    · exact .inl e4
    · rw [e5 hlt] at hv
      cases hv
      exact .inr e4

theorem train_spec (s : Solver K Θ) (hs : 0 ≤ s.shrink) (rhoMax tol : K) (count : Θ → Nat)
    (hc : ∀ (r a : K) (θ : Θ), count (s.step r a θ) ≤ count θ + 1) (hf : ∀ θ : Θ, count (s.fresh θ) ≤ count θ)
    (k fuel : Nat) (hk : rhoMax ≤ 10 ^ k) (hfuel : k < fuel) :
    ∀ (e : Nat) (θ : Θ) (G : Nat) (alpha h : K), (10 : K) ^ G < rhoMax →
      ∃ (θ' : Θ) (G' : Nat) (v : K), train s rhoMax tol fuel e θ (10 ^ G) alpha (some h) = .ok (θ', 10 ^ G', some v) ∧
        G' ≤ k ∧ count θ' + G ≤ count θ + e + G' ∧ (0 < e → v = s.pen θ') ∧ (e = 0 → v = h) ∧
        (v ≤ tol ∨ rhoMax ≤ 10 ^ G' ∨ s.isNan θ' = true ∨ v ≤ s.shrink ^ e * h) := by
  intro e
  induction e with
  | zero =>
    intro θ G alpha h hG
    refine ⟨θ, G, h, rfl, ?_, by omega, by omega, fun _ => rfl, .inr (.inr (.inr (by simp)))⟩
    by_contra hlt
    exact absurd (hk.trans (pow_le_pow_right₀ (by norm_num) (by omega : k ≤ G))) (not_le.2 hG)
  | succ e ih =>
    intro θ G alpha h hG
    have hGk : G ≤ k := by
      by_contra hlt
      exact absurd (hk.trans (pow_le_pow_right₀ (by norm_num) (by omega : k ≤ G))) (not_le.2 hG)
    obtain ⟨θ1, g, a1, e1, e2, e3, e4⟩ := rhoUpdate_spec s rhoMax count hc fuel (k - G) (s.fresh θ) (10 ^ G) alpha (some h)
      (by positivity) (by rw [← pow_add]; simpa [hGk] using hk) (by omega) hG
    have hfr := hf θ
    have hg : G + g ≤ k := by
      rcases e3 with rfl | e3
      · omega
      · by_contra hlt
        rw [← pow_add] at e3
        by_cases g0 : g = 0
        · omega
        · exact absurd (hk.trans (pow_le_pow_right₀ (by norm_num) (by omega : k ≤ G + (g - 1)))) (not_le.2 e3)
    rw [← pow_add] at e1 e4
    by_cases hstop : s.pen θ1 ≤ tol ∨ rhoMax ≤ 10 ^ (G + g) ∨ s.isNan θ1 = true
    · refine ⟨θ1, G + g, s.pen θ1, ?_, hg, by omega, fun _ => rfl, by omega, ?_⟩
      · rw [train, e1]
        exact if_pos hstop
      · rcases hstop with a | a | a
        · exact .inl a
        · exact .inr (.inl a)
        · exact .inr (.inr (.inl a))
    · have hlt : (10 : K) ^ (G + g) < rhoMax := by
        by_contra hn; exact hstop (.inr (.inl (not_lt.1 hn)))
      obtain ⟨θ', G', v, f1, f2, f3, f4, f5, f6⟩ := ih θ1 (G + g) a1 (s.pen θ1) hlt
      refine ⟨θ', G', v, ?_, f2, by omega, fun _ => ?_, by omega, ?_⟩
      · rw [train, e1]
        exact (if_neg hstop).trans f1
      · by_cases he : 0 < e
        · exact f4 he
        · have he0 : e = 0 := by omega
          subst he0
          have f1' : (Except.ok (θ1, (10 : K) ^ (G + g), some (s.pen θ1)) : Except Err _) = .ok (θ', 10 ^ G', some v) := f1
          injection f1' with f1'
          have hθ : θ1 = θ' := congrArg (fun p : Θ × K × Option K => p.1) f1'
          rw [f5 rfl, hθ]
      · rcases f6 with a | a | a | a
        · exact .inl a
        · exact .inr (.inl a)
        · exact .inr (.inr (.inl a))
        · refine .inr (.inr (.inr (a.trans ?_)))
          have hsm : s.pen θ1 ≤ s.shrink * h := by
            rcases e4 with e4 | e4
            · exact absurd e4 (not_le.2 hlt)
            · have : decide (s.shrink * h < s.pen θ1) = false := e4
              exact not_lt.1 (of_decide_eq_false this)
          rw [pow_succ, mul_assoc]
          exact mul_le_mul_of_nonneg_left hsm (pow_nonneg hs e)

/-- C108. The training of `CausalDiscovery` (and, with `shrink = 1/4`, of `DyCausalDiscovery`) for any model, optimiser and
data, a penalty weight limit `rho_max` above 1 and at least one epoch: it ends, after at most `epoch + k` optimiser
runs where `10^k` is the first power of ten that reaches `rho_max`; the penalty it reports is that of the weights it
leaves; and it stopped because that penalty is within the tolerance, or the weight limit was reached, or a weight is
NaN, or after all epochs - in which case every epoch after the first has shrunk the penalty by the factor. (`count`
stands for the number of optimiser runs.) -/
theorem C108_training (s : Solver K Θ) (hs : 0 ≤ s.shrink) (rhoMax tol : K) (count : Θ → Nat)
    (hc : ∀ (r a : K) (θ : Θ), count (s.step r a θ) ≤ count θ + 1) (hf : ∀ θ : Θ, count (s.fresh θ) ≤ count θ)
    (k fuel epoch : Nat) (h1 : 1 < rhoMax) (hk : rhoMax ≤ 10 ^ k) (hfuel : k < fuel) (he : 0 < epoch) (θ : Θ) :
    ∃ (θ' : Θ) (rho : K), training s rhoMax tol fuel epoch θ = .ok (θ', rho, some (s.pen θ')) ∧
      1 ≤ rho ∧ rho ≤ 10 ^ k ∧ count θ' ≤ count θ + epoch + k ∧
      (s.pen θ' ≤ tol ∨ rhoMax ≤ rho ∨ s.isNan θ' = true ∨
        s.pen θ' ≤ s.shrink ^ (epoch - 1) * s.pen (s.step 1 0 (s.fresh θ))) := by
  obtain ⟨e, rfl⟩ : ∃ e, epoch = e + 1 := ⟨epoch - 1, by omega⟩
  have hfr := hf θ
  have hc0 := hc 1 0 (s.fresh θ)
  obtain ⟨f, rfl⟩ : ∃ f, fuel = f + 1 := ⟨fuel - 1, by omega⟩
  have e1 : rhoUpdate s rhoMax (f + 1) (s.fresh θ) 1 0 none =
      .ok (s.step 1 0 (s.fresh θ), 1, 0 + 1 * s.pen (s.step 1 0 (s.fresh θ)), s.pen (s.step 1 0 (s.fresh θ))) := by
    have : rhoLoop s rhoMax 0 none (f + 1) (s.fresh θ) 1 none =
        .ok (s.step 1 0 (s.fresh θ), 1, some (s.pen (s.step 1 0 (s.fresh θ)))) := by
      rw [rhoLoop, if_pos h1]
      rfl
    unfold rhoUpdate
    rw [this]
  by_cases hstop : s.pen (s.step 1 0 (s.fresh θ)) ≤ tol ∨ rhoMax ≤ 1 ∨ s.isNan (s.step 1 0 (s.fresh θ)) = true
  · refine ⟨s.step 1 0 (s.fresh θ), 1, ?_, le_rfl, one_le_pow₀ (by norm_num), by omega, ?_⟩
    · unfold training
      rw [train, e1]
      exact if_pos hstop
    · rcases hstop with a | a | a
      · exact .inl a
      · exact .inr (.inl a)
      · exact .inr (.inr (.inl a))
  · obtain ⟨θ', G', v, f1, f2, f3, f4, f5, f6⟩ := train_spec s hs rhoMax tol count hc hf k (f + 1) hk hfuel e
      (s.step 1 0 (s.fresh θ)) 0 (0 + 1 * s.pen (s.step 1 0 (s.fresh θ))) (s.pen (s.step 1 0 (s.fresh θ))) (by simpa using h1)
    have ht : training s rhoMax tol (f + 1) (e + 1) θ = .ok (θ', 10 ^ G', some v) := by
      unfold training
      rw [train, e1]
      refine (if_neg hstop).trans ?_
      rw [← f1, pow_zero]
    have hv : v = s.pen θ' := by
      by_cases he0 : 0 < e
      · exact f4 he0
      · have he0 : e = 0 := by omega
        subst he0
        have f1' : (Except.ok (s.step 1 0 (s.fresh θ), (10 : K) ^ 0, some (s.pen (s.step 1 0 (s.fresh θ)))) : Except Err _) =
          .ok (θ', 10 ^ G', some v) := f1
        injection f1' with f1'
        have hθ : s.step 1 0 (s.fresh θ) = θ' := congrArg (fun p : Θ × K × Option K => p.1) f1'
        rw [f5 rfl, hθ]
    refine ⟨θ', 10 ^ G', by rw [ht, hv], one_le_pow₀ (by norm_num), pow_le_pow_right₀ (by norm_num) f2, by omega, ?_⟩
    rw [hv] at f6
    simpa using f6

/-- C108, the documented option `rho_max`: a limit of at most 1 makes every call with at least one epoch fail with
`TypeError` (`alpha += rho * None`). -/
theorem C108_rho_max_refuted (s : Solver K Θ) (rhoMax tol : K) (fuel epoch : Nat) (h1 : rhoMax ≤ 1) (he : 0 < epoch)
    (hfuel : 0 < fuel) (θ : Θ) : training s rhoMax tol fuel epoch θ = .error .type := by
  obtain ⟨e, rfl⟩ : ∃ e, epoch = e + 1 := ⟨epoch - 1, by omega⟩
  obtain ⟨f, rfl⟩ : ∃ f, fuel = f + 1 := ⟨fuel - 1, by omega⟩
  have : rhoLoop s rhoMax 0 none (f + 1) (s.fresh θ) 1 none = .ok (s.fresh θ, 1, none) := by
    rw [rhoLoop, if_neg (not_lt.2 h1)]
  have e1 : rhoUpdate s rhoMax (f + 1) (s.fresh θ) 1 0 none = .error .type := by
    unfold rhoUpdate
    rw [this]
  unfold training
  rw [train, e1]

/-- non-vacuity: an optimiser that shrinks the penalty by a third does not satisfy the factor 1/2 at first, so `rho`
grows; the state counts the optimiser runs -/
def slowSolver : Solver ℚ (Nat × ℚ) where
  fresh θ := θ
  step _ _ θ := (θ.1 + 1, θ.2 * (2 / 3))
  pen θ := θ.2
  isNan _ := false
  shrink := 1 / 2

example : training slowSolver 1000 (1 / 10) 10 3 (0, 9) = .ok ((5, 32 / 27), 100, some (32 / 27)) := by decide +kernel

example : (∀ (r a : ℚ) (θ : Nat × ℚ), (slowSolver.step r a θ).1 ≤ θ.1 + 1) ∧ (1000 : ℚ) ≤ 10 ^ 3 :=
  ⟨fun _ _ _ => le_rfl, by norm_num⟩
end Training


/-! ### From weights to a graph -/

section Outputs
variable {K : Type} [Field K] [LinearOrder K] [IsStrictOrderedRing K] {n : Nat}

theorem cutSmall_nonneg (t : Option K) {W : Mat n K} (hW : ∀ i j, 0 ≤ W i j) (i j : Fin n) : 0 ≤ cutSmall t W i j := by
  unfold cutSmall
  cases t with
  | none => exact hW i j
  | some t => dsimp only; split_ifs <;> first | exact le_rfl | exact hW i j

/-- C109. What `CausalDiscovery` returns for learned weights `W` (never negative) and a threshold: always a matrix, the
graph of which has no directed cycle; every edge carries the learned weight, which is at least the threshold and
at least the learned weight of the opposite direction; and if the weights that reach the threshold have no cycle -
in particular if the training has brought the penalty to zero - exactly those are returned. -/
theorem C109_causal_discovery (t : Option K) (W : Mat n K) (hW : ∀ i j, 0 ≤ W i j) :
    ∃ M : Mat n K, (∀ f > n * n, causalDiscovery f t W = .ok (.matrix M)) ∧ Acyclic (MatEdge M) ∧
      (∀ i j, M i j ≠ 0 → i ≠ j ∧ M i j = W i j ∧ (∀ τ ∈ t, τ ≤ W i j) ∧ W j i ≤ W i j) ∧
      (Acyclic (fun i j => W i j ≠ 0 ∧ ∀ τ ∈ t, τ ≤ W i j) → ∀ i j, M i j = W i j ∨ M i j = 0 ∧ ∃ τ ∈ t, W i j < τ) := by
  obtain ⟨M, h1, h2⟩ := C26_to_dag_acyclic (cutSmall t W) (cutSmall_nonneg t hW)
  obtain ⟨h3, h4⟩ := C27_to_dag_keeps_stronger (cutSmall t W) (cutSmall_nonneg t hW) (n * n + 1) M (by omega)
    (h1 _ (by omega))
  have hcut : ∀ i j, cutSmall t W i j ≠ 0 → cutSmall t W i j = W i j ∧ ∀ τ ∈ t, τ ≤ W i j := by
    intro i j hne
    unfold cutSmall at hne ⊢
    cases t with
    | none => exact ⟨rfl, fun τ hτ => by cases hτ⟩
    | some t =>
      dsimp only at hne ⊢
      rw [abs_of_nonneg (hW i j)] at hne ⊢
      split_ifs at hne ⊢ with hlt
      · exact absurd rfl hne
      · exact ⟨rfl, fun τ hτ => by cases hτ; exact not_lt.1 hlt⟩
  refine ⟨M, fun f hf => by unfold causalDiscovery; rw [h1 f hf]; rfl, h2, fun i j hne => ?_, fun hac i j => ?_⟩
  · obtain ⟨a, b, c⟩ := h3 i j hne
    have hne' : cutSmall t W i j ≠ 0 := by rw [← b]; exact hne
    obtain ⟨e, g⟩ := hcut i j hne'
    refine ⟨a, b.trans e, g, ?_⟩
    by_cases hji : cutSmall t W j i = 0
    · unfold cutSmall at hji
      cases t with
      | none => simp only at hji; rw [hji]; exact hW i j
      | some t =>
        simp only at hji
        rw [abs_of_nonneg (hW j i)] at hji
        split_ifs at hji with hlt
        · exact hlt.le.trans (g t rfl)
        · rw [hji]; exact hW i j
    · rw [abs_of_nonneg (cutSmall_nonneg t hW j i), abs_of_nonneg (cutSmall_nonneg t hW i j), (hcut j i hji).1, e] at c
      exact c
  · have hM := h4 (fun v hv => hac v (Relation.TransGen.mono (fun a b (hab : MatEdge (cutSmall t W) a b) =>
      (⟨by rw [← (hcut a b hab).1]; exact hab, (hcut a b hab).2⟩ : W a b ≠ 0 ∧ ∀ τ ∈ t, τ ≤ W a b)) v v hv))
    rw [hM]
    unfold cutSmall
    cases t with
    | none => exact .inl rfl
    | some t =>
      dsimp only
      rw [abs_of_nonneg (hW i j)]
      split_ifs with hlt
      · exact .inr ⟨rfl, t, rfl, hlt⟩
      · exact .inl rfl

/-- non-vacuity: a weak edge is dropped, the two strong ones stay -/
example : (causalDiscovery 10 (some 1) (![![0, 3, 0], ![1 / 2, 0, 2], ![0, 0, 0]] : Mat 3 ℚ)).map (fun a => match a with
    | .matrix W => (List.finRange 3).map (fun i => (List.finRange 3).map (W i))) =
    .ok [[0, 3, 0], [0, 0, 2], [0, 0, 0]] := by decide +kernel

theorem binarise_nonneg {t : K} (ht : 0 ≤ t) {W : Mat n K} (hW : ∀ i j, W i j ≠ -t) (i j : Fin n) :
    0 ≤ binarise (some t) W i j := by
  unfold binarise cutSmall
  dsimp only
  by_cases h1 : |W i j| < t
  · simp only [if_pos h1, abs_zero]
    rw [if_neg (not_lt.2 ht)]
  · simp only [if_neg h1]
    by_cases h2 : t < |W i j|
    · rw [if_pos h2]; exact zero_le_one
    · rw [if_neg h2]
      rcases abs_choice (W i j) with h | h
      · rw [← h]; exact abs_nonneg _
      · have e1 : |W i j| = t := le_antisymm (not_lt.1 h2) (not_lt.1 h1)
        exact absurd (by rw [← e1, h, neg_neg]) (hW i j)

/-- the entries of an answer, row by row -/
def Answer.lists {n : Nat} {K : Type} : Answer n K → Option (List (List K))
  | .matrix W => some ((List.finRange n).map (fun i => (List.finRange n).map (W i)))

/-- C109, `GolemDiscovery`, weights of either sign: the result has no directed cycle and every edge stands for a learned
weight of at least the threshold. (`W i j ≠ -t`: for a weight of exactly `-threshold` a negative entry is left, with
which `nx.all_shortest_paths` is not modelled.) -/
theorem C109_golem (t : K) (ht : 0 ≤ t) (W : Mat n K) (hW : ∀ i j, W i j ≠ -t) :
    ∃ M : Mat n K, (∀ f > n * n, golemDiscovery f (some t) W = .ok (.matrix M)) ∧ Acyclic (MatEdge M) ∧
      (∀ i j, M i j ≠ 0 → i ≠ j ∧ t ≤ |W i j| ∧ (M i j = 1 ∨ M i j = t)) := by
  obtain ⟨M, h1, h2⟩ := C26_to_dag_acyclic (binarise (some t) W) (binarise_nonneg ht hW)
  obtain ⟨h3, -⟩ := C27_to_dag_keeps_stronger (binarise (some t) W) (binarise_nonneg ht hW) (n * n + 1) M (by omega)
    (h1 _ (by omega))
  refine ⟨M, fun f hf => by unfold golemDiscovery; rw [h1 f hf]; rfl, h2, fun i j hne => ?_⟩
  obtain ⟨a, b, -⟩ := h3 i j hne
  have hne' : binarise (some t) W i j ≠ 0 := by rw [← b]; exact hne
  refine ⟨a, ?_⟩
  rw [b]
  have hpos := binarise_nonneg ht hW i j
  unfold binarise cutSmall at hne' hpos ⊢
  dsimp only at hne' hpos ⊢
  by_cases hlt : |W i j| < t
  · simp only [if_pos hlt, abs_zero] at hne'
    rw [if_neg (not_lt.2 ht)] at hne'
    exact absurd rfl hne'
  · simp only [if_neg hlt] at hne' hpos ⊢
    refine ⟨not_lt.1 hlt, ?_⟩
    by_cases hgt : t < |W i j|
    · exact .inl (if_pos hgt)
    · rw [if_neg hgt] at hpos ⊢
      right
      rw [← abs_of_nonneg hpos]
      exact le_antisymm (not_lt.1 hgt) (not_lt.1 hlt)

/-- C109, `GolemDiscovery` keeps the weaker direction: all weights become 1 before the directions are compared, so a
learned weight 2/5 from the first to the second variable wins over 9/10 in the opposite direction. -/
theorem C109_golem_direction_refuted :
    (golemDiscovery 10 (some (3 / 10)) (![![0, 2 / 5], ![9 / 10, 0]] : Mat 2 ℚ)).map Answer.lists =
      .ok (some [[0, 1], [0, 0]]) := by decide +kernel

/-- C109, `DagmaDiscovery`, weights of either sign: the result has no directed cycle and every edge stands for a learned weight of at least the
threshold. -/
theorem C109_dagma (t : K) (ht : 0 ≤ t) (W : Mat n K) (hW : ∀ i j, W i j ≠ -t) :
    ∃ M : Mat n K, (∀ f > n * n, dagmaDiscovery f (some t) W = .ok (.matrix M)) ∧ Acyclic (MatEdge M) ∧
      (∀ i j, M i j ≠ 0 → i ≠ j ∧ t ≤ |W i j| ∧ (M i j = 1 ∨ M i j = t)) := C109_golem t ht W hW

/-- C109, `DagmaDiscovery` keeps the weaker direction for the same reason as `GolemDiscovery`. -/
theorem C109_dagma_direction_refuted :
    (dagmaDiscovery 10 (some (3 / 10)) (![![0, 2 / 5], ![9 / 10, 0]] : Mat 2 ℚ)).map Answer.lists =
      .ok (some [[0, 1], [0, 0]]) := by decide +kernel
end Outputs

/-- C109, time series with several lags: the prediction of `Dynotears` uses the coefficients of all lags with the values
`order` steps back, so it only depends on the sum of the lag matrices and not on the values in between; the
matrices of the single lags cannot be learned. -/
theorem C109_lags_refuted {K : Type} [CommSemiring K] (d order : Nat) (w : Nat → Nat → K) (p p' : Nat → Nat → Nat → K)
    (X X' : Nat → Nat → K) (t j : Nat)
    (hp : ∀ i j, ∑ l ∈ Finset.range order, p i j l = ∑ l ∈ Finset.range order, p' i j l)
    (hX : ∀ i, X t i = X' t i ∧ X (t + order) i = X' (t + order) i) :
    dyForward d order w p X t j = dyForward d order w p' X' t j := by
  unfold dyForward
  have key : ∀ (q : Nat → Nat → Nat → K) (Y : Nat → Nat → K), ∑ l ∈ Finset.range order, ∑ i ∈ Finset.range d, Y t i * q i j l =
      ∑ i ∈ Finset.range d, Y t i * ∑ l ∈ Finset.range order, q i j l := by
    intro q Y
    rw [Finset.sum_comm]
    exact Finset.sum_congr rfl (fun i _ => (Finset.mul_sum _ _ _).symm)
  rw [key, key]
  congr 1
  · exact Finset.sum_congr rfl (fun i _ => by rw [(hX i).2])
  · exact Finset.sum_congr rfl (fun i _ => by rw [(hX i).1, hp])

/-- C109, one lag: the documented model `x_t = x_t W + x_(t-1) P`. -/
theorem C109_one_lag {K : Type} [CommSemiring K] (d : Nat) (w : Nat → Nat → K) (p : Nat → Nat → Nat → K) (X : Nat → Nat → K) (t j : Nat) :
    dyForward d 1 w p X t j =
      ∑ i ∈ Finset.range d, X (t + 1) i * w i j + ∑ i ∈ Finset.range d, X t i * p i j 0 := by
  unfold dyForward
  rw [Finset.sum_range_one]

/-- non-vacuity of `C109_lags_refuted`: two lags, different matrices of the lags with the same sum -/
example : dyForward 1 2 (fun _ _ => (0 : ℤ)) (fun _ _ l => if l = 0 then 5 else 0) (fun s _ => s) 1 0 =
    dyForward 1 2 (fun _ _ => (0 : ℤ)) (fun _ _ l => if l = 0 then 0 else 5) (fun s _ => s) 1 0 := by decide

end YL.Props
