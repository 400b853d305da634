import Mathlib.LinearAlgebra.Matrix.NonsingularInverse
import Mathlib.Analysis.Real.Sqrt
import Mathlib.Data.List.FinRange
import Verif.Model.Discovery
import Verif.Spec.Graph

/-!
# Model of `ylearn/exp_dataset/gen.py`: synthetic graphs, data and accuracy measures

Random draws are arguments. Numbers are real. The graphs of `igraph` and `networkx` are given by their adjacency matrix:
`Weighted_Adjacency(W)` has an edge `i → j` for every nonzero entry `W[i, j]`.
-/

namespace YL.Gen

open YL Spec

/-- a `d × d` array -/
abbrev Mx (d : Nat) := Matrix (Fin d) (Fin d) ℝ

variable {d n : Nat}

/-- `ig.Graph.Weighted_Adjacency(W)`: the edges (gen.py:17, 139) -/
def Edge (W : Mx d) (i j : Fin d) : Prop := W i j ≠ 0

/-- `np.random.permutation(np.eye(d))`: the rows of the identity in another order (gen.py:35, 218) -/
def permEye (σ : Equiv.Perm (Fin d)) : Mx d := Matrix.of (fun i j => if σ i = j then 1 else 0)

/-- `P.T @ M @ P` (gen.py:33-36, 216-219) -/
def randomPermutation (σ : Equiv.Perm (Fin d)) (M : Mx d) : Mx d := (permEye σ).transpose * M * permEye σ

/-- `np.tril(M, k)`: the entries with `j - i <= k` -/
def tril (k : Int) (M : Mx d) : Mx d := Matrix.of (fun i j => if ((j : Nat) : Int) - ((i : Nat) : Int) ≤ k then M i j else 0)

/-- `graph_type` (gen.py:44-59) -/
inductive GType where
  | ER | SF | BP | other

open Classical in
/-- `simulate_dag(d, s0, graph_type)`; `G` is the adjacency matrix of the graph drawn by `igraph` (undirected for `ER`), `σ`
and `τ` are the two permutations drawn (gen.py:21-62) -/
noncomputable def simulateDag (g : GType) (G : Mx d) (σ τ : Equiv.Perm (Fin d)) : Except Err (Mx d) :=
  match g with
  | .ER => check (randomPermutation τ (tril (-1) (randomPermutation σ G)))
  | .SF => check (randomPermutation τ G)
  | .BP => check (randomPermutation τ G)
  | .other => .error .value
where
  /-- `assert ig.Graph.Adjacency(B_perm.tolist()).is_dag()` (gen.py:61-62) -/
  check (B : Mx d) : Except Err (Mx d) := if Acyclic (Edge B) then .ok B else .error .assertion

/-- `simulate_parameter(B, w_ranges)`: `S` says which range each entry is taken from and `U i` are the draws from
range `i`, for `m` ranges (gen.py:65-80) -/
def simulateParameter (m : Nat) (B : Mx d) (S : Fin d → Fin d → Nat) (U : Nat → Mx d) : Mx d :=
  (List.range m).foldl (fun W k => W + Matrix.of (fun i j => B i j * (if S i j = k then 1 else 0) * U k i j)) 0

/-- `G.neighbors(j, mode=ig.IN)` (gen.py:144) -/
noncomputable def parents (W : Mx d) (j : Fin d) : List (Fin d) := (List.finRange d).filter (fun i => W i j ≠ 0)

/-- `X[:, parents] @ W[parents, j]` in row `a` (gen.py:102, 145) -/
noncomputable def predictor (W : Mx d) (X : Matrix (Fin n) (Fin d) ℝ) (j : Fin d) (a : Fin n) : ℝ :=
  ((parents W j).map (fun i => X a i * W i j)).sum

/-- `for j in ordered_vertices: X[:, j] = ...`: `eqn j v` is the column drawn for variable `j` from the column `v` of
linear predictors (gen.py:142-146) -/
noncomputable def simLoop (W : Mx d) (eqn : Fin d → (Fin n → ℝ) → Fin n → ℝ) :
    List (Fin d) → Matrix (Fin n) (Fin d) ℝ → Matrix (Fin n) (Fin d) ℝ
  | [], X => X
  | j :: js, X => simLoop W eqn js (X.updateCol j (eqn j (predictor W X j)))

open Classical in
/-- `simulate_linear_sem(W, n, sem_type, noise_scale)` with a finite number of rows; `order` is the topological sorting
`igraph` returns (gen.py:120-146) -/
noncomputable def simulateLinearSem (W : Mx d) (eqn : Fin d → (Fin n → ℝ) → Fin n → ℝ) (order : List (Fin d)) :
    Except Err (Matrix (Fin n) (Fin d) ℝ) :=
  if Acyclic (Edge W) then
    if order.length = d then .ok (simLoop W eqn order 0) else .error .assertion
  else .error .value

/-- the equation of the types with additive noise: `x = X @ w + z` (gen.py:100-111) -/
def additive (z : Fin d → Fin n → ℝ) (j : Fin d) (v : Fin n → ℝ) (a : Fin n) : ℝ := v a + z j a

open Classical in
/-- `simulate_linear_sem(W, np.inf, 'gauss', scale)`: `sqrt(d) * diag(scale) @ inv(eye - W)` (gen.py:129-135) -/
noncomputable def population (W : Mx d) (scale : Fin d → ℝ) : Except Err (Mx d) :=
  if Acyclic (Edge W) then .ok ((Real.sqrt d) • Matrix.diagonal scale * (1 - W)⁻¹) else .error .value

/-- `simulate_nonlinear_sem`: `eqn j` gets the columns of the parents in the order of `neighbors`, for `mlp`, `mim`, `gp` and
`gp-add` alike (gen.py:149-205) -/
noncomputable def nonlinearLoop (B : Mx d) (eqn : Fin d → List (Fin n → ℝ) → Fin n → ℝ) :
    List (Fin d) → Matrix (Fin n) (Fin d) ℝ → Matrix (Fin n) (Fin d) ℝ
  | [], X => X
  | j :: js, X => nonlinearLoop B eqn js (X.updateCol j (eqn j ((parents B j).map (fun i a => X a i))))

/-- `simulate_er_dag(degree, d, Bernoulli_trial, is_acyclic)` with the drawn undirected adjacency matrix:
`np.tril(A_und, k=is_acyclic)` (gen.py:229-241) -/
def simulateErDag (isAcyclic : Int) (Aund : Mx d) : Mx d := tril isAcyclic Aund

/-- `simulate_random_graph(..., is_acyclic=1)` for `ER`, as `generate_tri` calls it (gen.py:207-227) -/
def simulateRandomGraph (Aund : Mx d) (σ : Equiv.Perm (Fin d)) : Mx d := randomPermutation σ (simulateErDag 1 Aund)

/-- the loop over the lags: `X[:, j] += lagX[k, :, parents].T @ A[parents, j, k] + 1 * z` with a new draw `z k j` for each lag
(gen.py:312-315) -/
noncomputable def lagSum (A : Nat → Mx d) (lagX : Nat → Matrix (Fin n) (Fin d) ℝ) (z : Nat → Fin d → Fin n → ℝ) (order : Nat)
    (j : Fin d) (a : Fin n) : ℝ :=
  ((List.range order).map (fun k => predictor (A k) (lagX k) j a + 1 * z k j a)).sum

/-- `simulate_linear_sem_with_A(A, B, lagX, n, sem_type)` for a type with additive noise: `X @ B + 0 * z0` for the same time, then the lags
(gen.py:305-316) -/
noncomputable def lagLoop (A : Nat → Mx d) (B : Mx d) (lagX : Nat → Matrix (Fin n) (Fin d) ℝ) (z0 : Fin d → Fin n → ℝ)
    (z : Nat → Fin d → Fin n → ℝ) (order : Nat) : List (Fin d) → Matrix (Fin n) (Fin d) ℝ → Matrix (Fin n) (Fin d) ℝ
  | [], X => X
  | j :: js, X => lagLoop A B lagX z0 z order js
      (X.updateCol j (fun a => predictor B X j a + 0 * z0 j a + lagSum A lagX z order j a))

/-! ### `count_accuracy` -/

/-- the pairs of indices with a property; `np.flatnonzero` numbers them row by row -/
noncomputable def where' (p : Fin d → Fin d → Prop) : Finset (Fin d × Fin d) := by
  classical exact Finset.univ.filter (fun e => p e.1 e.2)

/-- the answer of `count_accuracy` (gen.py:377) -/
structure Acc where
  fdr : ℝ
  tpr : ℝ
  fpr : ℝ
  shd : Nat
  nnz : Nat

/-- `count_accuracy(B_true, B_est)` for a `B_true` without pairs of opposite edges, so that the arrays have no repetitions as `assume_unique`
demands (gen.py:318-377) -/
noncomputable def countAccuracy (T E : Mx d) : Acc :=
  let predUnd := where' (fun i j => E i j = -1)
  let pred := where' (fun i j => E i j = 1)
  let cond := where' (fun i j => T i j ≠ 0)
  let condReversed := where' (fun i j => T.transpose i j ≠ 0)
  let condSkeleton := cond ∪ condReversed
  let truePos := (pred ∩ cond).card + (predUnd ∩ condSkeleton).card
  let falsePos := (pred \ condSkeleton).card + (predUnd \ condSkeleton).card
  let extra := pred \ cond
  let reverse := extra ∩ condReversed
  let predSize := pred.card + predUnd.card
  let condNegSize : ℝ := 0.5 * d * (d - 1) - cond.card
  let predLower := where' (fun i j => tril 0 (E + E.transpose) i j ≠ 0)
  let condLower := where' (fun i j => tril 0 (T + T.transpose) i j ≠ 0)
  { fdr := ((reverse.card + falsePos : Nat) : ℝ) / max predSize 1
    tpr := (truePos : ℝ) / max cond.card 1
    fpr := ((reverse.card + falsePos : Nat) : ℝ) / max condNegSize 1
    shd := (predLower \ condLower).card + (condLower \ predLower).card + reverse.card
    nnz := predSize }

end YL.Gen
