import Mathlib.Algebra.BigOperators.Group.Finset.Basic
import Mathlib.Algebra.Order.Field.Basic
import Mathlib.Analysis.Normed.Algebra.MatrixExponential
import Mathlib.Analysis.Real.Sqrt
import Verif.Model.Discovery

/-!
# Model of `ylearn/causal_discovery/_discovery.py` and `_dydiscovery.py`

The reconstruction network of `CausalDiscovery`, its acyclicity penalty, the augmented Lagrangian loop around the
optimiser and what the discovery classes do with the learned weights. Tensors are functions of natural number
indices (sizes beside them); floating point numbers are idealised: the network is over any commutative semiring, the
penalty over the reals with the exact matrix exponential. The optimiser (`torch.optim.LBFGS`, `Adam`) is an arbitrary
function of the current state.
-/

namespace YL.NoTears

open YL

/-- one locally connected layer `L(num_linear, input_features, output_features)`: `weight` and `bias`
(_discovery.py:22-37) -/
structure Layer (K : Type) where
  inF : Nat
  weight : Nat → Nat → Nat → K
  bias : Nat → Nat → K

/-- the parameters of a `DagNet` with `dims = [d, m, ...]`: `a1` is `nn.Linear(d, d * m)` with its `weight` (rows
`d * m`, columns `d`) and `bias`; `layers` are those of `an`, empty unless `len(dims) > 2` (_discovery.py:57-66) -/
structure Net (K : Type) where
  d : Nat
  m : Nat
  w : Nat → Nat → K
  b : Nat → K
  layers : List (Layer K)

section
variable {K : Type} [CommSemiring K]

/-- `self.a1(x)` followed by `view(-1, dims[0], dims[1])`: entry `(j, k)` of the view is entry `j * m + k` of the
linear map, for one row `x` of the data (_discovery.py:68-70) -/
def first (net : Net K) (x : Nat → K) (j k : Nat) : K :=
  ∑ i ∈ Finset.range net.d, net.w (j * net.m + k) i * x i + net.b (j * net.m + k)

/-- `layer(torch.sigmoid(x))` with `L.forward`: `matmul(x.unsqueeze(2), weight.unsqueeze(0)).squeeze(2) + bias`, that is for
each of the `num_linear` variables a matrix of its own (_discovery.py:39-44, 52-54); `σ` is the sigmoid -/
def applyLayer (σ : K → K) (L : Layer K) (h : Nat → Nat → K) (j o : Nat) : K :=
  ∑ k ∈ Finset.range L.inF, σ (h j k) * L.weight j k o + L.bias j o

/-- `DagNet.forward` for one row: column `j` of the reconstruction (_discovery.py:68-73; `squeeze(dim=2)` takes the
only entry, `dims[-1]` is 1, _discovery.py:200) -/
def forward (σ : K → K) (net : Net K) (x : Nat → K) (j : Nat) : K :=
  net.layers.foldl (fun h L => applyLayer σ L h) (first net x) j 0

/-- `torch.sum(a1.weight.view(d, -1, d) ** 2, dim=1).t()`: entry `(i, j)` is the sum over `k` of the squares of
`weight[j * m + k, i]` (_discovery.py:77-78, 93-94) -/
def strength (net : Net K) (i j : Nat) : K := ∑ k ∈ Finset.range net.m, net.w (j * net.m + k) i ^ 2
end

/-- `torch.trace(torch.matrix_exp(s)) - d` (_discovery.py:79, 265, _dydiscovery.py:33, 186) -/
noncomputable def traceExp {d : Nat} (S : Matrix (Fin d) (Fin d) ℝ) : ℝ := (NormedSpace.exp S).trace - d

/-- `DagNet.h_func()` (_discovery.py:75-80) -/
noncomputable def hFunc (net : Net ℝ) : ℝ := traceExp (fun i j : Fin net.d => strength net i j)

/-- `DagNet.get_W()` (_discovery.py:90-97) -/
noncomputable def getW (net : Net ℝ) : Mat net.d ℝ := fun i j => Real.sqrt (strength net i j)

/-- `h_func()` of `Golem`, `Dynotears` and `DyGolem`: `trace(matrix_exp(w_est * w_est)) - d`, the product being entry by
entry (_discovery.py:264-266, _dydiscovery.py:32-34, 185-187) -/
noncomputable def hGolem {d : Nat} (W : Mat d ℝ) : ℝ := traceExp (fun i j => W i j * W i j)

/-! ### The augmented Lagrangian loop -/

section
variable {K Θ : Type} [Field K] [LinearOrder K]

/-- what the loop uses of the model and the optimiser: `fresh` makes a new optimiser, `step rho alpha` is
`optimizer.step(closure)`, `pen` is `h_func().item()`, `isNan` is `is_weight_nan()`; `shrink` is 0.5 in
`CausalDiscovery` and 0.25 in `DyCausalDiscovery` (_discovery.py:132-157, 209-224, _dydiscovery.py:71-96) -/
structure Solver (K Θ : Type) where
  fresh : Θ → Θ
  step : K → K → Θ → Θ
  pen : Θ → K
  isNan : Θ → Bool
  shrink : K

/-- `h_new > 0.5 * h`, where `h = np.inf` (`none`) is never exceeded (_discovery.py:152) -/
def tooLarge (s : Solver K Θ) (hNew : K) : Option K → Bool
  | none => false
  | some h => decide (s.shrink * h < hNew)

/-- `while rho < self.rho_max` of `_rho_h_update`, at most `fuel` rounds; the answer is the state, `rho` and `h_new`
(`None` if the loop was not entered) (_discovery.py:136-155) -/
def rhoLoop (s : Solver K Θ) (rhoMax alpha : K) (h : Option K) :
    Nat → Θ → K → Option K → Except Err (Θ × K × Option K)
  | 0, _, _, _ => .error .recursion
  | f + 1, θ, rho, last =>
    if rho < rhoMax then
      let θ' := s.step rho alpha θ
      if tooLarge s (s.pen θ') h then rhoLoop s rhoMax alpha h f θ' (rho * 10) (some (s.pen θ'))
      else .ok (θ', rho, some (s.pen θ'))
    else .ok (θ, rho, last)

/-- `_rho_h_update`: `alpha += rho * h_new` raises `TypeError` if `h_new` is `None` (_discovery.py:132-157) -/
def rhoUpdate (s : Solver K Θ) (rhoMax : K) (fuel : Nat) (θ : Θ) (rho alpha : K) (h : Option K) :
    Except Err (Θ × K × K × K) :=
  match rhoLoop s rhoMax alpha h fuel θ rho none with
  | .error e => .error e
  | .ok (_, _, none) => .error .type
  | .ok (θ', rho', some hNew) => .ok (θ', rho', alpha + rho' * hNew, hNew)

/-- `for i in range(epoch)` of `__call__`; the answer is the state, `rho` and `h` (_discovery.py:208-224,
_dydiscovery.py:126-140) -/
def train (s : Solver K Θ) (rhoMax tol : K) (fuel : Nat) : Nat → Θ → K → K → Option K → Except Err (Θ × K × Option K)
  | 0, θ, rho, _, h => .ok (θ, rho, h)
  | e + 1, θ, rho, alpha, h =>
    match rhoUpdate s rhoMax fuel (s.fresh θ) rho alpha h with
    | .error er => .error er
    | .ok (θ', rho', alpha', hNew) =>
      if hNew ≤ tol ∨ rhoMax ≤ rho' ∨ s.isNan θ' then .ok (θ', rho', some hNew)
      else train s rhoMax tol fuel e θ' rho' alpha' (some hNew)

/-- the whole training: `rho, alpha, h = 1.0, 0.0, np.inf` (_discovery.py:208, _dydiscovery.py:125) -/
def training (s : Solver K Θ) (rhoMax tol : K) (fuel epoch : Nat) (θ : Θ) : Except Err (Θ × K × Option K) :=
  train s rhoMax tol fuel epoch θ 1 0 none
end

/-! ### From weights to a graph -/

section
variable {K : Type} [Ring K] [LinearOrder K] {n : Nat}

/-- `matrix[np.abs(matrix) < threshold] = 0` unless `threshold is None` (_discovery.py:229-230) -/
def cutSmall (t : Option K) (W : Mat n K) : Mat n K := fun i j =>
  match t with
  | none => W i j
  | some t => if |W i j| < t then 0 else W i j

/-- `matrix[np.abs(matrix) < threshold] = 0; matrix[np.abs(matrix) > threshold] = 1`
(_discovery.py:380-382, 583-585) -/
def binarise (t : Option K) (W : Mat n K) : Mat n K := fun i j =>
  match t with
  | none => W i j
  | some t => if t < |cutSmall (some t) W i j| then 1 else cutSmall (some t) W i j

/-- what a discovery class returns: a matrix, for a frame with the column names as labels (_discovery.py:232-237, 386-391, 582-587) -/
inductive Answer (n : Nat) (K : Type) where
  | matrix (W : Mat n K)

/-- `CausalDiscovery.__call__` after the training (_discovery.py:226-237) -/
def causalDiscovery (f : Nat) (t : Option K) (W : Mat n K) : Except Err (Answer n K) :=
  (Discovery.toDag f (cutSmall t W)).map Answer.matrix

/-- `GolemDiscovery.__call__` after the training (_discovery.py:376-391) -/
def golemDiscovery (f : Nat) (t : Option K) (W : Mat n K) : Except Err (Answer n K) :=
  (Discovery.toDag f (binarise t W)).map Answer.matrix

/-- `DagmaDiscovery.__call__` after the training (_discovery.py:571-587, 589-598) -/
def dagmaDiscovery (f : Nat) (t : Option K) (W : Mat n K) : Except Err (Answer n K) :=
  (Discovery.toDag f (binarise t W)).map Answer.matrix
end

/-! ### Time series -/

section
variable {K : Type} [CommSemiring K]

/-- `Dynotears.forward`: `Xlags` has `step + order` time points with `d` columns (for one series);
`matmul(Xlags[k:], w_est)` plus, for every lag `l`, `matmul(Xlags[:-k], p_est[:, :, l])` with `k` the order: entry at
time `t` and column `j` (_dydiscovery.py:26-30) -/
def dyForward (d order : Nat) (w : Nat → Nat → K) (p : Nat → Nat → Nat → K) (X : Nat → Nat → K) (t j : Nat) : K :=
  ∑ i ∈ Finset.range d, X (t + order) i * w i j +
    ∑ l ∈ Finset.range order, ∑ i ∈ Finset.range d, X t i * p i j l
end

end YL.NoTears
