import Verif.Model.NoTears
import Mathlib.Data.Finset.Lattice.Fold

/-!
# Model of the fit of `CausalDiscovery`: scaling, objective, trained parameters

`causal_discovery/_discovery.py:47-109, 112-238`, on top of `Model/NoTears` (the network, its penalty, the augmented Lagrangian loop and what happens to the
weights afterwards). Floating point numbers are the reals; the optimiser (`torch.optim.LBFGS`) is an arbitrary function. A table of data is a function of row
and column; the columns that count are those below `d`.
-/

namespace YL.NoTears

open YL

/-- `data.values`: `n` rows -/
abbrev Data (n : Nat) : Type := Fin n → Nat → ℝ

variable {n : Nat}

/-- the argument `scale` of `CausalDiscovery` (_discovery.py:113-122): `None`, a Boolean, a string, an object with `fit_transform`, or any other object -/
inductive Scale (n : Nat) where
  | absent
  | bool (b : Bool)
  | name (s : String)
  | transformer (fitTransform : Data n → Data n)
  | other

/-- the smallest value of a column (used by `MinMaxScaler`, _discovery.py:161-163) -/
noncomputable def colMin [NeZero n] (X : Data n) (j : Nat) : ℝ := Finset.univ.inf' Finset.univ_nonempty (fun a => X a j)

/-- the largest value of a column (used by `MinMaxScaler`, _discovery.py:161-163) -/
noncomputable def colMax [NeZero n] (X : Data n) (j : Nat) : ℝ := Finset.univ.sup' Finset.univ_nonempty (fun a => X a j)

/-- sklearn's `_handle_zeros_in_scale`: a scale of zero is replaced by one (used by both scalers, _discovery.py:161-166); sklearn treats scales below ten times
the machine epsilon like zero, which is idealised -/
noncomputable def noZero (s : ℝ) : ℝ := if s = 0 then 1 else s

/-- `MinMaxScaler().fit_transform(data)` (_discovery.py:161-163, 187-189); a table has at least one row, sklearn raises otherwise -/
noncomputable def minMax [NeZero n] (X : Data n) : Data n := fun a j => (X a j - colMin X j) / noZero (colMax X j - colMin X j)

/-- the average of `n` numbers (used by `StandardScaler`, _discovery.py:164-166) -/
noncomputable def colMean (X : Data n) (j : Nat) : ℝ := (∑ a, X a j) / n

/-- `StandardScaler().fit_transform(data)`: minus the mean, divided by the standard deviation (with divisor `n`) (_discovery.py:164-166, 187-189) -/
noncomputable def standard (X : Data n) : Data n := fun a j =>
  (X a j - colMean X j) / noZero (Real.sqrt ((∑ a, (X a j - colMean X j) ^ 2) / n))

/-- `CausalDiscovery._get_scaler` (_discovery.py:158-171): the `fit_transform` of the scaler, or no scaler -/
noncomputable def getScaler [NeZero n] : Scale n → Except Err (Option (Data n → Data n))
  | .absent => .ok none
  | .bool false => .ok none
  | .bool true => .ok (some minMax)
  | .name s =>
    if s = "auto" ∨ s = "minmax" then .ok (some minMax)
    else if s = "std" ∨ s = "standard" then .ok (some standard)
    else .error .value
  | .transformer f => .ok (some f)
  | .other => .error .value

/-- `if scaler is not None: data = scaler.fit_transform(data)` (_discovery.py:187-189) -/
noncomputable def scaled [NeZero n] (s : Scale n) (X : Data n) : Except Err (Data n) :=
  match getScaler s with
  | .error e => .error e
  | .ok none => .ok X
  | .ok (some f) => .ok (f X)

/-- `_squared_loss(model(X), X)`: `0.5 / n * torch.sum((output - target) ** 2)` (_discovery.py:126-130, 139-140) -/
noncomputable def squaredLoss (σ : ℝ → ℝ) (net : Net ℝ) (X : Data n) : ℝ :=
  0.5 / n * ∑ a, ∑ j ∈ Finset.range net.d, (forward σ net (X a) j - X a j) ^ 2

/-- the sum of the squared weights of a locally connected layer with `out` outputs (_discovery.py:85-87) -/
noncomputable def layerReg (d : Nat) (L : Layer ℝ) (out : Nat) : ℝ :=
  ∑ j ∈ Finset.range d, ∑ k ∈ Finset.range L.inF, ∑ o ∈ Finset.range out, L.weight j k o ^ 2

/-- the sum over all layers; a layer has as many outputs as the next one has inputs, the last one has one (_discovery.py:52, 84-87) -/
noncomputable def layersReg (d : Nat) : List (Layer ℝ) → ℝ
  | [] => 0
  | [L] => layerReg d L 1
  | L :: M :: ls => layerReg d L M.inF + layersReg d (M :: ls)

/-- `DagNet.l2_reg()` (_discovery.py:82-88) -/
noncomputable def l2Reg (net : Net ℝ) : ℝ :=
  (∑ r ∈ Finset.range (net.d * net.m), ∑ i ∈ Finset.range net.d, net.w r i ^ 2) + layersReg net.d net.layers

/-- `primal_obj` (_discovery.py:138-147) -/
noncomputable def objective (σ : ℝ → ℝ) (lambdaa rho alpha : ℝ) (X : Data n) (net : Net ℝ) : ℝ :=
  squaredLoss σ net X + (0.5 * rho * hFunc net * hFunc net + alpha * hFunc net) + 0.5 * lambdaa * l2Reg net

/-- what `model.parameters()` contains: weight and bias of `a1`. The layers of `A` are kept in a plain list, which `torch.nn.Module` does not register, so they
are no parameters of the model and the optimiser does not touch them (_discovery.py:52-53, 62, 211-214) -/
abbrev Params : Type := (Nat → Nat → ℝ) × (Nat → ℝ)

/-- the model with other values of its parameters (_discovery.py:57-66) -/
def assemble (net : Net ℝ) (θ : Params) : Net ℝ := { net with w := θ.1, b := θ.2 }

/-- what the training loop uses: a fresh optimiser in every round, `step` changes the parameters of the model (_discovery.py:132-156, 209-214) -/
noncomputable def netSolver (net : Net ℝ) (step : ℝ → ℝ → Params → Params) (isNan : Params → Bool) : Solver ℝ Params :=
  { fresh := id, step := step, pen := fun θ => hFunc (assemble net θ), isNan := isNan, shrink := 0.5 }

/-- `CausalDiscovery.__call__(data)`, the matrix it returns (_discovery.py:173-238). `net` is the model as initialised, `step` what LBFGS does with the parameters for the
(scaled) data, given `rho` and `alpha`; `fuel` and `f` bound the loops over `rho` and of `trim_cycle`. -/
noncomputable def discoveryCall [NeZero n] (fuel f : Nat) (scale : Scale n) (rhoMax tol : ℝ) (threshold : Option ℝ) (epoch : Nat) (net : Net ℝ)
    (step : Data n → ℝ → ℝ → Params → Params) (isNan : Params → Bool) (X : Data n) : Except Err (Answer net.d ℝ) :=
  match scaled scale X with
  | .error e => .error e
  | .ok Y => match training (netSolver net (step Y) isNan) rhoMax tol fuel epoch (net.w, net.b) with
    | .error e => .error e
    | .ok (θ, _, _) => causalDiscovery f threshold (getW (assemble net θ))

/-- `L.reset_parameters()`: weights and biases are drawn between `-1 / sqrt(input_features)` and `1 / sqrt(input_features)` (_discovery.py:33-37) -/
def FreshLayer (L : Layer ℝ) : Prop :=
  (∀ j k o, |L.weight j k o| ≤ 1 / Real.sqrt L.inF) ∧ ∀ j o, |L.bias j o| ≤ 1 / Real.sqrt L.inF

end YL.NoTears
