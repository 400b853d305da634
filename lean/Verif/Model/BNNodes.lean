import Mathlib.Analysis.SpecialFunctions.Exp
import Mathlib.Algebra.BigOperators.Group.Finset.Basic
import Mathlib.Data.Fintype.BigOperators

/-!
# Model of `ylearn/bayesian/_modules.py`: the distribution of a node given its parents

`_modules.py:58-213, 341-473`, as used by `BayesianModel` (_network.py:72-80, 160-175). Floating point numbers are the reals. Pyro's inference is not modelled: the learned
weights are any values in the support of their priors (the guides of `SviBayesianNetwork._fit`, _network.py:621-626, keep them there: `AutoDelta` for categorical nodes
learns a point of the simplex). A categorical parent enters with the code of its class (`CategoryNodeState.encode`, _base.py:65-70), a numerical parent with its value.
-/

namespace YL.BNN

noncomputable section

variable {n K : Nat}

/-- `dist.Categorical(logits=logits)`: the probability of the class with code `k` is the normalised exponential of its logit (called at _modules.py:354, 426) -/
def categorical (logits : Fin K → ℝ) (k : Fin K) : ℝ := Real.exp (logits k) / ∑ j, Real.exp (logits j)

/-- a point of the simplex: the support of `dist.Dirichlet(torch.ones(n_classes))` (_modules.py:68-70, 348-350) -/
def OnSimplex (w : Fin K → ℝ) : Prop := (∀ k, 0 ≤ w k) ∧ ∑ k, w k = 1

/-- the support of the weights of `Linear(..., random='dirichlet')`: `dist.Dirichlet(torch.ones([n_inputs, n_output])).to_event(1)`, every row is a point of the simplex
(_modules.py:66-70) -/
def DirichletRows (W : Fin n → Fin K → ℝ) : Prop := ∀ i, OnSimplex (W i)

/-- `Linear.__call__` with `bias=False`: `X @ weight` for one row of inputs (_modules.py:97-106) -/
def linear (W : Fin n → Fin K → ℝ) (x : Fin n → ℝ) (k : Fin K) : ℝ := ∑ i, x i * W i k

/-- `Linear.__call__` with a bias (_modules.py:97-106) -/
def linearBias (W : Fin n → Fin K → ℝ) (b : Fin K → ℝ) (x : Fin n → ℝ) (k : Fin K) : ℝ := linear W x k + b k

/-- `nn.ELU()` (used at _modules.py:190) -/
def elu (t : ℝ) : ℝ := if 0 < t then t else Real.exp t - 1

/-- a chain of layers of `MLP(..., random='dirichlet', bias=False)` with the given dimensions (_modules.py:178-194): an `ELU` after every layer but the last -/
inductive Layers : Nat → Nat → Type where
  | last {n K : Nat} (W : Fin n → Fin K → ℝ) : Layers n K
  | more {n m K : Nat} (W : Fin n → Fin m → ℝ) (rest : Layers m K) : Layers n K

/-- `MLP.__call__` (_modules.py:196-199) -/
def mlp : {n K : Nat} → Layers n K → (Fin n → ℝ) → Fin K → ℝ
  | _, _, .last W, x => linear W x
  | _, _, .more W rest, x => mlp rest (fun k => elu (linear W x k))

/-- all weights in the support of their prior (_modules.py:66-70, 188) -/
def DirichletLayers : {n K : Nat} → Layers n K → Prop
  | _, _, .last W => DirichletRows W
  | _, _, .more W rest => DirichletRows W ∧ DirichletLayers rest

/-- `NiCategorical.__call__`: a categorical node without parents (_modules.py:341-355) -/
def niCategorical (weight : Fin K → ℝ) : Fin K → ℝ := categorical weight

/-- `LinearCategorical.__call__`: a categorical node with parents, the class used by `BayesianModel` (_modules.py:424-427, 468, _network.py:79) -/
def linearCategorical (W : Fin n → Fin K → ℝ) (x : Fin n → ℝ) : Fin K → ℝ := categorical (linear W x)

/-- `MLPCategorical.__call__` (_modules.py:424-427, 469) -/
def mlpCategorical (L : Layers n K) (x : Fin n → ℝ) : Fin K → ℝ := categorical (mlp L x)

/-- `LinearNormal.__call__`: mean of a numerical node with parents, the class used by `BayesianModel` (_modules.py:447-450, 471, _network.py:80); weights and bias
have a normal prior, so all values are allowed -/
def linearNormalMean (w : Fin n → ℝ) (b : ℝ) (x : Fin n → ℝ) : ℝ := linearBias (K := 1) (fun i _ => w i) (fun _ => b) x 0

end

end YL.BNN
