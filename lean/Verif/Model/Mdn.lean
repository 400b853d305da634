/-
The mixture density network of `DeepIV` as a probability model, over the reals: the network itself, the log density it
reports, the noise its sampler consumes, and the hand-written `GaussianProb`.
Models ylearn/estimator_model/deepiv.py 27-128 (`MixtureDensityNetwork`), 175-210 and 277-327 (`MDNWrapper`) and
ylearn/estimator_model/_nn.py 91-162 (`GaussianProb`).

Simplified: real numbers for float32; `torch.distributions` is written out from its definitions (`Normal.log_prob`,
`Independent`, `MixtureSameFamily.log_prob`, `.sample` and `.cdf`); the number of components is at least one
(`pi.max(dim=1)` raises otherwise). The optimiser is not modelled: every statement is for arbitrary weights.
-/
import Mathlib.Analysis.SpecialFunctions.Log.Basic
import Mathlib.Analysis.SpecialFunctions.Sqrt
import Mathlib.Analysis.Real.Pi.Bounds
import Mathlib.Logic.Equiv.Fin.Basic
import Mathlib.Order.Fin.Tuple
import Verif.Model.Nx

namespace YL.Mdn

open YL

/-- `nn.Linear` on one row -/
noncomputable def linear {n m : Nat} (W : Fin m → Fin n → ℝ) (b : Fin m → ℝ) (x : Fin n → ℝ) (i : Fin m) : ℝ :=
  ∑ j, x j * W i j + b i

/-- `nn.ELU()` -/
noncomputable def elu (x : ℝ) : ℝ := if 0 < x then x else Real.exp x - 1

/-- the weights of a network with `k + 1` components of dimension `d` (deepiv.py:64, 71-91): `embed` is the table of
`nn.Embedding` when the input is discrete -/
structure Weights (zd ed wd h1 h2 k d : Nat) where
  embed : Fin zd → Fin ed → ℝ
  w1 : Fin h1 → Fin (ed + wd) → ℝ
  b1 : Fin h1 → ℝ
  w2 : Fin h2 → Fin h1 → ℝ
  b2 : Fin h2 → ℝ
  wpi : Fin (k + 1) → Fin h2 → ℝ
  bpi : Fin (k + 1) → ℝ
  wmu : Fin ((k + 1) * d) → Fin h2 → ℝ
  bmu : Fin ((k + 1) * d) → ℝ
  wsg : Fin ((k + 1) * d) → Fin h2 → ℝ
  bsg : Fin ((k + 1) * d) → ℝ
  /-- `stab_bound` -/
  bound : ℝ

/-- what the first layer is given for the instrument: the row itself (`nn.Identity`), or the class number
(`nn.Embedding`) (deepiv.py:71-80, 114) -/
inductive Input (zd ed : Nat) where
  | row (z : Fin ed → ℝ)
  | cls (c : Fin zd)

variable {zd ed wd h1 h2 k d : Nat}

/-- `self.embed(x)` (deepiv.py:114) -/
def embedded (P : Weights zd ed wd h1 h2 k d) : Input zd ed → Fin ed → ℝ
  | .row z => z
  | .cls c => P.embed c

/-- `self.hidden_layer(torch.cat((x, w), dim=1))` (deepiv.py:82-87, 116-117) -/
noncomputable def hiddenRow (P : Weights zd ed wd h1 h2 k d) (z : Input zd ed) (w : Fin wd → ℝ) : Fin h2 → ℝ :=
  fun i => elu (linear P.w2 P.b2 (fun j => elu (linear P.w1 P.b1 (Fin.append (embedded P z) w) j)) i)

/-- `pi.max(dim=1).values` -/
noncomputable def top (v : Fin (k + 1) → ℝ) : ℝ := Finset.univ.sup' ⟨0, Finset.mem_univ _⟩ v

/-- `nn.Softmax(dim=1)(pi - pi.max(dim=1))` (deepiv.py:120-121) -/
noncomputable def weights (v : Fin (k + 1) → ℝ) (i : Fin (k + 1)) : ℝ :=
  Real.exp (v i - top v) / ∑ j, Real.exp (v j - top v)

/-- `torch.clamp(s, -b, b)`: the lower bound first, then the upper one -/
noncomputable def clamp (b s : ℝ) : ℝ := min (max s (-b)) b

/-- the first result of `forward` (deepiv.py:119-121) -/
noncomputable def piOf (P : Weights zd ed wd h1 h2 k d) (z : Input zd ed) (w : Fin wd → ℝ) : Fin (k + 1) → ℝ :=
  weights (linear P.wpi P.bpi (hiddenRow P z w))

/-- the second result: `.reshape(-1, num_gaussian, out_d)`, row-major (deepiv.py:123-125) -/
noncomputable def muOf (P : Weights zd ed wd h1 h2 k d) (z : Input zd ed) (w : Fin wd → ℝ) (i : Fin (k + 1)) (j : Fin d) : ℝ :=
  linear P.wmu P.bmu (hiddenRow P z w) (finProdFinEquiv (i, j))

/-- the third result: `exp(clamp(.))`, reshaped (deepiv.py:126-127) -/
noncomputable def sigmaOf (P : Weights zd ed wd h1 h2 k d) (z : Input zd ed) (w : Fin wd → ℝ) (i : Fin (k + 1)) (j : Fin d) : ℝ :=
  Real.exp (clamp P.bound (linear P.wsg P.bsg (hiddenRow P z w) (finProdFinEquiv (i, j))))

/-! ## `torch.distributions` -/

/-- `Normal(mu, sigma).log_prob(y)` -/
noncomputable def normalLog (mu sigma y : ℝ) : ℝ :=
  -(y - mu) ^ 2 / (2 * sigma ^ 2) - Real.log sigma - Real.log (Real.sqrt (2 * Real.pi))

/-- `Independent(Normal(mu, sigma), 1).log_prob(y)`: the last dimension is summed (deepiv.py:177) -/
noncomputable def compLog (mu sigma y : Fin d → ℝ) : ℝ := ∑ j, normalLog (mu j) (sigma j) (y j)

/-- `MixtureSameFamily(Categorical(pi), comp).log_prob(y)`: `logsumexp(comp.log_prob + log_softmax(mix.logits))`, where the
logits of `Categorical(pi)` are the logarithms of `pi / pi.sum()` (deepiv.py:175-179) -/
noncomputable def mixLog (pi : Fin (k + 1) → ℝ) (mu sigma : Fin (k + 1) → Fin d → ℝ) (y : Fin d → ℝ) : ℝ :=
  Real.log (∑ i, Real.exp (compLog (mu i) (sigma i) y + Real.log (pi i / ∑ j, pi j)))

/-- `MDNWrapper.predict_log_prob` on one row (deepiv.py:277-297) -/
noncomputable def predictLogProb (P : Weights zd ed wd h1 h2 k d) (z : Input zd ed) (w : Fin wd → ℝ) (y : Fin d → ℝ) : ℝ :=
  mixLog (piOf P z w) (muOf P z w) (sigmaOf P z w) y

/-- `MDNWrapper.predict_prob` (deepiv.py:299-300) -/
noncomputable def predictProb (P : Weights zd ed wd h1 h2 k d) (z : Input zd ed) (w : Fin wd → ℝ) (y : Fin d → ℝ) : ℝ :=
  Real.exp (predictLogProb P z w y)

/-- `MDNWrapper.predict_cdf`: `MixtureSameFamily.cdf` asks the component distribution, and `Independent` inherits
`Distribution.cdf`, which raises `NotImplementedError` (deepiv.py:302-304) -/
def predictCdf (_P : Weights zd ed wd h1 h2 k d) (_z : Input zd ed) (_w : Fin wd → ℝ) (_y : Fin d → ℝ) : Except Err ℝ :=
  .error .exception

/-- `MDNWrapper.loss_fn` on a batch: `-logsumexp` over the rows (deepiv.py:181-210) -/
noncomputable def loss (P : Weights zd ed wd h1 h2 k d) (batch : List (Input zd ed × (Fin wd → ℝ) × (Fin d → ℝ))) : ℝ :=
  -Real.log ((batch.map (fun r => Real.exp (predictLogProb P r.1 r.2.1 r.2.2))).sum)

/-- `MixtureSameFamily.sample`: a component is drawn, every component draws `mu + sigma * noise`, and the draw of the chosen
component is gathered (deepiv.py:324-326) -/
noncomputable def draw (mu sigma : Fin (k + 1) → Fin d → ℝ) (ω : Fin (k + 1) × (Fin (k + 1) → Fin d → ℝ)) : Fin d → ℝ :=
  fun j => mu ω.1 j + sigma ω.1 j * ω.2 ω.1 j

/-- `MDNWrapper._sample` on one row, from the noise (deepiv.py:306-327) -/
noncomputable def sampleRow (P : Weights zd ed wd h1 h2 k d) (z : Input zd ed) (w : Fin wd → ℝ)
    (ω : Fin (k + 1) × (Fin (k + 1) → Fin d → ℝ)) : Fin d → ℝ :=
  draw (muOf P z w) (sigmaOf P z w) ω

/-- `mg.sample((sample_n,)).reshape(-1, out_d)`: row `s * b + i` of the result is draw `s` for row `i` of the batch of `b` rows
(deepiv.py:326-327) -/
noncomputable def sampleRows {n b : Nat} (P : Weights zd ed wd h1 h2 k d) (zs : Fin b → Input zd ed) (ws : Fin b → Fin wd → ℝ)
    (ω : Fin n → Fin b → Fin (k + 1) × (Fin (k + 1) → Fin d → ℝ)) (r : Fin (n * b)) : Fin d → ℝ :=
  sampleRow P (zs (finProdFinEquiv.symm r).2) (ws (finProdFinEquiv.symm r).2)
    (ω (finProdFinEquiv.symm r).1 (finProdFinEquiv.symm r).2)

/-! ## `GaussianProb` -/

/-- `GaussianProb.prob_density(y)` at component `i`, coordinate `j` (_nn.py:126-142) -/
noncomputable def probDensity (mu sigma : Fin (k + 1) → Fin d → ℝ) (y : Fin d → ℝ) (i : Fin (k + 1)) (j : Fin d) : ℝ :=
  (1 / Real.sqrt (2 * Real.pi)) * Real.exp (-(1 / 2) * ((y j - mu i j) / sigma i j) ^ 2) / sigma i j

/-- `GaussianProb.mixture_density(pi, y)` at coordinate `j` (_nn.py:153-156) -/
noncomputable def mixtureDensity (mu sigma : Fin (k + 1) → Fin d → ℝ) (pi : Fin (k + 1) → ℝ) (y : Fin d → ℝ) (j : Fin d) : ℝ :=
  ∑ i, probDensity mu sigma y i j * pi i

/-- `GaussianProb.mixture_density(pi, y, torch_D)`: `Independent(Normal(...))` lacks an argument (_nn.py:144-157) -/
noncomputable def mixtureDensityCall (mu sigma : Fin (k + 1) → Fin d → ℝ) (pi : Fin (k + 1) → ℝ) (y : Fin d → ℝ)
    (torchD : Bool) : Except Err (Fin d → ℝ) :=
  if torchD then .error .type else .ok (mixtureDensity mu sigma pi y)

/-- `GaussianProb.prod_prob(y)`: there is no method `prob` (_nn.py:159-162) -/
def prodProb (_mu _sigma : Fin (k + 1) → Fin d → ℝ) (_y : Fin d → ℝ) : Except Err (Fin (k + 1) → ℝ) := .error .attr

end YL.Mdn
