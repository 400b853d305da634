import Verif.Model.Dagma

/-!
# Model of the training loops of `GolemDiscovery` and `DygolemCausalDiscovery`

`causal_discovery/_discovery.py:297-392`, `causal_discovery/_dydiscovery.py:203-304`. Floating point numbers are the reals; the
gradient that `backward()` leaves in `model.parameters()` is an arbitrary function of the parameters (the data are fixed), so
nothing is assumed about the objective. Values that are not finite are not modelled.
-/

namespace YL.GolemFit

open YL YL.Dagma

variable {ι : Type}

/-- what `torch.optim.Adam` keeps for a parameter: the number of steps and the two moving averages -/
structure Opt (ι : Type) where
  steps : Nat
  m : ι → ℝ
  v : ι → ℝ

/-- `torch.optim.Adam(model.parameters(), lr=lr)`: no step has been made (_discovery.py:370-373, _dydiscovery.py:280-282) -/
def fresh : Opt ι := ⟨0, fun _ => 0, fun _ => 0⟩

/-- `optimizer.step(closure)` of `torch.optim.Adam` with `betas=(0.9, 0.999)`, `eps=1e-8`, no weight decay: the closure gives the
gradient `g` (called at _discovery.py:316, _dydiscovery.py:242) -/
noncomputable def adamStep (lr : ℝ) (o : Opt ι) (w g : ι → ℝ) : Opt ι × (ι → ℝ) :=
  let m : ι → ℝ := fun i => 0.9 * o.m i + (1 - 0.9) * g i
  let v : ι → ℝ := fun i => 0.999 * o.v i + (1 - 0.999) * g i ^ 2
  (⟨o.steps + 1, m, v⟩, fun i =>
    w i - lr / (1 - 0.9 ^ (o.steps + 1)) * (m i / (Real.sqrt (v i) / Real.sqrt (1 - 0.999 ^ (o.steps + 1)) + 1e-8)))

/-- `_update(model, optimizer, X)` / `train(...)`: one step (_discovery.py:309-321, _dydiscovery.py:227-246) -/
noncomputable def update (lr : ℝ) (grad : (ι → ℝ) → ι → ℝ) (o : Opt ι) (w : ι → ℝ) : ι → ℝ := (adamStep lr o w (grad w)).2

/-- `for i in range(epoch)`: every round makes a new optimiser and one step with it (_discovery.py:369-374,
_dydiscovery.py:279-283) -/
noncomputable def train (lr : ℝ) (grad : (ι → ℝ) → ι → ℝ) : Nat → (ι → ℝ) → ι → ℝ
  | 0, w => w
  | k + 1, w => train lr grad k (update lr grad fresh w)

variable {d : Nat}

/-- `MinMaxScaler().fit_transform(data)`, the scaling for `scale='auto'`, the default: every column is mapped onto [0, 1]; a
constant column is only shifted (sklearn) (_discovery.py:323-336, 348-350) -/
def IsMinMax {n : Nat} (X Y : Matrix (Fin n) (Fin d) ℝ) : Prop :=
  ∀ j, ∃ lo hi, (∃ a, X a j = lo) ∧ (∃ a, X a j = hi) ∧ (∀ a, lo ≤ X a j ∧ X a j ≤ hi) ∧
    (lo = hi → ∀ a, Y a j = X a j - lo) ∧ (lo ≠ hi → ∀ a, Y a j = (X a j - lo) / (hi - lo))

/-- `Golem.__init__`: `torch.zeros(d, d)` (_discovery.py:258-259) -/
def golemStart : Fin d × Fin d → ℝ := fun _ => 0

/-- `GolemDiscovery.__call__` after the scaling: the training from zero weights, then the threshold and `_to_dag`
(_discovery.py:364-392); `grad` is the gradient of the score for the scaled data, `f` bounds the loop of `trim_cycle` -/
noncomputable def golemCall (f : Nat) (threshold : Option ℝ) (epoch : Nat) (lr : ℝ) (grad : (Fin d × Fin d → ℝ) → Fin d × Fin d → ℝ) :
    Except Err (NoTears.Answer d ℝ) :=
  NoTears.golemDiscovery f threshold (fun i j => train lr grad epoch golemStart (i, j))

/-! ### `DygolemCausalDiscovery` -/

/-- the parameters of `Dynotears`: `w_est` and, for every lag, a matrix of `p_est` (_dydiscovery.py:21-24) -/
abbrev DyIx (d k : Nat) := (Fin d × Fin d) ⊕ (Fin d × Fin d × Fin k)

/-- `Dynotears.__init__`: all weights are one (_dydiscovery.py:21-24) -/
def dyStart {k : Nat} : DyIx d k → ℝ := fun _ => 1

/-- `_compute_likelihood(output, target)`: the errors of all series, time points and columns (`R a j`: row `a` of series and
time point, column `j`); with `equal_variances=False` the inner `torch.sum` has no `dim`, so that the outer one adds a single
number (_dydiscovery.py:216-225) -/
noncomputable def dyLikelihood {N : Nat} (equalVariances : Bool) (R : Matrix (Fin N) (Fin d) ℝ) : ℝ :=
  if equalVariances then 0.5 * d * Real.log (∑ a, ∑ j, R a j ^ 2) else 0.5 * Real.log (∑ a, ∑ j, R a j ^ 2)

/-- what `__call__` returns: `(w_matrix, p_matrix)`, without labels; `return_dict` has no effect, the frame and the dictionary
are made and dropped (_dydiscovery.py:298-304) -/
structure DyAnswer (d k : Nat) where
  w : Mat d ℝ
  p : Fin d → Fin d → Fin k → ℝ

/-- `p_matrix[np.abs(p_matrix) < 0.3] = 0`, the threshold is a literal (_dydiscovery.py:292-294) -/
noncomputable def cutLag (threshold : Option ℝ) (x : ℝ) : ℝ :=
  match threshold with
  | none => x
  | some _ => if |x| < 0.3 then 0 else x

/-- `DygolemCausalDiscovery.__call__` after the reshaping (_dydiscovery.py:275-304) -/
noncomputable def dygolemCall {k : Nat} (f : Nat) (_returnDict : Bool) (threshold : Option ℝ) (epoch : Nat) (lr : ℝ)
    (grad : (DyIx d k → ℝ) → DyIx d k → ℝ) : Except Err (DyAnswer d k) :=
  match Discovery.toDag f (NoTears.cutSmall threshold (fun i j => train lr grad epoch dyStart (.inl (i, j)))) with
  | .error e => .error e
  | .ok W => .ok ⟨W, fun i j l => cutLag threshold (train lr grad epoch dyStart (.inr (i, j, l)))⟩

end YL.GolemFit
