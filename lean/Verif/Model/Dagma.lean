import Mathlib.Analysis.SpecialFunctions.Log.Basic
import Mathlib.Analysis.Real.Sqrt
import Mathlib.LinearAlgebra.Matrix.NonsingularInverse
import Mathlib.LinearAlgebra.Matrix.Trace
import Mathlib.Data.Sign.Defs
import Verif.Model.NoTears

/-!
# Model of `Dagma`, `DagmaDiscovery` and the likelihood of `Golem` (`ylearn/causal_discovery/_discovery.py`)

Floating point numbers are idealised as the reals. `np.log(s)` and the logarithm of `torch.slogdet` are `Real.log`;
`-inf` (a singular matrix) is a value of its own. `torch.inverse` of a singular matrix raises.
-/

namespace YL.Dagma

open YL

/-- a `d × d` tensor -/
abbrev Mx (d : Nat) := Matrix (Fin d) (Fin d) ℝ

variable {d n : Nat}

/-- `Dagma.forward`: `self.cov = X.t() @ X / float(self.n)`; the assignment of `-X.mean(...)` to `self.X` in line 426
is not used afterwards (_discovery.py:424-432) -/
noncomputable def cov (X : Matrix (Fin n) (Fin d) ℝ) : Mx d := (1 / (n : ℝ)) • (X.transpose * X)

/-- `s * torch.eye(d) - w_est * w_est`, the product being entry by entry (_discovery.py:442, 467, 477) -/
def mMatrix (s : ℝ) (W : Mx d) : Mx d := s • (1 : Mx d) - Matrix.of (fun i j => W i j * W i j)

/-- `torch.slogdet(M)[1]`: `none` for `-inf` -/
noncomputable def slogdet (M : Mx d) : Option ℝ := if M.det = 0 then none else some (Real.log |M.det|)

/-- `_score`: the loss `0.5 * trace(dif.t() @ cov @ dif)` with `dif = eye - w_est` (_discovery.py:434-439) -/
noncomputable def score (C W : Mx d) : ℝ := 0.5 * ((1 - W).transpose * (C * (1 - W))).trace

/-- `_score`: the second component `G_loss = -cov @ dif` (_discovery.py:435-439) -/
def gLoss (C W : Mx d) : Mx d := -(C * (1 - W))

/-- `_h`: the first component `slogdet(M)[1] + d * log(s)` (_discovery.py:441-445) -/
noncomputable def hVal (s : ℝ) (W : Mx d) : Option ℝ := (slogdet (mMatrix s W)).map (· + d * Real.log s)

/-- `_h`: the second component `2 * w_est * torch.inverse(M).t()` (_discovery.py:444-445) -/
noncomputable def gH (s : ℝ) (W : Mx d) : Mx d :=
  Matrix.of (fun i j => 2 * W i j * ((mMatrix s W)⁻¹).transpose i j)

/-- `torch.abs(w_est).sum()` (_discovery.py:450) -/
def l1 (W : Mx d) : ℝ := ∑ i, ∑ j, |W i j|

/-- `_func`: the objective `mu * (score + lambda_1 * sum |w|) + h` whose change ends `minimize` (_discovery.py:447-451) -/
noncomputable def func (lam : ℝ) (C : Mx d) (mu s : ℝ) (W : Mx d) : Option ℝ :=
  (hVal s W).map (fun h => mu * (score C W + lam * l1 W) + h)

/-- the parameters of a `Dagma` (_discovery.py:409-422) -/
structure Cfg where
  lam : ℝ
  beta1 : ℝ
  beta2 : ℝ
  checkpoint : Nat

/-- the defaults, the only values `DagmaDiscovery` uses (_discovery.py:409-422, 566) -/
noncomputable def Cfg.default : Cfg := ⟨0.02, 0.99, 0.999, 1000⟩

/-- `M = torch.inverse(s * eye - W * W) + 1e-16`: raises for a singular matrix (_discovery.py:467, 477) -/
noncomputable def invPlus (s : ℝ) (W : Mx d) : Except Err (Mx d) :=
  if (mMatrix s W).det = 0 then .error .exception
  else .ok (Matrix.of (fun i j => ((mMatrix s W)⁻¹) i j + 1e-16))

/-- `torch.any(M < 0)` (_discovery.py:468) -/
def anyNeg (M : Mx d) : Prop := ∃ i j, M i j < 0

/-- `Gobj = G_score + mu * lambda_1 * sign(W) + 2 * W * M.T` with `G_score = -mu * cov @ (eye - W)`
(_discovery.py:479-481) -/
noncomputable def gObj (lam : ℝ) (C : Mx d) (mu : ℝ) (W M : Mx d) : Mx d :=
  Matrix.of (fun i j => -mu * (C * (1 - W)) i j + mu * lam * (SignType.sign (W i j) : ℝ) + 2 * W i j * M j i)

/-- `_adam_update(grad, iter)`: the new `opt_m`, `opt_v` and the step direction (_discovery.py:453-459) -/
noncomputable def adam (c : Cfg) (optM optV g : Mx d) (iter : Nat) : Mx d × Mx d × Mx d :=
  let m : Mx d := Matrix.of (fun i j => optM i j * c.beta1 + (1 - c.beta1) * g i j)
  let v : Mx d := Matrix.of (fun i j => optV i j * c.beta2 + (1 - c.beta2) * g i j ^ 2)
  (m, v, Matrix.of (fun i j =>
    (m i j / (1 - c.beta1 ^ iter)) / (Real.sqrt (v i j / (1 - c.beta2 ^ iter)) + 1e-8)))

/-- the state of the loop of `minimize`: `W` is `self.w_est` itself, changed in place; `grad` is `None` before the first
step; `prev` is `obj_prev`, `none` for `-inf` (_discovery.py:462-464, 484-485, 494) -/
structure St (d : Nat) where
  W : Mx d
  optM : Mx d
  optV : Mx d
  lr : ℝ
  grad : Mx d
  prev : Option ℝ

/-- how the inner loop ends: it leaves the function with `(W, flag)`, or goes on with `W`, `lr` and `M` -/
inductive Back (d : Nat) where
  | done (W : Mx d) (ok : Bool)
  | go (W : Mx d) (lr : ℝ) (M : Mx d)

open Classical in
/-- `while torch.any(M < 0)` with at most `fuel` rounds: give up at the first iteration or for `s <= 0.9`, otherwise undo
the last step, halve the learning rate and repeat the step (_discovery.py:468-477) -/
noncomputable def backtrack (s : ℝ) (grad : Mx d) (first : Bool) : Nat → Mx d → ℝ → Mx d → Except Err (Back d)
  | 0, _, _, _ => .error .recursion
  | f + 1, W, lr, M =>
    if anyNeg M then
      if first = true ∨ s ≤ 0.9 then .ok (.done W false)
      else if lr * 0.5 ≤ 1e-16 then .ok (.done (W + lr • grad) true)
      else
        match invPlus s (W + lr • grad - (lr * 0.5) • grad) with
        | .error e => .error e
        | .ok M' => backtrack s grad first f (W + lr • grad - (lr * 0.5) • grad) (lr * 0.5) M'
    else .ok (.go W lr M)

open Classical in
/-- `abs((obj_prev - obj_new) / obj_prev) <= tol`: false if one of the numbers is infinite or `obj_prev` is zero (the
quotient is then infinite or nan) (_discovery.py:490) -/
noncomputable def converged (tol : ℝ) : Option ℝ → Option ℝ → Bool
  | some p, some q => decide (p ≠ 0 ∧ |(p - q) / p| ≤ tol)
  | _, _ => false

open Classical in
/-- `for iter in range(1, max_iter + 1)` from `iter` on, `k` iterations left (_discovery.py:465-497); the fuel is for the
inner loop. `checkpoint = 0` would raise `ZeroDivisionError`. -/
noncomputable def minLoop (c : Cfg) (C : Mx d) (mu s tol : ℝ) (fuel : Nat) :
    (k iter : Nat) → St d → Except Err (Mx d × Bool)
  | 0, _, st => .ok (st.W, true)
  | k + 1, iter, st =>
    match invPlus s st.W with
    | .error e => .error e
    | .ok M =>
      match backtrack s st.grad (iter == 1) fuel st.W st.lr M with
      | .error e => .error e
      | .ok (.done W ok) => .ok (W, ok)
      | .ok (.go W lr M) =>
        let a := adam c st.optM st.optV (gObj c.lam C mu W M) iter
        let W' := W - lr • a.2.2
        let st' : St d := ⟨W', a.1, a.2.1, lr, a.2.2, st.prev⟩
        if iter % c.checkpoint = 0 ∨ k = 0 then
          let obj := func c.lam C mu s W'
          if converged tol st.prev obj then .ok (W', true)
          else minLoop c C mu s tol fuel k (iter + 1) { st' with prev := obj }
        else minLoop c C mu s tol fuel k (iter + 1) st'

/-- `minimize(cov, mu, max_iter, lr, s)` with `tol=1e-6`: `obj_prev = 1e16`, `opt_m, opt_v = 0, 0`
(_discovery.py:461-497); `C` is both `cov` and `self.cov`, the same tensor -/
noncomputable def minimize (c : Cfg) (C : Mx d) (fuel : Nat) (W : Mx d) (mu : ℝ) (maxIter : Nat) (lr s : ℝ) :
    Except Err (Mx d × Bool) :=
  minLoop c C mu s 1e-6 fuel maxIter 1 ⟨W, 0, 0, lr, 0, some 1e16⟩

/-- the parameters of a `DagmaDiscovery` that `train` uses; `s` is the list `self.s`, which `train` changes
(_discovery.py:502-514) -/
structure Disc where
  T : Nat
  lr : ℝ
  muInit : ℝ
  muFactor : ℝ
  warmIter : Nat
  maxIter : Nat

/-- `[1.0, .9, .8, .7, .6]` (_discovery.py:513) -/
noncomputable def sInit : List ℝ := [1.0, 0.9, 0.8, 0.7, 0.6]

/-- `self.s + (self.T - len(self.s)) * [self.s[-1]]` for a list that is too short; `IndexError` for an empty list
(_discovery.py:519-521) -/
def padS (T : Nat) (s : List ℝ) : Except Err (List ℝ) :=
  if s.length < T then
    match s.getLast? with
    | none => .error .index
    | some l => .ok (s ++ List.replicate (T - s.length) l)
  else .ok s

/-- `while success is False`: `minimize` again and again on the tensor it left behind, with half the learning rate and `s[i]` larger
by 0.1; the answer is the tensor and the last `s[i]` (_discovery.py:530-535) -/
noncomputable def retry (c : Cfg) (C : Mx d) (inner : Nat) (mu : ℝ) (iters : Nat) :
    Nat → Mx d → ℝ → ℝ → Except Err (Mx d × ℝ)
  | 0, _, _, _ => .error .recursion
  | f + 1, W, lr, s =>
    match minimize c C inner W mu iters lr s with
    | .error e => .error e
    | .ok (W', true) => .ok (W', s)
    | .ok (W', false) => retry c C inner mu iters f W' (lr * 0.5) (s + 0.1)

/-- `for i in range(int(self.T))` over the entries `s[i]`, the answer is the tensor and the new `self.s`: `max_iter` for the
last stage and `warm_iter` for the others; `mu *= mu_factor` (_discovery.py:526-538) -/
noncomputable def stages (c : Cfg) (p : Disc) (C : Mx d) (inner outer : Nat) :
    Nat → List ℝ → Mx d → ℝ → Except Err (Mx d × List ℝ)
  | 0, ss, W, _ => .ok (W, ss)
  | _ + 1, [], _, _ => .error .index
  | k + 1, s :: ss, W, mu =>
    match retry c C inner mu (if k = 0 then p.maxIter else p.warmIter) outer W p.lr s with
    | .error e => .error e
    | .ok (W', s') =>
      match stages c p C inner outer k ss W' (mu * p.muFactor) with
      | .error e => .error e
      | .ok (W'', ss') => .ok (W'', s' :: ss')

/-- `train(model, X, pbar)` on a new model, whose `w_est` is zero: the weights and `self.s` afterwards
(_discovery.py:516-538, 566-571; `T = 0` would raise `AttributeError` for `self.w_est`, `1 ≤ T` here) -/
noncomputable def train (c : Cfg) (p : Disc) (inner outer : Nat) (ss : List ℝ) (X : Matrix (Fin n) (Fin d) ℝ) :
    Except Err (Mx d × List ℝ) :=
  match padS p.T ss with
  | .error e => .error e
  | .ok ss' => stages c p (cov X) inner outer p.T ss' 0 p.muInit

/-- what a call is given besides the data: all of it only sets the length of a progress bar, except `threshold`
(_discovery.py:540-542, 569) -/
structure CallArgs where
  lr : ℝ
  T : Nat
  warmIter : ℝ
  s : List ℝ
  maxIter : ℝ
  threshold : Option ℝ

/-- `DagmaDiscovery(lambdaa=..., ...)(data, ...)` on an object with the settings `p`, `lambdaa` and `self.s = ss`: the model is
`Dagma(dims)` with the default parameters, `train` uses the settings of the object (_discovery.py:540-598); the answer is
the matrix and `self.s` afterwards -/
noncomputable def call (p : Disc) (_lambdaa : ℝ) (a : CallArgs) (f inner outer : Nat) (ss : List ℝ)
    (X : Matrix (Fin n) (Fin d) ℝ) : Except Err (NoTears.Answer d ℝ × List ℝ) :=
  match train Cfg.default p inner outer ss X with
  | .error e => .error e
  | .ok (W, ss') =>
    match NoTears.dagmaDiscovery f a.threshold (fun i j => W i j) with
    | .error e => .error e
    | .ok r => .ok (r, ss')

/-! ### The likelihood of `Golem` -/

/-- the sum of the squares of `X - X @ w_est`, `torch.square(torch.norm(...))` (_discovery.py:275-279) -/
def residual (X : Matrix (Fin n) (Fin d) ℝ) (W : Mx d) : ℝ := ∑ a, ∑ j, (X - X * W) a j ^ 2

/-- `_compute_likelihood(X)` (_discovery.py:270-287); `Real.log` for `torch.log`, so the value for a residual of zero and for a
singular `eye - w_est` (infinite) is not modelled -/
noncomputable def likelihood (equalVariances : Bool) (X : Matrix (Fin n) (Fin d) ℝ) (W : Mx d) : ℝ :=
  if equalVariances then 0.5 * d * Real.log (residual X W) - Real.log |(1 - W).det|
  else 0.5 * (∑ j, Real.log (∑ a, (X - X * W) a j ^ 2)) - Real.log |(1 - W).det|

/-- `Golem.forward(X)`: `likelihood + lambdaa * L1 + lambdab * h` (_discovery.py:289-294, 267-268) -/
noncomputable def golemScore (equalVariances : Bool) (la lb : ℝ) (X : Matrix (Fin n) (Fin d) ℝ) (W : Mx d) : ℝ :=
  likelihood equalVariances X W + la * l1 W + lb * NoTears.hGolem (fun i j => W i j)

/-- the score that `GolemDiscovery(equal_variances=...)` minimises: `equal_variances=True` is hard coded, the argument
is not stored (_discovery.py:298-307, 363-364) -/
noncomputable def golemObjective (_equalVariances : Bool) (la lb : ℝ) (X : Matrix (Fin n) (Fin d) ℝ) (W : Mx d) : ℝ :=
  golemScore true la lb X W

end YL.Dagma
