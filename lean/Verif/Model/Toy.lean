import Mathlib.Analysis.SpecialFunctions.Exp
import Mathlib.Analysis.SpecialFunctions.Log.Basic
import Verif.Model.NoTears

/-!
# Model of `ylearn/causal_discovery/toy.py`: `notears_linear`

toy.py:7-84. Floating point numbers are the reals; `slin.expm` is the exact matrix exponential. The optimiser `sopt.minimize(..., method='L-BFGS-B', jac=True, bounds=bnds)` is an
arbitrary function of the objective (value and gradient) and the start value. The vector `w` of doubled variables is a pair of matrices: `w[:d * d]` and `w[d * d:]`, both reshaped to `[d, d]`.
The module runs twenty fits when it is imported (toy.py:94-97); that is not modelled.
-/

namespace YL.Toy

open YL NoTears

noncomputable section

variable {n d : Nat}

/-- a `[d, d]` array -/
abbrev Sq (d : Nat) : Type := Matrix (Fin d) (Fin d) ℝ

/-- an `[n, d]` array -/
abbrev Tab (n d : Nat) : Type := Matrix (Fin n) (Fin d) ℝ

/-- the three known values of `loss_type` (toy.py:23-33) -/
inductive Loss where
  | l2
  | logistic
  | poisson
deriving DecidableEq

/-- the tests on `loss_type`; `none`: `ValueError('unknown loss type')` (toy.py:23-35) -/
def parse (lossType : String) : Option Loss :=
  if lossType = "l2" then some .l2 else if lossType = "logistic" then some .logistic else if lossType = "poisson" then some .poisson else none

/-- `expit` (toy.py:4) -/
def sigmoid (t : ℝ) : ℝ := 1 / (1 + Real.exp (-t))

/-- `np.logaddexp(0, t)` (toy.py:28) -/
def logaddexp0 (t : ℝ) : ℝ := Real.log (Real.exp 0 + Real.exp t)

/-- `loss` of `_loss(W)` (toy.py:20-36) -/
def lossValue (l : Loss) (X : Tab n d) (W : Sq d) : ℝ :=
  match l with
  | .l2 => 0.5 / n * ∑ a, ∑ j, (X a j - (X * W) a j) ^ 2
  | .logistic => 1.0 / n * ∑ a, ∑ j, (logaddexp0 ((X * W) a j) - X a j * (X * W) a j)
  | .poisson => 1.0 / n * ∑ a, ∑ j, (Real.exp ((X * W) a j) - X a j * (X * W) a j)

/-- `G_loss` of `_loss(W)` (toy.py:20-36) -/
def lossGrad (l : Loss) (X : Tab n d) (W : Sq d) : Sq d :=
  match l with
  | .l2 => (-1.0 / n : ℝ) • (X.transpose * (X - X * W))
  | .logistic => (1.0 / n : ℝ) • (X.transpose * ((X * W).map sigmoid - X))
  | .poisson => (1.0 / n : ℝ) • (X.transpose * ((X * W).map Real.exp - X))

/-- `W * W`, entry by entry (toy.py:40) -/
def squares (W : Sq d) : Sq d := Matrix.of (fun i j => W i j * W i j)

/-- `h` of `_h(W)` (toy.py:38-47) -/
def hValue (W : Sq d) : ℝ := (NormedSpace.exp (squares W)).trace - d

/-- `G_h = E.T * W * 2` of `_h(W)` (toy.py:40, 46) -/
def hGrad (W : Sq d) : Sq d := Matrix.of (fun i j => (NormedSpace.exp (squares W)).transpose i j * W i j * 2)

/-- the doubled variables (toy.py:49-51, 64) -/
structure Pair (d : Nat) where
  pos : Sq d
  neg : Sq d

/-- `_adj(w)` (toy.py:49-51) -/
def adj (w : Pair d) : Sq d := w.pos - w.neg

/-- `w.sum()` (toy.py:58) -/
def total (w : Pair d) : ℝ := ∑ i, ∑ j, w.pos i j + ∑ i, ∑ j, w.neg i j

/-- `obj` of `_func(w)` (toy.py:53-58) -/
def objValue (l : Loss) (X : Tab n d) (lambda1 rho alpha : ℝ) (w : Pair d) : ℝ :=
  lossValue l X (adj w) + 0.5 * rho * hValue (adj w) * hValue (adj w) + alpha * hValue (adj w) + lambda1 * total w

/-- `G_smooth` of `_func(w)` (toy.py:59) -/
def smoothGrad (l : Loss) (X : Tab n d) (rho alpha : ℝ) (W : Sq d) : Sq d := lossGrad l X W + (rho * hValue W + alpha) • hGrad W

/-- `g_obj` of `_func(w)` (toy.py:59-61) -/
def objGrad (l : Loss) (X : Tab n d) (lambda1 rho alpha : ℝ) (w : Pair d) : Pair d :=
  ⟨Matrix.of (fun i j => smoothGrad l X rho alpha (adj w) i j + lambda1), Matrix.of (fun i j => -smoothGrad l X rho alpha (adj w) i j + lambda1)⟩

/-- a point within `bnds`: `(0, 0)` on the diagonal, `(0, None)` elsewhere, for both halves (toy.py:65) -/
def Feasible (w : Pair d) : Prop := ∀ i j, 0 ≤ w.pos i j ∧ 0 ≤ w.neg i j ∧ (i = j → w.pos i j = 0 ∧ w.neg i j = 0)

/-- `sopt.minimize`: objective, gradient and start value to a solution (toy.py:71-72) -/
abbrev Minimize (d : Nat) : Type := (Pair d → ℝ) → (Pair d → Pair d) → Pair d → Pair d

/-- what the arguments fix: data (already centred for `l2`), `loss_type`, `lambda1`, the optimiser (toy.py:7, 66-67) -/
structure Problem (n d : Nat) where
  X : Tab n d
  loss : Option Loss
  lambda1 : ℝ
  minimize : Minimize d

/-- one call of `sopt.minimize(_func, w_est, ...)`; `_func` raises `ValueError` for an unknown loss (toy.py:35, 71-72) -/
def solve (p : Problem n d) (rho alpha : ℝ) (w : Pair d) : Except Err (Pair d) :=
  match p.loss with
  | none => .error .value
  | some l => .ok (p.minimize (objValue l p.X p.lambda1 rho alpha) (objGrad l p.X p.lambda1 rho alpha) w)

/-- `h_new > 0.25 * h`, where `h = np.inf` (`none`) is never exceeded (toy.py:74) -/
def exceeds (hNew : ℝ) : Option ℝ → Prop
  | none => False
  | some h => 0.25 * h < hNew

open Classical in
/-- `while rho < rho_max`, at most `fuel` rounds: the answer is `w_new` (with `h_new`) or `none` if the loop was not entered, and `rho`; every round starts at `w_est` (toy.py:69-77) -/
def inner (p : Problem n d) (rhoMax alpha : ℝ) (h : Option ℝ) (w : Pair d) : Nat → ℝ → Option (Pair d) → Except Err (Option (Pair d) × ℝ)
  | 0, _, _ => .error .recursion
  | f + 1, rho, last =>
    if rho < rhoMax then
      match solve p rho alpha w with
      | .error e => .error e
      | .ok wNew => if exceeds (hValue (adj wNew)) h then inner p rhoMax alpha h w f (rho * 10) (some wNew) else .ok (some wNew, rho)
    else .ok (last, rho)

/-- `for _ in range(max_iter)`: the answer is `w_est`, `rho` and `h` (toy.py:68-81); `alpha += rho * h` raises `TypeError` if `h` is `None` -/
def outer (p : Problem n d) (rhoMax hTol : ℝ) (fuel : Nat) : Nat → Pair d → ℝ → ℝ → Option ℝ → Except Err (Pair d × ℝ × Option ℝ)
  | 0, w, rho, _, h => .ok (w, rho, h)
  | k + 1, w, rho, alpha, h =>
    match inner p rhoMax alpha h w fuel rho none with
    | .error e => .error e
    | .ok (none, _) => .error .type
    | .ok (some wNew, rho') =>
      open Classical in
      if hValue (adj wNew) ≤ hTol ∨ rhoMax ≤ rho' then .ok (wNew, rho', some (hValue (adj wNew)))
      else outer p rhoMax hTol fuel k wNew rho' (alpha + rho' * hValue (adj wNew)) (some (hValue (adj wNew)))

/-- `X - np.mean(X, axis=0, keepdims=True)` (toy.py:66-67) -/
def centre (X : Tab n d) : Tab n d := Matrix.of (fun a j => X a j - (∑ b, X b j) / n)

/-- `W_est[np.abs(W_est) < w_threshold] = 0` (toy.py:83) -/
def cut (t : ℝ) (W : Sq d) : Sq d := Matrix.of (fun i j => open Classical in if |W i j| < t then 0 else W i j)

/-- the problem that the arguments describe (toy.py:7, 63-67) -/
def problem (minimize : Minimize d) (X : Tab n d) (lambda1 : ℝ) (lossType : String) : Problem n d :=
  ⟨if lossType = "l2" then centre X else X, parse lossType, lambda1, minimize⟩

/-- `notears_linear(X, lambda1, loss_type, max_iter, h_tol, rho_max, w_threshold)` (toy.py:7-84) -/
def notearsLinear (fuel : Nat) (minimize : Minimize d) (X : Tab n d) (lambda1 : ℝ) (lossType : String) (maxIter : Nat) (hTol rhoMax wThreshold : ℝ) : Except Err (Sq d) :=
  match outer (problem minimize X lambda1 lossType) rhoMax hTol fuel maxIter ⟨0, 0⟩ 1 0 none with
  | .error e => .error e
  | .ok (w, _, _) => .ok (cut wThreshold (adj w))

end

end YL.Toy
