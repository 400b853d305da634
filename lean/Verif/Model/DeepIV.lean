import Mathlib.Analysis.SpecialFunctions.Log.Basic
import Mathlib.Analysis.SpecialFunctions.Trigonometric.Basic
import Mathlib.Data.List.Sort
import Mathlib.Data.List.Dedup
import Mathlib.Data.Rat.Floor
import Mathlib.Algebra.BigOperators.Group.List.Basic
import Mathlib.Algebra.Order.Ring.Rat

/-!
# Model of `ylearn/estimator_model/deepiv.py`: the DeepIV estimator

A network is a function; what a training loop does to its parameters is not modelled (the trained network is a function of
the rows the loop saw), but which rows the loop sees, in which order, and what prediction it compares with the target, is.
Matrices are lists of rows over `ℚ`; devices, dtypes other than the label/vector distinction, and printing are left out.
`categories` is `'auto'`.
-/

namespace YL.DeepIV

/-- the exceptions -/
inductive Err where
  | assertion | value | type | index | unbound | attr | runtime | exception
  deriving DecidableEq, Repr

/-- `torch.argmax(x, dim=1)` on one row: the position of the first largest entry -/
def argmaxFrom : Nat → Nat → ℚ → List ℚ → Nat
  | best, _, _, [] => best
  | best, k, v, a :: l => if v < a then argmaxFrom k (k + 1) a l else argmaxFrom best (k + 1) v l

/-- `torch.argmax` -/
def argmax : List ℚ → Nat
  | [] => 0
  | a :: l => argmaxFrom 0 1 a l

/-- the input of a network: a vector of labels entry (for `nn.Embedding`) or a row of numbers (for `nn.Identity`) -/
inductive Inp where
  | label (k : Nat)
  | vec (v : List ℚ)
  deriving DecidableEq, Repr

/-- `x_hidden_d` / `y_hidden_d` (deepiv.py:609-610, 648-656): absent, an integer (what the docstring asks for) or a list -/
inductive Hidden where
  | absent | int | layers (k : Nat)
  deriving DecidableEq, Repr

/-- `DeepIV.__init__` (deepiv.py:605-667) -/
structure Config where
  discreteT : Bool := false
  discreteZ : Bool := false
  discreteY : Bool := false
  customX : Bool := false
  customY : Bool := false
  xHidden : Hidden := .absent
  yHidden : Hidden := .absent

/-- the arguments of `fit` (deepiv.py:669-681): the columns of `data` named by outcome, treatment, instrument, adjustment -/
structure Args where
  y : List (List ℚ)
  x : List (List ℚ)
  z : Option (List (List ℚ)) := none
  w : Option (List (List ℚ)) := none
  approx : Bool := true
  sampleN : Option Nat := none
  xConfig : Bool := false
  yConfig : Bool := false

/-- the categories found by `OneHotEncoder` in column `j`: sorted, without repetition -/
def cats (m : List (List ℚ)) (j : Nat) : List ℚ := ((m.map (fun r => r.getD j 0)).dedup).insertionSort (· ≤ ·)

/-- the indicator row of one value -/
def indicator (cs : List ℚ) (v : ℚ) : List ℚ := cs.map (fun c => if c = v then 1 else 0)

/-- `OneHotEncoder().fit(m).transform(m).toarray()`: one block per column (deepiv.py:727-746) -/
def oneHot (m : List (List ℚ)) : List (List ℚ) :=
  m.map (fun r => ((List.range (m.headD []).length).map (fun j => indicator (cats m j) (r.getD j 0))).flatten)

/-- `tensor.shape[1]` (utils.py:122-126) -/
def dim (m : List (List ℚ)) : Nat := (m.headD []).length

/-- one batch dataset: `__len__` is the number of targets, item `i` is `(data[i], w[i], target[i])` (_nn.py:32-37) -/
def items {A B C : Type} (X : List A) (W : List B) (Y : List C) : Nat → Nat → Except Err (List (A × B × C))
  | _, 0 => .ok []
  | i, k + 1 =>
    match X[i]?, W[i]?, Y[i]? with
    | some a, some b, some c => (items X W Y (i + 1) k).map (fun l => (a, b, c) :: l)
    | _, _, _ => .error .index

/-- all rows of the dataset in the order of `DataLoader(data, batch_size)` without shuffling -/
def dataset {A B C : Type} (X : List A) (W : List B) (Y : List C) : Except Err (List (A × B × C)) := items X W Y 0 Y.length

/-- the batches of `DataLoader(data, batch_size=b)` (deepiv.py:258, 439) -/
def batches {A : Type} (b : Nat) (hb : 0 < b) (l : List A) : List (List A) :=
  match l with
  | [] => []
  | a :: t => (a :: t).take b :: batches b hb ((a :: t).drop b)
  termination_by l.length
  decreasing_by simp [List.length_drop]; omega

/-- the trained treatment network: the `s`-th draw of the mixture, or the softmax probabilities -/
structure XNet where
  draw : Nat → Inp → List ℚ → List ℚ
  proba : Inp → List ℚ → List ℚ

/-- what is left after `fit`: the rows both training loops saw, the dimensions, the adjustment rows -/
structure Fitted where
  xSeen : List (Inp × List ℚ × Inp)
  ySeen : List (List ℚ × List ℚ × Inp)
  yd : Nat
  xd : Nat
  w : List (List ℚ)

/-- `_gen_x_model`, `_gen_y_model`: the hidden sizes become keyword arguments `hidden_d1 …` of a class that has three
(deepiv.py:934-941, 955-961) -/
def hiddenOk (custom : Bool) : Hidden → Bool
  | .absent => true
  | .int => false
  | .layers k => custom || decide (k ≤ 3)

/-- the input column of the treatment network: labels for a discrete instrument (deepiv.py:254-257, 424-434) -/
def inputs (disc : Bool) (m : List (List ℚ)) : List Inp := m.map (fun r => if disc then .label (argmax r) else .vec r)

/-- `MDNWrapper._sample(z, w, s)`: all rows of draw 0, then all rows of draw 1, … (deepiv.py:324-327) -/
def sampleRows (net : XNet) (z w : List (List ℚ)) (s : Nat) : List (List ℚ) :=
  (List.range s).flatMap (fun k => List.zipWith (fun a b => net.draw k (.vec a) b) z w)

/-- `w.repeat(s, 1)` (deepiv.py:787) -/
def tile {A : Type} (s : Nat) (w : List A) : List A := (List.range s).flatMap (fun _ => w)

/-- step 2 of `fit`: the new treatment rows (deepiv.py:776-781) -/
def stepSample (c : Config) (a : Args) (net : XNet) (x z w : List (List ℚ)) : Except Err (List (List ℚ)) :=
  if a.approx then
    if c.discreteT then .ok (List.zipWith net.proba (inputs c.discreteZ z) w)
    else if c.discreteZ then .error .runtime
    else
      match a.sampleN with
      | none => .error .type
      | some s => .ok (sampleRows net z w s)
  else .ok x

/-- step 3 of `fit`: the adjustment rows beside them (deepiv.py:784-787) -/
def stepW (c : Config) (a : Args) (w : List (List ℚ)) : Except Err (List (List ℚ)) :=
  if c.discreteT then .ok w
  else
    match a.sampleN with
    | none => .error .type
    | some s => .ok (tile s w)

/-- `fit` after the networks were built (deepiv.py:770-793) -/
def train (c : Config) (trainX : List (Inp × List ℚ × Inp) → XNet) (a : Args) (y x z w : List (List ℚ)) :
    Except Err Fitted :=
  let both := !a.xConfig && !a.yConfig
  if !(a.xConfig || both) then .error .type
  else
    match dataset (inputs c.discreteZ z) w (inputs c.discreteT x) with
    | .error e => .error e
    | .ok xs =>
      match stepSample c a (trainX xs) x z w with
      | .error e => .error e
      | .ok x' =>
        match stepW c a w with
        | .error e => .error e
        | .ok w' =>
          if !(a.yConfig || both) then .error .type
          else
            match dataset x' w' (inputs c.discreteY y) with
            | .error e => .error e
            | .ok ys => .ok { xSeen := xs, ySeen := ys, yd := dim y, xd := dim x, w := w }

/-- `DeepIV.fit` (deepiv.py:713-793). `shapes(y, x, w, z)` skips a missing `w`, so that three numbers are unpacked into
four names; `_gen_y_model` never binds `y_net` when a network was given. -/
def fit (c : Config) (trainX : List (Inp × List ℚ × Inp) → XNet) (a : Args) : Except Err Fitted :=
  match a.z with
  | none => .error .assertion
  | some z =>
    match a.w with
    | none => .error .value
    | some w =>
      if !hiddenOk c.customX c.xHidden then .error .type
      else if !hiddenOk c.customY c.yHidden then .error .type
      else if c.customY then .error .unbound
      else
        train c trainX a (if c.discreteY then oneHot a.y else a.y) (if c.discreteT then oneHot a.x else a.x)
          (if c.discreteZ then oneHot z else z) w

/-- the prediction the outcome loop compares with the target for a discrete treatment: `W.repeat_interleave(x_d)`,
`arange(x_d).repeat(batch)`, the network on these rows, `reshape(batch, x_d, out_d)`, `einsum('bkj,bk->bj')`
(deepiv.py:456-467) -/
def mixPrediction (f : Inp → List ℚ → List ℚ) (xd od : Nat) (X W : List (List ℚ)) : List (List ℚ) :=
  let wS := W.flatMap (fun w => List.replicate xd w)
  let xS := (List.range W.length).flatMap (fun _ => (List.range xd).map Inp.label)
  let pred := List.zipWith f xS wS
  (List.range W.length).map (fun b => (List.range od).map (fun j =>
    ((List.range xd).map (fun k => (pred.getD (b * xd + k) []).getD j 0 * (X.getD b []).getD k 0)).sum))

/-! ## Estimation -/

/-- `torch.eye(n, d)` -/
def eye (n d : Nat) : List (List ℚ) :=
  (List.range n).map (fun i => (List.range d).map (fun j => if i = j then 1 else 0))

/-- `ones.index_select(dim=0, index=[k] * n)` (deepiv.py:857, 860-861) -/
def select (m : List (List ℚ)) (k : Int) (n : Nat) : Except Err (List (List ℚ)) :=
  if n = 0 then .ok []
  else if 0 ≤ k ∧ k < m.length then .ok (List.replicate n (m.getD k.toNat [])) else .error .index

/-- `.int()` of a number: truncation towards zero -/
def trunc (q : ℚ) : Int := q.num.tdiv q.den

/-- the result of `NetWrapper.predict`: numbers, or labels for a discrete outcome (deepiv.py:501-509) -/
inductive Pred where
  | values (m : List (List ℚ))
  | labels (l : List Nat)
  deriving DecidableEq, Repr

/-- `NetWrapper.predict(x, w)` of the outcome network (deepiv.py:501-509); the softmax does not change the argmax -/
def predict (c : Config) (f : Inp → List ℚ → List ℚ) (x w : List (List ℚ)) : Pred :=
  let out := List.zipWith (fun r b => f (if c.discreteT then .label (argmax r) else .vec r) b) x w
  if c.discreteY then .labels (out.map argmax) else .values out

/-- `ones * t` -/
def scale (t : ℚ) (m : List (List ℚ)) : List (List ℚ) := m.map (fun r => r.map (fun v => v * t))

/-- `_prepare4est` (deepiv.py:831-881): `yt` and, unless the caller asked for marginal effects of a continuous treatment, `y0` -/
def prepare (c : Config) (f : Inp → List ℚ → List ℚ) (xd : Nat) (w : List (List ℚ)) (treat control : Option ℚ)
    (marginal : Bool) : Except Err (Pred × Pred) :=
  let t := treat.getD 1
  let c0 := control.getD 0
  let n := w.length
  let ones := eye n xd
  if c.discreteT then
    match select ones (trunc t) n with
    | .error e => .error e
    | .ok xt =>
      match select ones 0 n with
      | .error e => .error e
      | .ok x0 => .ok (predict c f xt w, predict c f x0 w)
  else if marginal then .error .attr
  else .ok (predict c f (scale t ones) w, predict c f (scale c0 ones) w)

/-- column means: `.mean(dim=0)` -/
def colMean (d : Nat) (m : List (List ℚ)) : List ℚ :=
  (List.range d).map (fun j => (m.map (fun r => r.getD j 0)).sum / m.length)

/-- entrywise difference of two matrices -/
def sub (a b : List (List ℚ)) : List (List ℚ) := List.zipWith (fun r s => List.zipWith (fun u v => u - v) r s) a b

/-- the result of `estimate` -/
inductive Est where
  | mean (v : List ℚ)
  | raw (p : Pred)
  deriving DecidableEq, Repr

/-- the mean taken in `estimate`; torch has no mean of integers (deepiv.py:927-928) -/
def meanOf (yd : Nat) : Pred → Pred → Bool → Except Err Est
  | .values a, .values b, false => .ok (.mean (colMean yd (sub a b)))
  | .values a, _, true => .ok (.mean (colMean yd a))
  | _, _, _ => .error .runtime

/-- `quantity` -/
inductive Quantity where
  | cate | ate | other
  deriving DecidableEq, Repr

/-- `DeepIV.estimate(data, treat, control, quantity, marginal_effect)` (deepiv.py:883-932); `fitted` is `none` before `fit`,
`w` are the adjustment columns of `data`, or those of the training data -/
def estimate (c : Config) (fitted : Option ((Inp → List ℚ → List ℚ) × Fitted)) (data : Option (List (List ℚ)))
    (treat control : Option ℚ) (q : Quantity) (marginal : Bool) : Except Err Est :=
  match fitted with
  | none => .error .exception
  | some (f, m) =>
    match prepare c f m.xd (data.getD m.w) treat control marginal with
    | .error e => .error e
    | .ok (yt, y0) =>
      match q with
      | .other => .ok (.raw yt)
      | _ => meanOf m.yd yt y0 marginal

/-- `DeepIV.effect_nji(data)`: `torch.full(size)` without a fill value (deepiv.py:795-829) -/
def effectNji (fitted : Option ((Inp → List ℚ → List ℚ) × Fitted)) : Except Err (List (List ℚ)) :=
  match fitted with
  | none => .error .exception
  | some _ => .error .type

/-! ## The wrapper used by `Why` -/

/-- `DeepIVWrapper._f64to32(data)` on the column dtypes (`true` = float64); assigning a frame to a longer list of columns is
a `ValueError` (_factory.py:336-343) -/
def f64to32 (cols : List Bool) : Except Err (List Bool) :=
  if 0 < (cols.filter id).length then
    if (cols.filter id).length = cols.length then .ok (cols.map (fun _ => false)) else .error .value
  else .ok cols

/-! ## The mixture density network, over the reals -/

/-- `nn.Softmax(dim=1)(pi - pi.max())` (deepiv.py:119-121) -/
noncomputable def mixWeights {k : Nat} (pi : Fin k → ℝ) (top : ℝ) (i : Fin k) : ℝ :=
  Real.exp (pi i - top) / ∑ j, Real.exp (pi j - top)

/-- `torch.exp(torch.clamp(s, -stab_bound, stab_bound))` (deepiv.py:126-127) -/
noncomputable def mixSigma (bound s : ℝ) : ℝ := Real.exp (min (max s (-bound)) bound)

/-- the density of `Normal(mu, sigma)` -/
noncomputable def normalDensity (mu sigma y : ℝ) : ℝ :=
  Real.exp (-((y - mu) ^ 2) / (2 * sigma ^ 2)) / (sigma * Real.sqrt (2 * Real.pi))

/-- the density of `MixtureSameFamily(Categorical(pi), Independent(Normal(mu, sigma), 1))` (deepiv.py:175-179) -/
noncomputable def mixDensity {k d : Nat} (pi : Fin k → ℝ) (mu sigma : Fin k → Fin d → ℝ) (y : Fin d → ℝ) : ℝ :=
  ∑ i, pi i * ∏ j, normalDensity (mu i j) (sigma i j) (y j)

/-- `MDNWrapper.loss_fn` from the densities of the rows of a batch: `-logsumexp(log_prob, dim=0)` (deepiv.py:208-210) -/
noncomputable def mdnLoss (ps : List ℝ) : ℝ := -Real.log ((ps.map (fun p => Real.exp (Real.log p))).sum)

/-- `nn.Softmax(dim=1)` on one row -/
noncomputable def softmax {k : Nat} (v : Fin k → ℝ) (i : Fin k) : ℝ := Real.exp (v i) / ∑ j, Real.exp (v j)

end YL.DeepIV
