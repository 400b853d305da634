import Verif.Model.Nx
import Mathlib.Algebra.Order.Field.Basic
import Mathlib.Algebra.BigOperators.Group.List.Basic

/-!
# Model of the data generators `ylearn/exp_dataset/exp_data.py`

Random draws are parameters: a list with the draws of every row, the support and coefficients of the confounders, the order in which
`train_test_split` puts the rows. `te` stands for `exp_te`, `te2` for `ln_te` (20-25) as functions of the first covariate. Exact
arithmetic over an ordered field.
-/

namespace YL.ExpData

open YL

variable {K : Type} [Field K] [LinearOrder K]

/-- the draws of one row: confounders, covariates, the noises `eta` and `eps`, the binomial draw (exp_data.py:145-151, 192-201, 222-227) -/
structure Draw (K : Type) where
  w : List K
  c : List K
  eta : K
  eps : K
  coin : Bool

/-- one row of the data frame: columns `w_i`, `c_i`, `treatment` (or `treatment_i`), `outcome` and the effects (exp_data.py:28-53) -/
structure Row (K : Type) where
  w : List K
  c : List K
  treatment : List K
  outcome : K
  te : List K
  deriving DecidableEq

/-- `np.dot(W[:, support], coefs)` (exp_data.py:151-153, 197, 201, 225-226) -/
def lin (supp : List Nat) (coefs : List K) (w : List K) : K := ((supp.zip coefs).map (fun p => w.getD p.1 0 * p.2)).sum

/-- a row of `single_binary_treatment` (exp_data.py:192-201) -/
def binaryRow (te : K → K) (supp : List Nat) (coefsY : List K) (d : Draw K) : Row K :=
  let x : K := if d.coin then 1 else 0
  ⟨d.w, d.c, [x], te (d.c.headD 0) * x + lin supp coefsY d.w + d.eps, [te (d.c.headD 0)]⟩

/-- a row of `single_continuous_treatment` (exp_data.py:224-227) -/
def continuousRow (te : K → K) (supp : List Nat) (coefsY coefsT : List K) (d : Draw K) : Row K :=
  let x : K := lin supp coefsT d.w + d.eta
  ⟨d.w, d.c, [x], te (d.c.headD 0) * x + lin supp coefsY d.w + d.eps, [te (d.c.headD 0)]⟩

/-- a row of `multi_continuous_treatment` (exp_data.py:148-155) -/
def multiRow (te te2 : K → K) (supp : List Nat) (coefsY coefsT : List K) (d : Draw K) : Row K :=
  let x : K := lin supp coefsT d.w + d.eta
  ⟨d.w, d.c, [x, x ^ 2], te (d.c.headD 0) * x + te2 (d.c.headD 0) * x ^ 2 + lin supp coefsY d.w + d.eps,
    [te (d.c.headD 0), te2 (d.c.headD 0)]⟩

/-- `train_test_split(data)` (exp_data.py:54): a quarter of the shuffled rows, rounded up, for validation; an empty training set is a
`ValueError` -/
def split {A : Type} (ord : List A → List A) (rows : List A) : Except Err (List A × List A) :=
  if rows.length ≤ 1 then .error .value
  else .ok ((ord rows).drop ((rows.length + 3) / 4), (ord rows).take ((rows.length + 3) / 4))

/-- what the generators with covariates do (exp_data.py:129-172, 175-206, 209-234): `np.random.choice` of five of the confounders without
replacement fails if there are fewer, `exp_te` indexes the first covariate. The third output is the list of the effects in the order of
generation (`multi_continuous_treatment` returns a test set instead, not modelled). -/
def generate (row : Draw K → Row K) (ord : List (Row K) → List (Row K)) (confounderN covariateN : Nat) (draws : List (Draw K)) :
    Except Err ((List (Row K) × List (Row K)) × List (List K)) :=
  if confounderN < 5 then .error .value
  else if covariateN = 0 ∧ draws ≠ [] then .error .index
  else match split ord (draws.map row) with
    | .error e => .error e
    | .ok p => .ok (p, (draws.map row).map (·.te))

/-- `x.argmax(axis=1)`: the first largest score (exp_data.py:286) -/
def argmax : List K → Nat
  | [] => 0
  | [_] => 0
  | a :: b :: l => if (b :: l).getD (argmax (b :: l)) 0 ≤ a then 0 else argmax (b :: l) + 1

/-- `w.dot(w_coef.T)` plus noise of one row (exp_data.py:282-283) -/
def scores (wCoef : List (List K)) (noise : List K) (w : List K) : List K :=
  List.zipWith (fun r e => (List.zipWith (· * ·) w r).sum + e) wCoef noise

/-- the outcome of a row of `meaningless_discrete_dataset_` under treatment `x` (exp_data.py:287-295) -/
def armOutcome_ (effect : List K) (coef : List K) (w : List K) (eps : K) (x : Nat) : K :=
  (List.zipWith (· * ·) ((List.range effect.length).map (fun j => if j = x then 1 else 0) ++ w) (effect ++ coef)).sum + eps

/-- treatment and outcome of a row of `meaningless_discrete_dataset_` (exp_data.py:282-295) -/
def row_ (effect : List K) (wCoef : List (List K)) (coef : List K) (w : List K) (noise : List K) (eps : K) : Nat × K :=
  (argmax (scores wCoef noise w), armOutcome_ effect coef w eps (argmax (scores wCoef noise w)))

/-- the treatment of a row of `meaningless_discrete_dataset`: group plus confounders, rounded and clipped (exp_data.py:328-345) -/
def clip (arms : Nat) (rnd : K → Int) (group : Nat) (w : List K) : Nat :=
  if ((arms : Int) - 1) < rnd ((group : K) + w.sum) then arms - 1
  else if rnd ((group : K) + w.sum) < 0 then 0 else (rnd ((group : K) + w.sum)).toNat

/-- the outcome of a row of `meaningless_discrete_dataset` under treatment `x` (exp_data.py:348-353) -/
def armOutcome (effect : List K) (coef : List K) (w : List K) (base : K) (x : Nat) : Except Err K :=
  if x < effect.length then .ok (base + effect.getD x 0 * (x : K) + (List.zipWith (· * ·) coef w).sum) else .error .index

/-- a row of `coupon_dataset` without income: the coupon, the amount and the time spent (exp_data.py:79-85) -/
def coupon (binary : Bool) (gender : Bool) (e1 e2 : K) : K × K × K :=
  let g : K := if gender then 1 else 0
  let c0 : K := g * 20 + 150 + e1
  let c : K := if binary then (if 150 < c0 then 1 else 0) else c0
  let amount : K := c * 30 + g * 100 + 150 + e2
  (c, amount, c * 100 + amount / 10)

/-- a row of `coupon_dataset` with income (exp_data.py:61-69) -/
def couponIncome (binary : Bool) (gender : Bool) (income e1 e2 : K) : K × K × K :=
  let g : K := if gender then 1 else 0
  let c0 : K := g * 20 + 110 + income / 50 + e1
  let c : K := if binary then (if 120 < c0 then 1 else 0) else c0
  let amount : K := c * 150 + g * 100 + 150 + income / 5 + e2
  (c, amount, c * 10 + amount / 10)

end YL.ExpData
