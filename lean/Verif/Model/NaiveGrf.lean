import Verif.Model.MetaLearner
import Mathlib.Algebra.Order.Field.Basic

/-!
# Model of the pure Python forest `ylearn/estimator_model/_naive_forest` (`NaiveGrf`, `_GrfTree`)

`_grf_tree.py` 164-266 (growing a tree, the split, the traversal), `utils.py` 6-21 (gradients) and `_grf.py` 10-19, 61-78 (the
weights). Exact arithmetic over an ordered field instead of floats; one treatment column, one outcome; every row has the same number
`p` of covariates. The local regression computed from the weights is inherited from `BaseCausalForest` (Model/Forest.lean).
-/

namespace YL.Naive

open YL YL.Meta

variable {K : Type} [Field K] [LinearOrder K]

/-- a training row: treatment, outcome, covariates (_grf_tree.py:106-117) -/
structure NRow (K : Type) where
  x : K
  y : K
  v : List K

/-- covariate number `i` (_grf_tree.py:231) -/
def NRow.feat (r : NRow K) (i : Nat) : K := r.v.getD i 0

/-- `mean` (_grf_tree.py:186-187) -/
def meanOf (l : List K) : K := l.sum / (l.length : K)

/-- `lstsq(x, y)` with one column and without intercept: the least squares coefficient, 0 if all treatments are 0
(_grf_tree.py:183) -/
def lsCoef (rows : List (NRow K)) : K := (rows.map (fun r => r.x * r.y)).sum / (rows.map (fun r => r.x * r.x)).sum

/-- `rho_ = grad_coef(x_dif, y_dif, ls_coef)` (_grf_tree.py:186-188, utils.py:10-11) -/
def grads (rows : List (NRow K)) : List K :=
  rows.map (fun r => (r.x - meanOf (rows.map (·.x))) *
    ((r.y - meanOf (rows.map (·.y))) - (r.x - meanOf (rows.map (·.x))) * lsCoef rows))

/-- `grad` plus `eps` (utils.py:6-7, 14-21) -/
def gradVar (eps : K) (rows : List (NRow K)) : K :=
  (rows.map (fun r => (r.x - meanOf (rows.map (·.x))) * (r.x - meanOf (rows.map (·.x))))).sum / (rows.length : K) + eps

/-- `_label_node` (_grf_tree.py:211-214) -/
def labelsOf (eps : K) (rows : List (NRow K)) : List K := (grads rows).map (fun g => (gradVar eps rows)⁻¹ * g)

/-- `np.abs(rho_ - rho_[0]).max() <= tol` (_grf_tree.py:189) -/
def pure? (tol : K) (rows : List (NRow K)) : Prop := ∀ g ∈ grads rows, |g - (grads rows).headD 0| ≤ tol

instance (tol : K) (rows : List (NRow K)) : Decidable (pure? tol rows) := inferInstanceAs (Decidable (∀ _ ∈ _, _))

/-- the labels of the rows on the left (_grf_tree.py:251) -/
def leftLabels (rows : List (NRow K)) (labels : List K) (i : Nat) (t : K) : List K :=
  ((rows.zip labels).filter (fun p => p.1.feat i ≤ t)).map (·.2)

/-- `_proxy_impurity_improvement` (_grf_tree.py:249-256) -/
def improve (rows : List (NRow K)) (labels : List K) (i : Nat) (t : K) : K :=
  (leftLabels rows labels i t).sum ^ 2 / ((leftLabels rows labels i t).length : K) +
    (labels.sum - (leftLabels rows labels i t).sum) ^ 2 / ((labels.length - (leftLabels rows labels i t).length : Nat) : K)

/-- the distinct values of a covariate in increasing order (_grf_tree.py:232) -/
def levels (rows : List (NRow K)) (i : Nat) : List K := uniq (rows.map (fun r => r.feat i))

/-- the midpoints (_grf_tree.py:235) -/
def mids (l : List K) : List K := List.zipWith (fun a b => (a + b) / 2) l l.tail

/-- `improve.max(), improve.argmax()`: the first largest (_grf_tree.py:238-241) -/
def firstMax (f : K → K) : List K → Option (K × K)
  | [] => none
  | t :: l => match firstMax f l with
    | none => some (f t, t)
    | some (b, u) => if b ≤ f t then some (f t, t) else some (b, u)

/-- the best threshold of a covariate. A constant covariate has the single threshold `levels`, which puts no row to the right: the
improvement is 0/0, not a number, and never larger than the best one (_grf_tree.py:231-245). -/
def bestOf (rows : List (NRow K)) (labels : List K) (i : Nat) : Option (K × K) :=
  if (levels rows i).length ≤ 1 then none else firstMax (improve rows labels i) (mids (levels rows i))

/-- one covariate of the loop (_grf_tree.py:242-245) -/
def splitStep (rows : List (NRow K)) (labels : List K) (best : Option (K × Nat × K)) (i : Nat) : Option (K × Nat × K) :=
  match bestOf rows labels i, best with
  | none, b => b
  | some m, none => some (m.1, i, m.2)
  | some m, some b => if b.1 < m.1 then some (m.1, i, m.2) else some b

/-- `_split` (_grf_tree.py:216-247): `none` stands for `(None, None)` -/
def splitOf (p : Nat) (rows : List (NRow K)) (labels : List K) : Option (Nat × K) :=
  ((List.range p).foldl (splitStep rows labels) none).map (·.2)

/-- a tree (`Node`, _grf_tree.py:15-29) -/
inductive NTree (K : Type) where
  | leaf (value : K) (num : Nat)
  | node (feature : Nat) (threshold : K) (left right : NTree K)
  deriving DecidableEq

/-- the settings of a tree (_grf_tree.py:34-60); `hasW` says whether an adjustment matrix was passed -/
structure Cfg (K : Type) where
  maxDepth : Option Nat
  tol : K
  eps : K
  p : Nat
  hasW : Bool

/-- `cur_depth >= self.max_depth` (_grf_tree.py:172) -/
def atLimit (c : Cfg K) (depth : Nat) : Bool := match c.maxDepth with
  | none => false
  | some d => decide (d ≤ depth)

/-- `_build_tree` (_grf_tree.py:164-209). Without split the comparison `v[:, None] <= None` raises `TypeError`, and so does `w[l]`
without an adjustment matrix. Fuel is only a termination device (`build_fuel`); no rows cannot occur. -/
def build (c : Cfg K) : Nat → Nat → List (NRow K) → Except Err (NTree K)
  | 0, _, _ => .error .recursion
  | f + 1, depth, rows => match rows with
    | [] => .error .value
    | [r] => .ok (.leaf r.y 1)
    | r :: s :: l =>
      if atLimit c depth then .ok (.leaf (meanOf ((r :: s :: l).map (·.y))) (r :: s :: l).length)
      else if pure? c.tol (r :: s :: l) then .ok (.leaf r.y (r :: s :: l).length)
      else match splitOf c.p (r :: s :: l) (labelsOf c.eps (r :: s :: l)) with
        | none => .error .type
        | some q =>
          if c.hasW then
            match build c f (depth + 1) ((r :: s :: l).filter (fun a => a.feat q.1 ≤ q.2)) with
            | .error e => .error e
            | .ok tl => match build c f (depth + 1) ((r :: s :: l).filter (fun a => q.2 < a.feat q.1)) with
              | .error e => .error e
              | .ok tr => .ok (.node q.1 q.2 tl tr)
          else .error .type

/-- `_fit_with_array` (_grf_tree.py:106-127) -/
def fitTree (c : Cfg K) (rows : List (NRow K)) : Except Err (NTree K) := build c (rows.length + 1) 0 rows

/-- `_traverse` (_grf_tree.py:258-266): the value and the sample number of the leaf reached -/
def traverse : NTree K → List K → K × Nat
  | .leaf v n, _ => (v, n)
  | .node i t l r, q => if q.getD i 0 ≤ t then traverse l q else traverse r q

/-- `_prediction` of one query and one training row (_grf.py:10-19): the leaf values are compared -/
def weightOf (t : NTree K) (q : List K) (r : NRow K) : K :=
  if (traverse t r.v).1 = (traverse t q).1 then 1 / ((traverse t r.v).2 : K) else 0

/-- the weights one tree gives to the rows it was grown on (_grf.py:10-19) -/
def weightsOf (t : NTree K) (q : List K) (rows : List (NRow K)) : List K := rows.map (weightOf t q)

end YL.Naive
