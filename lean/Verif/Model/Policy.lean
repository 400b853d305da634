import Verif.Model.BestFirst
import Mathlib.Algebra.Order.Floor.Defs
import Mathlib.Data.Nat.Sqrt
import Mathlib.Data.List.FinRange

/-!
# Model of `PolicyTree` and `PolicyInterpreter`

`ylearn/policy/policy_model.py`, `ylearn/policy/_tree/tree_criterion.pyx`, the class `RegressionCriterion` of
`ylearn/sklearn_ex/cloned/tree/_criterion.pyx` and `ylearn/effect_interpreter/policy_interpreter.py`.

Simplifications, besides those of `Verif.Model.Tree` and `Verif.Model.BestFirst`:
* the covariates and the effects are already arrays (`convert2array`, `effect_nji` and the transformer are not modelled);
* only the splitter `"best"`; the criterion `"policy_test"` (`MSE`) is an arbitrary criterion;
* the parameters have the right types (`check_scalar` only checks ranges);
* a vector of sample weights of the wrong length, which the code reads out of bounds, is an error.
-/

namespace YL.Tree
open YL.Crit

variable {K : Type} [Field K] [LinearOrder K] {d : Nat}

/-- A sample of `PolicyTree`: covariates, weight and the effect of each of the `d` treatments
(policy_model.py:275-316). -/
structure PSample (K : Type) (d : Nat) where
  v : Nat → K
  w : K
  y : Fin d → K

/-- `if s[k] > max_sum: max_sum = s[k]` (policy/_tree/tree_criterion.pyx:106-107); `none` is `-INFINITY` -/
def keepMax (v : K) : Option K → Option K
  | none => some v
  | some b => if b < v then some v else some b

/-- `max_sum = -INFINITY; for k in range(n_outputs): if s[k] > max_sum: max_sum = s[k]`
(policy/_tree/tree_criterion.pyx:103-107) -/
def maxSeen (f : Fin d → K) : Option K := (List.finRange d).foldl (fun m k => keepMax (f k) m) none

/-- the maximum as a number; without outputs, which does not happen, 0 (policy/_tree/tree_criterion.pyx:103-107) -/
def maxOf (f : Fin d → K) : K := (maxSeen f).getD 0

/-- `alpha - max_sum / weighted_n` (policy/_tree/tree_criterion.pyx:91-109); `alpha` is `1e10`
(policy/_tree/tree_criterion.pyx:24) -/
def bestMean (alpha : K) (m : K × (Fin d → K)) : K := alpha - maxOf m.2 / m.1

/-- `Criterion.impurity_improvement` (sklearn_ex/cloned/tree/_criterion.pyx:164-198); `N` is `weighted_n_samples` -/
def weightedImprovement (N parent left right : K) (c : Crit (K × (Fin d → K))) : K :=
  c.total.1 / N * (parent - c.right.1 / c.total.1 * right - c.left.1 / c.total.1 * left)

/-- `PRegCriteria` as splitter and builder see it (policy/_tree/tree_criterion.pyx:90-159 on top of
sklearn_ex/cloned/tree/_criterion.pyx:643-775): the sums are `weighted_n` and `sum_total`, the left sums are changed in
place -/
def policyReg (alpha N : K) : Criterion (PSample K d) (K × (Fin d → K)) K (Fin d → K) where
  contrib a := (a.w, fun k => a.w * a.y k)
  update := updateGrf
  value m := fun k => m.2 k / m.1
  nodeImpurity := bestMean alpha
  weight l := (l.map (fun a => a.w)).sum
  weightLeft c := c.left.1
  weightRight c := c.right.1
  proxy c := maxOf c.left.2 + maxOf c.right.2
  children _ c := (bestMean alpha c.left, bestMean alpha c.right)
  improvement := weightedImprovement N

/-- `PRegCriteria1` (policy/_tree/tree_criterion.pyx:26-88): only the proxy differs -/
def policyReg1 (alpha N : K) : Criterion (PSample K d) (K × (Fin d → K)) K (Fin d → K) :=
  { policyReg alpha N with proxy := fun c => maxOf c.left.2 / c.left.1 + maxOf c.right.2 / c.right.1 }

/-- An `int or float` parameter (policy_model.py:327-371). -/
inductive Num (K : Type) where
  | int (n : Int)
  | real (r : K)

/-- The `max_features` parameter (policy_model.py:395-427). -/
inductive MaxFeatures (K : Type) where
  | all
  | name (s : String)
  | num (n : Num K)

/-- the parameters of the constructor (policy_model.py:126-140), without `splitter`, `random_state`, `ccp_alpha` -/
structure PSettings (K : Type) where
  criterion : String
  maxDepth : Option Int
  minSamplesLeaf : Num K
  minSamplesSplit : Num K
  maxLeafNodes : Option Int
  minWeightFraction : K
  maxFeatures : MaxFeatures K
  minDecrease : K

variable [FloorRing K]

/-- the checks of `max_depth` (policy_model.py:319-326); `big` is `np.iinfo(np.int32).max` -/
def checkDepth (big : Nat) : Option Int → Except String Nat
  | none => .ok big
  | some n => if n < 1 then .error "ValueError" else .ok n.toNat

/-- the checks of `min_samples_leaf` (policy_model.py:328-346) -/
def checkLeaf (n : Nat) : Num K → Except String Nat
  | .int m => if m < 1 then .error "ValueError" else .ok m.toNat
  | .real r => if r ≤ 0 then .error "ValueError" else .ok ⌈r * (n : K)⌉.toNat

/-- the checks of `min_samples_split` (policy_model.py:348-371) -/
def checkSplit (n leaf : Nat) : Num K → Except String Nat
  | .int m => if m < 2 then .error "ValueError" else .ok (max m.toNat (2 * leaf))
  | .real r => if r ≤ 0 ∨ 1 < r then .error "ValueError" else .ok (max (max 2 ⌈r * (n : K)⌉.toNat) (2 * leaf))

/-- the checks of `max_leaf_nodes` (policy_model.py:373-382); `none` is `-1` -/
def checkLeafNodes : Option Int → Except String (Option Nat)
  | none => .ok none
  | some n => if n < 2 then .error "ValueError" else .ok (some n.toNat)

/-- the checks of `max_features` (policy_model.py:394-430): how many features are drawn at a node -/
def checkFeatures (nFeat : Nat) : MaxFeatures K → Except String Nat
  | .all => .ok nFeat
  | .name s => if s = "sqrt" then .ok (max 1 nFeat.sqrt) else if s = "log2" then .ok (max 1 nFeat.log2)
      else .error "ValueError"
  | .num (.int m) => if m < 1 then .error "ValueError" else .ok m.toNat
  | .num (.real r) => if r ≤ 0 ∨ 1 < r then .error "ValueError"
      else if 0 < r then .ok (max 1 ⌊r * (nFeat : K)⌋.toNat) else .ok 0

/-- what is no setting of a `PolicyTree`: constants, the sorting routine, the midpoint, the heap, the features drawn at
a node given how many are wanted, and the criterion `"policy_test"` (policy_model.py:449-499) -/
structure PEnv (K : Type) (d : Nat) where
  big : Nat
  alpha : K
  eps : K
  thr : K
  sort : (PSample K d → K) → List (PSample K d) → List (PSample K d)
  mid : K → K → K
  pick : List (Front (PSample K d) K) → Nat
  draw : Nat → Nat → List Nat
  mse : Criterion (PSample K d) (K × (Fin d → K)) K (Fin d → K)

/-- `CRITERIA[self.criterion]` (policy_model.py:39-43, 449-457) -/
def criterionOf (E : PEnv K d) (N : K) (name : String) :
    Except String (Criterion (PSample K d) (K × (Fin d → K)) K (Fin d → K)) :=
  if name = "policy_reg" then .ok (policyReg E.alpha N)
  else if name = "policy_test" then .ok E.mse
  else if name = "policy_test1" then .ok (policyReg1 E.alpha N)
  else .error "KeyError"

/-- a fitted `PolicyTree`: the criterion's name, the nodes, the depth and the training covariates `_v`
(policy_model.py:302, 471-501) -/
structure PFitted (K : Type) (d : Nat) where
  criterion : String
  nodes : List (Node K (Fin d → K))
  depth : Nat
  v : List (Nat → K)

/-- the training samples (policy_model.py:275-316, sklearn_ex/cloned/tree/_criterion.pyx:676-683) -/
def pRows (v : List (Nat → K)) (ce : List (Fin d → K)) (weights : List K) : List (PSample K d) :=
  ((v.zip ce).zip weights).map (fun p => ⟨p.1.1, p.2, p.1.2⟩)

/-- `builder.build(self.tree_, v, ce, sample_weight)` (policy_model.py:477-503, _tree.pyx:154-210, 354-458): the
best-first builder drops the sample weights (_tree.pyx:362), also from `weighted_n_samples` -/
def growPolicy (E : PEnv K d) (P : Params (PSample K d) K)
    (crit : K → Except String (Criterion (PSample K d) (K × (Fin d → K)) K (Fin d → K))) (nDraw : Nat)
    (maxLeaf : Option Nat) (rows : List (PSample K d)) : Except String (List (Node K (Fin d → K)) × Nat) :=
  match maxLeaf with
  | none =>
    match crit (rows.map (fun a => a.w)).sum with
    | .error e => .error e
    | .ok C => .ok (build P C (fun a => a.v) (fun a => a.w) (E.draw nDraw) rows)
  | some m =>
    match crit (rows.length : K) with
    | .error e => .error e
    | .ok C =>
      .ok (buildBest P (fun _ => C) (fun a => a.v) (E.draw nDraw) E.pick m (rows.map (fun a => { a with w := 1 })))

/-- `PolicyTree.fit` (policy_model.py:240-506) for `nFeat` covariates -/
def policyFit (E : PEnv K d) (g : PSettings K) (nFeat : Nat) (v : List (Nat → K)) (ce : List (Fin d → K))
    (weights : Option (List K)) : Except String (PFitted K d) :=
  match checkDepth E.big g.maxDepth with
  | .error e => .error e
  | .ok depth =>
    match checkLeaf v.length g.minSamplesLeaf with
    | .error e => .error e
    | .ok leaf =>
      match checkSplit v.length leaf g.minSamplesSplit with
      | .error e => .error e
      | .ok split =>
        match checkLeafNodes g.maxLeafNodes with
        | .error e => .error e
        | .ok maxLeaf =>
          if g.minWeightFraction < 0 ∨ 1 / 2 < g.minWeightFraction then .error "ValueError"
          else
            match checkFeatures nFeat g.maxFeatures with
            | .error e => .error e
            | .ok nDraw =>
              if g.minDecrease < 0 then .error "ValueError"
              else if ce.length ≠ v.length then .error "ValueError"
              else
                let ws := weights.getD (List.replicate v.length 1)
                if ws.length ≠ v.length then .error "out of bounds"
                else
                  let P : Params (PSample K d) K :=
                    ⟨split, leaf, g.minWeightFraction * ws.sum, depth, g.minDecrease, E.eps, E.thr, E.sort, E.mid⟩
                  match growPolicy E P (fun N => criterionOf E N g.criterion) nDraw maxLeaf (pRows v ce ws) with
                  | .error e => .error e
                  | .ok t => .ok ⟨g.criterion, t.1, t.2, v⟩

/-- What `_prepare4est` returns: for one output a vector, else a matrix with a row per sample (policy_model.py:545-560). -/
inductive Pred (K : Type) where
  | vector (l : List K)
  | matrix (l : List (List K))
  deriving DecidableEq

omit [FloorRing K] in
/-- the value of the leaf of `q` (_tree.pyx:820-826) -/
def leafValue (t : PFitted K d) (q : Nat → K) : List K :=
  match predict t.nodes q with
  | some f => (List.finRange d).map f
  | none => []

omit [FloorRing K] in
/-- `_prepare4est` for the rows `qs`; `none`: the training covariates (policy_model.py:545-560, 585-606) -/
def prepare (t : PFitted K d) (qs : Option (List (Nat → K))) : Except String (Pred K) :=
  let rows := (qs.getD t.v).map (leafValue t)
  if t.criterion = "policy_reg" then
    if d = 1 then .ok (.vector (rows.map (fun r => r.headD 0))) else .ok (.matrix rows)
  else .error "ValueError"

omit [FloorRing K] in
/-- `argmax` of a row: the first of the largest entries (policy_model.py:522) -/
def argmaxFrom : Nat → Nat → K → List K → Nat
  | _, best, _, [] => best
  | i, best, b, a :: l => if b < a then argmaxFrom (i + 1) i a l else argmaxFrom (i + 1) best b l

omit [FloorRing K] in
/-- `argmax` of a row: the first of the largest entries; an empty row is an error (policy_model.py:522) -/
def argmax : List K → Except String Nat
  | [] => .error "ValueError"
  | a :: l => .ok (argmaxFrom 1 0 a l)

omit [FloorRing K] in
/-- `argmax` for the rows of a matrix (policy_model.py:522) -/
def argmaxRows : List (List K) → Except String (List Nat)
  | [] => .ok []
  | r :: rs =>
    match argmax r, argmaxRows rs with
    | .ok k, .ok ks => .ok (k :: ks)
    | .error e, _ => .error e
    | _, .error e => .error e

omit [FloorRing K] in
/-- `predict_ind` (policy_model.py:508-524): `argmax(1)` needs a matrix -/
def predictInd (t : PFitted K d) (qs : Option (List (Nat → K))) : Except String (List Nat) :=
  match prepare t qs with
  | .error e => .error e
  | .ok (.vector _) => .error "AxisError"
  | .ok (.matrix rows) => argmaxRows rows

omit [FloorRing K] in
/-- `predict_opt_effect` (policy_model.py:526-543) -/
def predictOptEffect (t : PFitted K d) (qs : Option (List (Nat → K))) : Except String (Pred K) := prepare t qs

/-! ### `decision_path` and `PolicyInterpreter` -/

omit [FloorRing K] in
/-- `decision_path` for one sample (_tree.pyx:982-999) from a node on -/
def pathFrom {V : Type} (nodes : List (Node K V)) (q : Nat → K) : Nat → Nat → List Nat
  | 0, i => [i]
  | fuel + 1, i =>
    match nodes[i]? with
    | none => [i]
    | some n =>
      match n.left, n.right with
      | some l, some r => i :: (if q n.feature ≤ n.threshold then pathFrom nodes q fuel l else pathFrom nodes q fuel r)
      | _, _ => [i]

omit [FloorRing K] in
/-- `decision_path` for one sample (_tree.pyx:953-1007) -/
def decisionPath {V : Type} (nodes : List (Node K V)) (q : Nat → K) : List Nat := pathFrom nodes q nodes.length 0

/-- One line of an explanation: node, covariate, its value, whether the sign is `<=`, threshold
(policy_interpreter.py:277-288). -/
structure Line (K : Type) where
  node : Nat
  feature : Nat
  value : K
  le : Bool
  threshold : K
  deriving DecidableEq

/-- An entry of the result of `interpret` (policy_interpreter.py:269-290); the text is not modelled. -/
structure Explained (K : Type) where
  lines : List (Line K)
  treatment : Nat
  value : K
  deriving DecidableEq

omit [FloorRing K] in
/-- the lines for one sample (policy_interpreter.py:269-288, ce_interpreter.py:204-226) -/
def explain {V : Type} (nodes : List (Node K V)) (q : Nat → K) : List (Line K) :=
  (decisionPath nodes q).filterMap (fun i =>
    if apply nodes q = i then none
    else (nodes[i]?).map (fun n => ⟨i, n.feature, q n.feature, decide (q n.feature ≤ n.threshold), n.threshold⟩))

omit [FloorRing K] in
/-- `policy_pred.max(1)` of a row (policy_interpreter.py:260) -/
def maxRow : List K → K
  | [] => 0
  | a :: l => l.foldl (fun b x => if b < x then x else b) a

omit [FloorRing K] in
/-- `PolicyInterpreter.interpret` (policy_interpreter.py:254-292) -/
def interpret (t : PFitted K d) (qs : Option (List (Nat → K))) : Except String (List (Explained K)) :=
  match prepare t qs with
  | .error e => .error e
  | .ok (.vector _) => .error "AxisError"
  | .ok (.matrix rows) =>
    match argmaxRows rows with
    | .error e => .error e
    | .ok ks => .ok (((qs.getD t.v).zip (ks.zip rows)).map (fun p => ⟨explain t.nodes p.1, p.2.1, maxRow p.2.2⟩))

omit [FloorRing K] in
/-- `PolicyInterpreter.decide` (policy_interpreter.py:242-248): `take` raises for an index out of range -/
def decideNames {B : Type} (t : PFitted K d) (names : List B) (qs : List (Nat → K)) : Except String (List B) :=
  match predictInd t (some qs) with
  | .error e => .error e
  | .ok ks =>
    if ks.all (fun k => decide (k < names.length)) then .ok (ks.filterMap (fun k => names[k]?)) else .error "IndexError"

end YL.Tree
