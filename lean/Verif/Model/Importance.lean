import Verif.Model.Forest
/-!
# Model of the feature importances of trees and forests

`ylearn/sklearn_ex/cloned/tree/_tree.pyx:1102-1138` (`compute_feature_importances`), used by `PolicyTree`
(policy_model.py:656-674), `CausalTree` (causal_tree.py:598-616), `GrfTree` (_grf_tree.py:436-453), and
`_generalized_forest/_base_forest.py:363-378` (`BaseCausalForest.feature_importances_`).

`weighted_n_node_samples` is not a field of the model's nodes: it is given as a function of the node's number.
-/

namespace YL.Tree

variable {K V : Type} [Field K] [LinearOrder K]

/-- `nodes[i].weighted_n_node_samples * nodes[i].impurity` (_tree.pyx:1120-1125) -/
def weightedImpurity (wt : Nat → K) (nodes : List (Node K V)) (i : Nat) : K :=
  match nodes[i]? with
  | some n => wt i * n.impurity
  | none => 0

/-- one round of the loop over the nodes (_tree.pyx:1116-1126) -/
def gainStep (wt : Nat → K) (nodes : List (Node K V)) (imp : List K) (e : Node K V × Nat) : List K :=
  match e.1.left, e.1.right with
  | some l, some r =>
    imp.modify e.1.feature
      (fun v => v + (wt e.2 * e.1.impurity - weightedImpurity wt nodes l - weightedImpurity wt nodes r))
  | _, _ => imp

/-- the importances before normalisation (_tree.pyx:1111-1128) -/
def rawImportances (wt : Nat → K) (nodes : List (Node K V)) (nFeat : Nat) : List K :=
  (nodes.zipIdx.foldl (gainStep wt nodes) (List.replicate nFeat 0)).map (fun v => v / wt 0)

/-- `compute_feature_importances(normalize)` (_tree.pyx:1102-1138) -/
def importances (wt : Nat → K) (nodes : List (Node K V)) (nFeat : Nat) (normalize : Bool) : List K :=
  let raw := rawImportances wt nodes nFeat
  if normalize then
    if 0 < raw.sum then raw.map (fun v => v / raw.sum) else raw
  else raw

/-- what the forest uses of one of its trees: the number of nodes, and its attribute `feature_importances_` if the class
has one - `GrfTree` has (_grf_tree.py:436), `CausalTree` has not (causal_tree.py:598 calls it `feature_importance`) -/
structure Member (K : Type) where
  nodeCount : Nat
  imps : Option (List K)

/-- `getattr(tree, "feature_importances_")` for the trees that were split (_base_forest.py:368-372) -/
def collectImportances : List (Member K) → Except String (List (List K))
  | [] => .ok []
  | t :: ts =>
    if t.nodeCount > 1 then
      match t.imps with
      | none => .error "AttributeError: feature_importances_"
      | some l => match collectImportances ts with
        | .error e => .error e
        | .ok ls => .ok (l :: ls)
    else collectImportances ts

/-- `np.mean(..., axis=0)` of lists of `nFeat` numbers (_base_forest.py:377) -/
def meanLists (nFeat : Nat) (ls : List (List K)) : List K :=
  (List.range nFeat).map (fun f => (ls.map (fun l => l.getD f 0)).sum / (ls.length : K))

/-- `BaseCausalForest.feature_importances_()` (_base_forest.py:367-378): `n_features_in_` is set by no method of the
forests, so without a tree that was split the attribute is missing. A sum of 0 gives NaN or infinities, `none` here. -/
def forestImportances (nFeat : Nat) (trees : List (Member K)) : Except String (Option (List K)) :=
  match collectImportances trees with
  | .error e => .error e
  | .ok [] => .error "AttributeError: n_features_in_"
  | .ok (l :: ls) =>
    let m := meanLists nFeat (l :: ls)
    if m.sum = 0 then .ok none else .ok (some (m.map (fun v => v / m.sum)))

end YL.Tree
