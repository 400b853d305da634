import Mathlib.Algebra.Order.Field.Basic
import Mathlib.Algebra.Order.Ring.Rat
import Mathlib.Algebra.Field.Rat
import Mathlib.Data.Rat.Defs

/-!
# Cost complexity pruning of a grown tree

Model of `/repo/ylearn/sklearn_ex/cloned/tree/_tree.pyx:1419-1815`.

Simplified: the arrays indexed by node are the fields of an inductive tree, whose nodes keep their
index `id`; the walk along `parent` is the way back of a recursion; numbers are exact; `max_float64`
is larger than every alpha; nodes have two children or none; memory is never short.
-/
set_option linter.unusedSectionVars false

namespace YL.Ccp

/-- The grown tree: index, weighted number of samples and impurity of every node
(`orig_tree`, `_tree.pyx:1508-1514`). -/
inductive Grown
  | leaf (id : Nat) (w imp : ℚ)
  | node (id : Nat) (w imp : ℚ) (a b : Grown)

/-- The tree with `r_node` (`_tree.pyx:1546-1548`). -/
inductive RT
  | leaf (id : Nat) (r : ℚ)
  | node (id : Nat) (r : ℚ) (a b : RT)
  deriving DecidableEq

/-- `weighted_n_node_samples[0]` (`_tree.pyx:1512`). -/
def Grown.weight : Grown → ℚ
  | .leaf _ w _ => w
  | .node _ w _ _ _ => w

/-- The computation of `r_node` (`_tree.pyx:1546-1548`). -/
def weigh (total : ℚ) : Grown → RT
  | .leaf i w p => .leaf i (w * p / total)
  | .node i w p a b => .node i (w * p / total) (weigh total a) (weigh total b)

/-- The tree still there, with the records `r_branch` and `n_leaves` of the candidates
(`_tree.pyx:1526-1536`). -/
inductive BT
  | leaf (id : Nat) (r : ℚ)
  | node (id : Nat) (r rb : ℚ) (nl : Nat) (a b : BT)

/-- `r_node` of the leaves (`_tree.pyx:1561-1563`). -/
def leafRisks : RT → List ℚ
  | .leaf _ r => [r]
  | .node _ _ a b => leafRisks a ++ leafRisks b

/-- The leaves are found and bubble up (`_tree.pyx:1550-1580`): every leaf adds its impurity and
itself to all its ancestors. -/
def start : RT → BT
  | .leaf i r => .leaf i r
  | .node i r a b =>
    .node i r (leafRisks a ++ leafRisks b).sum (leafRisks a ++ leafRisks b).length (start a) (start b)

/-- `r_branch[0]` (`_tree.pyx:1586, 1639`). -/
def rBranch : BT → ℚ
  | .leaf _ r => r
  | .node _ _ rb _ _ _ => rb

/-- The better of two candidates: the smaller alpha, then the smaller index (`_tree.pyx:1594-1599`). -/
def best : Option (ℚ × Nat) → Option (ℚ × Nat) → Option (ℚ × Nat)
  | none, y => y
  | some x, none => some x
  | some x, some y => if y.1 < x.1 ∨ (y.1 = x.1 ∧ y.2 < x.2) then some y else some x

/-- The search for the weakest link (`_tree.pyx:1591-1599`). -/
def weakest : BT → Option (ℚ × Nat)
  | .leaf _ _ => none
  | .node i r rb nl a b =>
    best (best (some ((r - rb) / ((nl : ℚ) - 1), i)) (weakest a)) (weakest b)

/-- The pruning of one branch, and the update of its ancestors (`_tree.pyx:1604-1637`): the tree
left, `r_diff` and `n_pruned_leaves`. -/
def pruneAt (k : Nat) : BT → Option (BT × ℚ × Nat)
  | .leaf _ _ => none
  | .node i r rb nl a b =>
    if i = k then some (.leaf i r, r - rb, nl - 1)
    else
      match pruneAt k a with
      | some (a', d, n) => some (.node i r (rb + d) (nl - n) a' b, d, n)
      | none =>
        match pruneAt k b with
        | some (b', d, n) => some (.node i r (rb + d) (nl - n) a b', d, n)
        | none => none

/-- The main loop (`_tree.pyx:1588-1639`): the saved metrics and the tree left. -/
def loop (stop : ℚ → Bool) : Nat → BT → List (ℚ × ℚ) × BT
  | 0, t => ([], t)
  | fuel + 1, t =>
    match weakest t with
    | none => ([], t)
    | some (alpha, k) =>
      if stop alpha then ([], t)
      else
        match pruneAt k t with
        | none => ([], t)
        | some (t', _, _) =>
          ((alpha, rBranch t') :: (loop stop fuel t').1, (loop stop fuel t').2)

/-- The records are dropped (`in_subtree`, `leaves_in_subtree`: `_tree.pyx:1641`, 1773-1815). -/
def strip : BT → RT
  | .leaf i r => .leaf i r
  | .node i r _ _ a b => .node i r (strip a) (strip b)

/-- Number of nodes that are no leaves: enough rounds for the loop (`_tree.pyx:1582-1589`). -/
def inner : RT → Nat
  | .leaf _ _ => 0
  | .node _ _ a b => inner a + inner b + 1

/-- `_build_pruned_tree_ccp` with `_AlphaPruner` (`_tree.pyx:1437-1456, 1644-1677`). -/
def pruneTree (alpha : ℚ) (t : RT) : RT :=
  strip (loop (fun g => decide (alpha < g)) (inner t) (start t)).2

/-- `ccp_pruning_path` (`_tree.pyx:1458-1479, 1679-1720`): pairs of `ccp_alphas` and `impurities`. -/
def pruningPath (t : RT) : List (ℚ × ℚ) :=
  (0, rBranch (start t)) :: (loop (fun _ => false) (inner t) (start t)).1

end YL.Ccp
