import Mathlib.Algebra.Order.Field.Basic
import Mathlib.Data.List.Basic

/-!
# Model of the partial dependence of a compiled tree

`ylearn/sklearn_ex/cloned/tree/_tree.pyx:1179-1283` (`Tree.compute_partial_dependence`).

Simplifications: exact arithmetic; a node index stands for the subtree below it, so that the stack holds subtrees; one
grid point (the loop over `X` treats each one alone, with stacks that are started afresh); one output.
-/

namespace YL.PD

variable {K : Type} [Field K] [LinearOrder K]

/-- the nodes of a compiled tree as far as the method reads them: `weighted_n_node_samples`, `feature`, `threshold`,
the children and the value (_tree.pyx:1210-1216) -/
inductive PTree (K : Type) where
  | leaf (w v : K)
  | node (w : K) (feature : Nat) (threshold : K) (left right : PTree K)

/-- `weighted_n_node_samples` -/
def PTree.weight : PTree K → K
  | .leaf w _ => w
  | .node w _ _ _ _ => w

/-- `node_count`, the size of the two stacks (_tree.pyx:1211-1214) -/
def PTree.count : PTree K → Nat
  | .leaf _ _ => 1
  | .node _ _ _ l r => l.count + r.count + 1

/-- what can go wrong: the stacks are too short, the loop does not end, the check at the end -/
inductive PErr where
  | overflow
  | unfinished
  | total
  deriving DecidableEq

/-- the search for the feature among the targets: `feature_idx` when it breaks (_tree.pyx:1247-1251) -/
def targetPos (f : Nat) : List Nat → Nat → Option Nat
  | [], _ => none
  | g :: gs, i => if g = f then some i else targetPos f gs (i + 1)

/-- the `while stack_size > 0` loop with the sum written to `out` and the total weight (_tree.pyx:1233-1278) -/
def walk (cap : Nat) (targets : List Nat) (x : Nat → K) : Nat → List (PTree K × K) → K → K → Except PErr (K × K)
  | _, [], out, total => .ok (out, total)
  | 0, _ :: _, _, _ => .error .unfinished
  | fuel + 1, (.leaf _ v, w) :: st, out, total => walk cap targets x fuel st (out + w * v) (total + w)
  | fuel + 1, (.node nw f t l r, w) :: st, out, total =>
    match targetPos f targets 0 with
    | some i =>
      if cap < st.length + 1 then .error .overflow
      else if x i ≤ t then walk cap targets x fuel ((l, w) :: st) out total
      else walk cap targets x fuel ((r, w) :: st) out total
    | none =>
      if cap < st.length + 2 then .error .overflow
      else
        let frac := l.weight / nw
        walk cap targets x fuel ((r, w * (1 - frac)) :: (l, w * frac) :: st) out total

/-- one grid point: the root gets weight 1, the result is added to `out`, and the total weight is checked
(_tree.pyx:1225-1283) -/
def partialDependence (targets : List Nat) (x : Nat → K) (T : PTree K) (out : K) : Except PErr K :=
  match walk T.count targets x T.count [(T, 1)] out 0 with
  | .error e => .error e
  | .ok (out, total) => if 999 / 1000 < total ∧ total < 1001 / 1000 then .ok out else .error .total

end YL.PD
