import Verif.Model.CausalGraph

/-!
# Model of `CausalModel.estimate_hidden_cofounder` (`causal_model/model.py` 991-1061) and `check_ancestors_chain`
(`causal_model/utils.py` 105-117)

A data frame is its column names, its number of rows and its columns. The residual of a linear regression (sklearn) is an arbitrary
function of the feature columns and the target column. `hasU` is the test `"U" in node`, `key` is
`"estimate_" + node.lower()`. The sets returned by `nx.ancestors` are iterated in an arbitrary order `ord`. The graph edited at
1021-1024 is a deep copy that nobody sees (`cg`, 993), so it is not modelled. Printing is modelled by the number printed.
-/

namespace YL.Hidden

open YL

variable {α K : Type} [DecidableEq α]

/-- the exceptions of this function; `unbound` is `UnboundLocalError` (model.py:991-1061) -/
inductive HErr where
  | unbound | value | key | type | networkx
  deriving DecidableEq

/-- a data frame by columns (`self.data`, model.py:1007-1008) -/
structure Data (α K : Type) where
  names : List α
  size : Nat
  col : α → List K

/-- `self.data[k] = c` (model.py:1017) -/
def Data.set (d : Data α K) (k : α) (c : List K) : Data α K :=
  ⟨if k ∈ d.names then d.names else d.names ++ [k], d.size, fun n => if n = k then c else d.col n⟩

/-- `check_ancestors_chain(dag, node, U)` (causal_model/utils.py:105-117); the recursion is cut off by fuel, see the theorem
`chain_eq` for the proof that the fuel used by the caller is enough for acyclic graphs -/
def chain (d : MDG α) (u : α) : Nat → α → Bool
  | 0, _ => false
  | f + 1, v => match d.ancestors v with
    | .error _ => false
    | .ok an => if an = [] then true else if u ∈ an then false else an.all (chain d u f)

/-- the names taken for hidden confounders (model.py:995) -/
def hiddenNodes (hasU : α → Bool) (d : MDG α) : List α := d.nodes.filter hasU

/-- `_compute_estimated` (model.py:998-1025): the exception or the normal end, and the data afterwards. The last line
`estimated = estimated + 1` assigns to a local variable without value. `lr` says whether `method == "lr"`. -/
def compute (key : α → α) (resid : List (List K) → List K → List K) (lr : Bool) (obs : List α) (v u : α) (data : Option (Data α K)) :
    Except HErr Unit × Option (Data α K) :=
  match data with
  | none => (.error .type, none)
  | some d =>
    if ∀ n ∈ obs ++ [v], n ∈ d.names then
      if lr then
        if obs = [] ∨ d.size = 0 then (.error .value, some d)
        else (.error .unbound, some (d.set (key u) (resid (obs.map d.col) (d.col v))))
      else (.error .unbound, some d)
    else (.error .key, some d)

/-- the observed ancestors in the list `an` (model.py:1036-1038) -/
def observedOf (H : List α) (an : List α) : List α := an.filter (fun a => a ∉ H)

/-- one node of the loop (model.py:1031-1048): `none` if nothing is estimated at this node, otherwise the arguments of
`_compute_estimated` -/
def candidate (ord : List α → List α) (H : List α) (d : MDG α) (v : α) : Except HErr (Option (List α × α)) :=
  if v ∈ H then .ok none
  else match d.ancestors v with
    | .error _ => .error .networkx
    | .ok an => match (ord an).filter (fun a => a ∈ H) with
      | [u] => if (observedOf H (ord an)).all (chain d u (d.nodes.length + 1)) then .ok (some (observedOf H (ord an), u)) else .ok none
      | _ => .ok none

/-- the loop over the nodes (model.py:1031-1048) -/
def loop (ord : List α → List α) (key : α → α) (resid : List (List K) → List K → List K) (lr : Bool) (H : List α) (d : MDG α) :
    List α → Option (Data α K) → Except HErr Unit × Option (Data α K)
  | [], data => (.ok (), data)
  | v :: l, data => match candidate ord H d v with
    | .error e => (.error e, data)
    | .ok none => loop ord key resid lr H d l data
    | .ok (some p) => match compute key resid lr p.1 v p.2 data with
      | (.error e, data') => (.error e, data')
      | (.ok (), data') => loop ord key resid lr H d l data'

/-- `estimate_hidden_cofounder(method)` (model.py:991-1061): the printed number of remaining hidden confounders or an exception, and
the data afterwards. The counter of the enclosing function stays 0, so the recursive call at 1054 is never reached. -/
def run [LatentNames α] (ord : List α → List α) (hasU : α → Bool) (key : α → α) (resid : List (List K) → List K → List K) (lr : Bool)
    (g : CG α) (data : Option (Data α K)) : Except HErr Nat × Option (Data α K) :=
  if (hiddenNodes hasU g.explicitDag).length = 0 then (.ok 0, data)
  else match loop ord key resid lr (hiddenNodes hasU g.explicitDag) g.explicitDag g.explicitDag.nodes data with
    | (.error e, data') => (.error e, data')
    | (.ok (), data') => (.ok (hiddenNodes hasU g.explicitDag).length, data')

end YL.Hidden
