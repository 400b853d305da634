import Verif.Model.Backdoor

/-!
# Model of the instrumental-variable part of `ylearn/causal_model/model.py`
-/

namespace YL

variable {α : Type} [DecidableEq α] [LatentNames α]

/-- `remove_ingo_edges(graph, True, node)` (causal_model/utils.py:59-88) for one node name: AssertionError for a node the
graph does not have; one edge per predecessor is deleted, which is every edge into the node because the explicit
dag has no parallel edges (`CG.simple_explicit`). -/
def removeIngo (d : MDG α) (t : α) : Except Err (MDG α) :=
  match checkNodes d.nodes [t] with
  | .error e => .error e
  | .ok _ => .ok { d with edges := d.edges.filter (fun e => e.2.1 ≠ t) }

/-- `get_iv(treatment, outcome)` for two names (model.py:911-954); `None` is an answer without instruments. -/
def getIV (g : CG α) (t y : α) : Except Err (Option (List α)) :=
  match checkNodes g.causation.keys [t, y] with
  | .error e => .error e
  | .ok _ => match removeIngo g.explicitDag t with
    | .error e => .error e
    | .ok d => match d.ancestors y with
      | .error e => .error e
      | .ok an =>
        let iv := ((g.parents t).filter (· ∉ an)).filter (· ∉ descendentsOfIter d an)
        .ok (if iv = [] then none else some iv)

/-- `is_valid_iv(treatment, outcome, set_)` (model.py:956-988); a plain `Exception` is raised when there is no
instrument. -/
def isValidIV (g : CG α) (t y : α) (set_ : List α) : Except Err Bool :=
  match getIV g t y with
  | .error e => .error e
  | .ok none => .error .exception
  | .ok (some iv) => .ok (set_.all (· ∈ iv))

end YL
