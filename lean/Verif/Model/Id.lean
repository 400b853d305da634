import Verif.Model.Prob
import Verif.Model.CausalGraph

/-!
# Model of `CausalModel.id` (`ylearn/causal_model/model.py`)
-/

namespace YL

variable {α : Type} [DecidableEq α]

/-- `[f(b) for b in l]` where `f` may raise (model.py:195-206) -/
def mapOk {β γ : Type} (f : β → Except Err γ) : List β → Except Err (List γ)
  | [] => .ok []
  | b :: l => match f b with
    | .error e => .error e
    | .ok c => match mapOk f l with
      | .error e => .error e
      | .ok cs => .ok (c :: cs)

/-- equality of two Python sets (model.py:211, 232) -/
def setEq (a b : List α) : Bool := a.all (· ∈ b) && b.all (· ∈ a)

/-- The factors `P(element | v_topo[: v_topo.index(element)])` for the elements of `s` (model.py:217-224,
233-240); `ValueError` if an element is not in `v_topo`. The set `s` is iterated over in the order of `v_topo`:
the factors go into a set, so the order does not matter. -/
def chainFactors (vtopo s : List α) : Except Err (List (Prob α)) :=
  if s.all (· ∈ vtopo) then .ok ((vtopo.filter (· ∈ s)).map (fun e => .mk [e] (vtopo.take (vtopo.idxOf e)) [] []))
  else .error .value

/-- The new value of `prob` when the graph with variables `v` is reduced to `keep` (model.py:172-177 with
`keep = y`, 185-188 with `keep = ancestor`). -/
def restrictProb (v keep : List α) : Prob α → Prob α
  | .mk vs cs ms ps =>
    if ps.isEmpty then .mk keep cs ms ps else .mk vs cs (v.filter (· ∉ keep) ++ ms) ps

/-- `id(y, x, prob, graph)` (model.py:125-243). The first argument bounds the depth of the recursion. `nested`
tells whether the call is made, directly or indirectly, from line 7; it is a ghost argument, as is the second
component of the answer, which tells whether one of the lines 6 and 7 was used in a nested call (those lines
ignore `prob`). Line 1 changes `prob` in place; whenever it is reached `prob` is not shared (it is
`graph.prob`, the deep copy of line 2 or the new object of line 7). Line 7 returns None if no component contains
`s`; here that is a TypeError. -/
def idAux : Nat → Bool → List α → List α → Prob α → CG α → Except Err (Prob α × Bool)
  | 0, _, _, _, _, _ => .error .recursion
  | f + 1, nested, y, x, prob, g =>
    match g.topoOrder with
    | .error e => .error e
    | .ok vtopo =>
      let v := g.causation.keys
      -- 1
      if x = [] then .ok (restrictProb v y prob, false)
      else
        -- 2
        let ancestor := g.ancestors y
        if v.any (· ∉ ancestor) then
          match g.buildSubGraph ancestor with
          | .error e => .error e
          | .ok g' => idAux f nested y (x.filter (· ∈ ancestor)) (restrictProb v ancestor prob) g'
        else
          -- 3
          match g.removeIncoming x with
          | .error e => .error e
          | .ok gx =>
            let w := v.filter (fun a => a ∉ x ∧ a ∉ gx.ancestors y)
            if w ≠ [] then idAux f nested y (x ++ w) prob g
            else
              -- 4
              match (g.removeNodes x).cComponents with
              | [] => .error .index
              | [s] =>
                let cg := g.cComponents
                -- 5
                if setEq (cg.headD []) g.dag.nodes then .error .identification
                -- 6
                else if cg.any (setEq s) then
                  match chainFactors vtopo s with
                  | .error e => .error e
                  | .ok ps => .ok (.mk [] [] (s.filter (· ∉ y)) ps, nested)
                -- 7
                else match cg.find? (fun sub => s.all (· ∈ sub)) with
                  | none => .error .type
                  | some sub => match chainFactors vtopo sub with
                    | .error e => .error e
                    | .ok ps => match g.buildSubGraph sub with
                      | .error e => .error e
                      | .ok g' => match idAux f true y (x.filter (· ∈ sub)) (.mk [] [] [] ps) g' with
                        | .error e => .error e
                        | .ok r => .ok (r.1, r.2 || nested)
              | cs => match mapOk (fun c => idAux f nested c (v.filter (· ∉ c)) prob g) cs with
                | .error e => .error e
                | .ok rs => .ok (.mk [] [] (v.filter (fun a => a ∉ y ∧ a ∉ x)) (rs.map (·.1)), rs.any (·.2))

/-- `graph.prob` (graph.py:134-142) -/
def CG.prob (g : CG α) : Prob α := .mk g.causation.keys [] [] []

/-- A recursion depth that is never reached (`C21_id_terminates`).
(bound for the recursion of model.py:125-243). -/
def idDepth (g : CG α) : Nat := (g.causation.keys.length + 1) * (g.causation.keys.length + 1)

/-- `id(y, x)` with the ghost answer (model.py:125-243) -/
def idGhost (g : CG α) (y x : List α) : Except Err (Prob α × Bool) := idAux (idDepth g) false y x g.prob g

/-- `CausalModel(graph).id(y, x)` (model.py:125-243) -/
def CG.id (g : CG α) (y x : List α) : Except Err (Prob α) := (idGhost g y x).map (·.1)

end YL
