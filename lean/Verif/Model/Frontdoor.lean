import Verif.Model.Backdoor

/-!
# Model of the path and front-door part of `ylearn/causal_model/model.py`
-/

namespace YL

variable {α : Type} [DecidableEq α] [LatentNames α]

/-- `set(name)` for a Python string: the set of its characters, each a one-letter string.
(used through model.py:716, 819, 865). -/
class CharNames (α : Type) where
  chars : α → List α

/-- node names are Python strings; used through model.py:716, 819, 865 -/
instance : CharNames String := ⟨fun s => s.toList.map String.singleton⟩

/-- All simple paths that start at `u`, avoid `vis` and end at a target (depth first, as
`nx._all_simple_paths_graph` does). Fuel: one unit per node of the path.
(inside `nx.all_simple_paths`, called at model.py:716, 819, 865). -/
def simplePaths (next : α → List α) (targets : List α) : Nat → List α → α → List (List α)
  | 0, _, _ => []
  | f + 1, vis, u => (if u ∈ targets then [[u]] else []) ++
      ((next u).filter (fun v => v ∉ u :: vis)).flatMap
        (fun v => (simplePaths next targets f (u :: vis) v).map (u :: ·))

/-- `nx.all_simple_paths(G, source, target)` (networkx 2.8): `NodeNotFound` for an unknown source; an unknown
target is iterated over as if it were a collection of nodes, so a string is split into characters; nothing
is listed if the source is a target. Parallel edges would repeat paths; the graphs passed by YLearn have none
when the causation is acyclic. (called at model.py:716, 819, 865.) -/
def allSimplePaths [CharNames α] (N : List α) (next : α → List α) (s t : α) : Except Err (List (List α)) :=
  if s ∈ N then
    let targets := if t ∈ N then [t] else CharNames.chars t
    if s ∈ targets then .ok [] else .ok (simplePaths next targets N.length [] s)
  else .error .nodeNotFound

/-- `get_backdoor_path(treatment, outcome)` (model.py:694-718). -/
def getBackdoorPath [CharNames α] (g : CG α) (t y : α) : Except Err (List (List α)) :=
  let d := g.explicitDag
  match checkNodes g.causation.keys [t, y] with
  | .error e => .error e
  | .ok _ => match allSimplePaths d.nodes d.nbrs t y with
    | .error e => .error e
    | .ok ps => .ok (ps.filter (fun p => decide (2 < p.length) && p[1]?.any (fun a => decide (a ∈ d.preds t))))

/-- the first loop of `has_collider` (model.py:752-759): the pairs after the first forward edge -/
def afterForward (d : MDG α) : List (α × α) → Option (List (α × α))
  | [] => none
  | e :: l => if e.2 ∈ d.succs e.1 then some l else afterForward d l

/-- `node in dag.predecessors(path[i - 1])` for some consecutive pair (model.py:760-766) -/
def anyBackward (d : MDG α) (l : List (α × α)) : Bool := l.any (fun e => decide (e.2 ∈ d.preds e.1))

/-- `has_collider(path, backdoor_path)` (model.py:720-768). -/
def hasCollider (g : CG α) (path : List α) (backdoor : Bool := true) : Except Err Bool :=
  let d := g.explicitDag
  match checkNodes d.nodes path with
  | .error e => .error e
  | .ok _ => match path with
    | p0 :: p1 :: rest =>
      let bp := backdoor && decide (p1 ∈ d.preds p0)
      let pairs := path.zip path.tail
      if rest.isEmpty then .ok false
      else if pairs.all (fun e => decide (e.2 ∈ d.nbrs e.1)) then
        if bp then
          if path.length = 3 then .ok false
          else match afterForward d pairs with
            | none => .ok (anyBackward d pairs)
            | some l => .ok (anyBackward d l)
        else .ok (anyBackward d pairs)
      else .error .assertion
    | _ => .error .index

/-- `is_connected_backdoor_path(path)` (model.py:770-795). -/
def isConnectedBackdoorPath [CharNames α] (g : CG α) (path : List α) : Except Err Bool :=
  let d := g.explicitDag
  match checkNodes d.nodes path with
  | .error e => .error e
  | .ok _ => match path with
    | p0 :: p1 :: _ =>
      if p1 ∈ d.preds p0 then
        match hasCollider g path with
        | .error e => .error e
        | .ok true => .ok false
        | .ok false => match getBackdoorPath g p0 (path.getLastD p0) with
          | .error e => .error e
          | .ok ps => .ok (decide (path ∈ ps))
      else .error .assertion
    | _ => .error .index

/-- `any(f(x) for x in l)` where `f` may raise, evaluated from the left until the first True
(model.py:825-829). -/
def anyOk {β : Type} (f : β → Except Err Bool) : List β → Except Err Bool
  | [] => .ok false
  | b :: l => match f b with
    | .error e => .error e
    | .ok true => .ok true
    | .ok false => anyOk f l

/-- rule 2 of `is_frontdoor_set` (model.py:825-829): some back-door path into `set_` is connected -/
def openInto [CharNames α] (g : CG α) (t : α) (set_ : List α) : Except Err Bool :=
  anyOk (fun m => match getBackdoorPath g t m with
    | .error e => .error e
    | .ok ps => anyOk (isConnectedBackdoorPath g) ps) set_

/-- `is_frontdoor_set(set_, treatment, outcome)` for string arguments (model.py:797-833). `set(treatment)` in
`check_nodes` is the set of characters of the name. -/
def isFrontdoorSet [CharNames α] (g : CG α) (set_ : List α) (t y : α) : Except Err Bool :=
  match checkNodes g.causation.keys (set_ ++ CharNames.chars t ++ CharNames.chars y) with
  | .error e => .error e
  | .ok _ => match allSimplePaths g.observedDag.nodes g.observedDag.succs t y with
    | .error e => .error e
    | .ok ps =>
      if ps.any (fun p => !(p.any (fun v => decide (v ∈ set_)))) then .ok false
      else match openInto g t set_ with
        | .error e => .error e
        | .ok true => .ok false
        | .ok false => isValidBackdoorSet g [t] set_ [y]

/-- An argument that is either one string or a set of strings. (model.py:797-833.) -/
inductive NameArg (α : Type) where
  | name (x : α)
  | set (l : List α)
  deriving DecidableEq

/-- `set(arg)` (model.py:797-833) -/
def NameArg.asSet [CharNames α] : NameArg α → List α
  | .name x => CharNames.chars x
  | .set l => l

/-- the estimand (model.py:898-908) -/
def frontdoorProb (t y : α) (adset : List α) : Prob α :=
  .mk [] [] adset [.mk adset [t] [] [],
    .mk [] [] [t] [.mk [y] (t :: adset) [] [], .mk [t] [] [] []]]

/-- the part of `get_frontdoor_set` after the arguments are unpacked (model.py:862-909) -/
def frontdoorSearch [CharNames α] (ord : List α → List α) (g : CG α) (t y : α) (adjust : Adjust) :
    Except Err (BackdoorList α × Prob α) :=
  match allSimplePaths g.observedDag.nodes g.observedDag.succs t y with
  | .error e => .error e
  | .ok ps =>
    let initial := ord ((ps.flatten.eraseDups).filter (fun v => v ≠ t ∧ v ≠ y))
    match adjust with
    | .other => .error .identification
    | .all => match allSep (fun i => isFrontdoorSet g i t y) (powerset initial) with
      | .error e => .error e
      | .ok [] => .error .identification
      | .ok (s :: l) => .ok (.sets (s :: l), frontdoorProb t y s)
    | _ => match firstSep (fun i => isFrontdoorSet g i t y) (powerset initial) with
      | .error e => .error e
      | .ok ((a :: s) :: _) => .ok (.names (a :: s), frontdoorProb t y (a :: s))
      | .ok _ => .error .identification

/-- `get_frontdoor_set(treatment, outcome, adjust)` (model.py:835-909): the result, and the caller's two
arguments after the call (`pop` removes from the caller's sets). A set together with a string is not
supported by the code (it fails inside networkx); here it is a TypeError. -/
def getFrontdoorSet [CharNames α] (ord : List α → List α) (g : CG α) (T Y : NameArg α) (adjust : Adjust) :
    Except Err (BackdoorList α × Prob α) × NameArg α × NameArg α :=
  match checkNodes g.causation.keys (T.asSet ++ Y.asSet) with
  | .error e => (.error e, T, Y)
  | .ok _ => match T, Y with
    | .set [t], .set [y] => (frontdoorSearch ord g t y adjust, .set [], .set [])
    | .set _, .set _ => (.error .assertion, T, Y)
    | .name t, .name y => (frontdoorSearch ord g t y adjust, T, Y)
    | _, _ => (.error .type, T, Y)

end YL
