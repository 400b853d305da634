import Verif.Model.Nx
import Verif.Spec.CausalGraph

/-!
# Model of `ylearn/causal_model/graph.py` (`CausalGraph`) and `ylearn/causal_model/utils.py`

Node names are an arbitrary type `α` with decidable equality (`String` in the code).  The only place
where names matter is `explicit_unob_var_dag`, which invents names `U0, U1, ...`; these come from the
class `LatentNames`.
-/

namespace YL

variable {α : Type} [DecidableEq α]

/-- The names `f'U{i}'` of graph.py:303-306. -/
class LatentNames (α : Type) where
  U : Nat → α
  inj : ∀ i j, U i = U j → i = j

/-- `defaultdict(list)` from a node to its parents, in insertion order (graph.py:122). -/
abbrev Causation (α : Type) := List (α × List α)

namespace Causation

/-- keys of the dictionary (`self.ava_nodes`, graph.py:123) -/
def keys (c : Causation α) : List α := c.map (·.1)

/-- `causation[k]` read as a value; a missing key gives `[]` (defaultdict). (graph.py:122, 271.) -/
def get (c : Causation α) (k : α) : List α := (c.lookup k).getD []

/-- `causation[k]` as an access: a missing key is inserted with `[]` (defaultdict).
(graph.py:122, 371). -/
def touch (c : Causation α) (k : α) : Causation α := if k ∈ c.keys then c else c ++ [(k, [])]

/-- Replace the list stored under `k`, inserting the key if it is missing. (graph.py:371, 410, 475.) -/
def modify (c : Causation α) (k : α) (f : List α → List α) : Causation α :=
  (c.touch k).map (fun p => if p.1 = k then (p.1, f p.2) else p)

/-- `del causation[k]`. (graph.py:436.) -/
def del (c : Causation α) (k : α) : Causation α := c.filter (fun p => p.1 ≠ k)

/-- One node of `remove_nodes` (graph.py:433-441): delete the key and, in every other entry, remove
the first occurrence of the node (`list.remove` raising on absence is swallowed). -/
def removeNode (c : Causation α) (v : α) : Causation α :=
  (c.del v).map (fun p => (p.1, p.2.erase v))

end Causation

/-- `CausalGraph`: the two attributes that hold state (graph.py:122-124). -/
structure CG (α : Type) where
  causation : Causation α
  dag : MDG α
  deriving DecidableEq

/-! ### utils.py -/

/-- `ancestors_of_iter(g, x)` (causal_model/utils.py:8-31); a node unknown to `g` contributes only itself. -/
def ancestorsOfIter (g : MDG α) (x : List α) : List α :=
  x.flatMap (fun node => node :: match g.ancestors node with | .ok l => l | .error _ => [])

/-- `descendents_of_iter(g, x)` (causal_model/utils.py:34-57). -/
def descendentsOfIter (g : MDG α) (x : List α) : List α :=
  x.flatMap (fun node => node :: match g.descendants node with | .ok l => l | .error _ => [])

/-- `check_nodes(nodes, S)` (causal_model/utils.py:90-102): AssertionError if some element is unknown. -/
def checkNodes (nodes s : List α) : Except Err Unit :=
  if s.all (· ∈ nodes) then .ok () else .error .assertion

/-- `itertools.combinations(s, r)` in its lexicographic order of positions.
(called at causal_model/utils.py:139). -/
def combinations : List α → Nat → List (List α)
  | _, 0 => [[]]
  | [], _ + 1 => []
  | a :: l, r + 1 => (combinations l r).map (a :: ·) ++ combinations l (r + 1)

/-- `powerset(iterable)` (causal_model/utils.py:120-139): all combinations by increasing size. -/
def powerset (s : List α) : List (List α) := (List.range (s.length + 1)).flatMap (combinations s)

namespace CG

/-- the edges `(para, k)` listed by `observed_dag` (graph.py:285-288) -/
def obsPairs (c : Causation α) : List (α × α) := c.flatMap (fun kv => kv.2.map (fun p => (p, kv.1)))

/-- `observed_dag` (graph.py:275-291): only nodes that occur in some edge are present. -/
def observedDagOf (c : Causation α) : MDG α :=
  (obsPairs c).foldl (fun g e => g.addEdge e.1 e.2 (.num 0)) MDG.empty

/-- the property `observed_dag` (graph.py:275-291) -/
def observedDag (g : CG α) : MDG α := observedDagOf g.causation

/-- Both directions of a latent confounding arc (graph.py:129-132, 374-377, 386-389). -/
def addArc (d : MDG α) (e : α × α) : MDG α := (d.addEdge e.1 e.2 .n).addEdge e.2 e.1 .n

/-- `CausalGraph.__init__(causation, latent_confounding_arcs=arcs)` (graph.py:102-132). `dict` keys are
distinct, which `WF` of the theorems records. -/
def init (c : Causation α) (arcs : List (α × α) := []) : CG α :=
  ⟨c, arcs.foldl addArc (observedDagOf c)⟩

/-- `latent_confounding_arcs` (graph.py:144-159): row-major scan of the adjacency matrix `W`, an entry
with `W[r][c] >= 1` and `W[c][r] >= 1` is reported unless the reverse pair already is. -/
def latentArcsOf (d : MDG α) : List (α × α) :=
  (d.nodes.flatMap (fun r => d.nodes.map (fun c => (r, c)))).foldl
    (fun arcs e => if d.hasEdge e.1 e.2 && d.hasEdge e.2 e.1 && decide ((e.2, e.1) ∉ arcs)
      then arcs ++ [e] else arcs) []

/-- the property `latent_confounding_arcs` (graph.py:144-159) -/
def latentArcs (g : CG α) : List (α × α) := latentArcsOf g.dag

/-- `is_dag` (graph.py:161-166). -/
def isDag (g : CG α) : Bool := g.observedDag.isDag

/-- `c_components` (graph.py:196-208). -/
def cComponents (g : CG α) : List (List α) := connectedComponents g.dag.nodes g.latentArcs

/-- `ancestors` (graph.py:210-225). -/
def ancestors (g : CG α) (x : List α) : List α := ancestorsOfIter g.observedDag x

/-- `descendents` (graph.py:227-251). -/
def descendents (g : CG α) (x : List α) : List α := descendentsOfIter g.observedDag x

/-- `explicit_unob_var_dag` (graph.py:293-307): the observed dag plus one node `U{i}` per latent arc. -/
def explicitDag [LatentNames α] (g : CG α) : MDG α :=
  (g.latentArcs.zipIdx).foldl
    (fun d e => (d.addEdge (LatentNames.U e.2) e.1.1 .n).addEdge (LatentNames.U e.2) e.1.2 .n)
    g.observedDag

/-- `parents(x, only_observed)` (graph.py:253-273); the insertion of a missing key by the defaultdict
is not modelled here (the value read is). -/
def parents [LatentNames α] (g : CG α) (x : α) (onlyObserved : Bool := true) : List α :=
  if onlyObserved then g.causation.get x else g.explicitDag.preds x

/-- `is_d_separated` (graph.py:178-194). -/
def isDSeparated [LatentNames α] (g : CG α) (x y z : List α) : Except Err Bool :=
  g.explicitDag.dSeparated x y z

/-- `topo_order`, consumed completely (graph.py:309-318). -/
def topoOrder (g : CG α) : Except Err (List α) := g.observedDag.topologicalSort

/-! ### edits in place -/

/-- `add_nodes(nodes, new=False)` (graph.py:336-342). `ori_nodes` is a live view of `self.dag.nodes`,
so after `add_nodes_from` no node is missing from it and `causation` never changes. -/
def addNodes (g : CG α) (ns : List α) : CG α :=
  let dag' := g.dag.addNodes ns
  let causation' := ns.foldl (fun c v => if v ∉ dag'.nodes then c.modify v (fun _ => []) else c) g.causation
  ⟨causation', dag'⟩

/-- `add_nodes(nodes, new=True)` (graph.py:343-350): here `ori_nodes` are the nodes of the original. -/
def addNodesNew (g : CG α) (ns : List α) : CG α :=
  ⟨ns.foldl (fun c v => if v ∉ g.dag.nodes then c.modify v (fun _ => []) else c) g.causation,
   g.dag.addNodes ns⟩

/-- one observed edge of in-place `add_edges_from` / `add_edge` (graph.py:371-372, 409-410) -/
def addObs (g : CG α) (e : α × α) : CG α :=
  ⟨g.causation.modify e.2 (· ++ [e.1]), g.dag.addEdge e.1 e.2 (.num 0)⟩

/-- `add_edges_from(edge_list, new=False, observed)` (graph.py:368-377). -/
def addEdgesFrom (g : CG α) (es : List (α × α)) (observed : Bool := true) : CG α :=
  if observed then es.foldl addObs g else { g with dag := es.foldl addArc g.dag }

/-- `add_edges_from(edge_list, new=True, observed)` (graph.py:378-390): observed edges are added to the
copied dag as 2-tuples, so networkx chooses the key. -/
def addEdgesFromNew (g : CG α) (es : List (α × α)) (observed : Bool := true) : CG α :=
  if observed then
    ⟨es.foldl (fun c e => c.modify e.2 (· ++ [e.1])) g.causation,
     es.foldl (fun d e => d.addEdgeAuto e.1 e.2) g.dag⟩
  else { g with dag := es.foldl addArc g.dag }

/-- `add_edge(s, t, observed)` (graph.py:392-412): an unobserved edge is added in ONE direction only. -/
def addEdge (g : CG α) (s t : α) (observed : Bool := true) : CG α :=
  if observed then g.addObs (s, t) else { g with dag := g.dag.addEdge s t .n }

/-- `remove_nodes(nodes)` (graph.py:414-457); the `new=True` branch computes the same value on copies. -/
def removeNodes (g : CG α) (ns : List α) : CG α :=
  ⟨ns.foldl Causation.removeNode g.causation, g.dag.removeNodes ns⟩

/-- one observed edge of `remove_edge(s_from)` (graph.py:473-477, 505-509): the dag edge must exist,
`causation[edge[1]].remove(edge[0])` may fail silently (the access inserts a missing key). -/
def removeObs (g : CG α) (e : α × α) : Except Err (CG α) :=
  match g.dag.removeEdge e.1 e.2 (.num 0) with
  | .ok d => .ok ⟨g.causation.modify e.2 (·.erase e.1), d⟩
  | .error x => .error x

/-- both directions of an unobserved arc (graph.py:479-481, 512-514) -/
def removeArc (g : CG α) (e : α × α) : CG α :=
  { g with dag := g.dag.removeEdges [(e.1, e.2, .n), (e.2, e.1, .n)] }

/-- `remove_edges_from(edge_list, new, observed)` (graph.py:483-530): on failure the exception and the
state reached so far (visible to the caller for `new=False`). -/
def removeObsEdges (g : CG α) : List (α × α) → CG α × Option Err
  | [] => (g, none)
  | e :: es => match g.removeObs e with
    | .ok g' => removeObsEdges g' es
    | .error x => (g, some x)

/-- `remove_edges_from(edge_list, new=False, observed)` (graph.py:503-514) -/
def removeEdgesFrom (g : CG α) (es : List (α × α)) (observed : Bool := true) : CG α × Option Err :=
  if observed then g.removeObsEdges es else (es.foldl removeArc g, none)

/-- the `new=True` branch returns the graph or raises (graph.py:515-530) -/
def removeEdgesFromNew (g : CG α) (es : List (α × α)) (observed : Bool := true) : Except Err (CG α) :=
  match g.removeEdgesFrom es observed with
  | (g', none) => .ok g'
  | (_, some x) => .error x

/-- `build_sub_graph(subset)` (graph.py:532-547). -/
def buildSubGraph (g : CG α) (subset : List α) : Except Err (CG α) :=
  match checkNodes g.causation.keys subset with
  | .ok _ => .ok (g.removeNodes (g.causation.keys.filter (· ∉ subset)))
  | .error x => .error x

/-- `remove_incoming_edges(x, new=True)` (graph.py:549-583): in-edges of `x`, in dag order, split by key. -/
def removeIncoming (g : CG α) (x : List α) : Except Err (CG α) :=
  match checkNodes g.causation.keys x with
  | .error e => .error e
  | .ok _ =>
    let inE := g.dag.edges.filter (fun e => e.2.1 ∈ x)
    let o := (inE.filter (fun e => e.2.2 ≠ .n)).map (fun e => (e.1, e.2.1))
    let u := (inE.filter (fun e => e.2.2 = .n)).map (fun e => (e.1, e.2.1))
    match g.removeEdgesFromNew o with
    | .error e => .error e
    | .ok g' => g'.removeEdgesFromNew u false

/-- `remove_outgoing_edges(x, new=True)` (graph.py:585-605): only edges with key `0`. -/
def removeOutgoing (g : CG α) (x : List α) : Except Err (CG α) :=
  match checkNodes g.causation.keys x with
  | .error e => .error e
  | .ok _ =>
    g.removeEdgesFromNew
      ((g.dag.edges.filter (fun e => e.1 ∈ x ∧ e.2.2 = .num 0)).map (fun e => (e.1, e.2.1)))

/-! ### histories of edits -/

/-- One public call: the state afterwards and the exception raised, if any. `remove_edge` is
graph.py:459-481, the others are cited at the functions they call. -/
def step (g : CG α) : Spec.Edit α → CG α × Option Err
  | .addNodes ns => (g.addNodes ns, none)
  | .addEdgesFrom es o => (g.addEdgesFrom es o, none)
  | .addEdge s t o => (g.addEdge s t o, none)
  | .removeNodes ns => (g.removeNodes ns, none)
  | .removeEdge e o => g.removeEdgesFrom [e] o
  | .removeEdgesFrom es o => g.removeEdgesFrom es o

/-- The state after a history of calls (the caller may catch exceptions and go on), and the exceptions.
(a sequence of calls of the methods at graph.py:320-530). -/
def run (g : CG α) : List (Spec.Edit α) → CG α × List (Option Err)
  | [] => (g, [])
  | op :: ops => let r := (g.step op).1.run ops; (r.1, (g.step op).2 :: r.2)

end CG

/-- `f'U{i}'` (graph.py:305). -/
def latentName (i : Nat) : String := "U" ++ toString i

theorem latentName_inj (i j : Nat) (h : latentName i = latentName j) : i = j := by
  have h' : toString i = toString j := by
    have := congrArg String.toList h
    simp only [latentName, String.toList_append] at this
    exact String.toList_inj.1 (List.append_cancel_left this)
  rw [Nat.toString_eq_ofList_toDigits, Nat.toString_eq_ofList_toDigits] at h'
  have h2 : Nat.toDigits 10 i = Nat.toDigits 10 j := by
    simpa only [String.toList_ofList] using congrArg String.toList h'
  have := congrArg (fun l => Nat.ofDigitChars 10 l 0) h2
  simpa [Nat.ofDigitChars_ten_toDigits] using this

/-- node names are Python strings (graph.py:305) -/
instance : LatentNames String := ⟨latentName, latentName_inj⟩

end YL
