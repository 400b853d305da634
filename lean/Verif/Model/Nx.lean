import Mathlib.Data.List.Basic
import Mathlib.Data.Finset.Basic

/-!
# Model of the parts of networkx (2.8) that YLearn calls

YLearn calls networkx from `ylearn/causal_model/graph.py`, `ylearn/causal_model/model.py`,
`ylearn/causal_model/utils.py` and `ylearn/causal_discovery/_base.py`.  networkx itself is not in
/repo; the definitions below model the documented behaviour of networkx 2.8 (YLearn needs a version
below 3 because it calls `nx.to_numpy_matrix`, graph.py:153).  Edges are an insertion ordered list of
`(source, target, key)` triples, which is what the nested dictionaries of `nx.MultiDiGraph` hold.
-/

namespace YL

/-- Keys of parallel edges in an `nx.MultiDiGraph`: YLearn uses the integer `0` for observed edges and
the letter `'n'` for one direction of a latent confounding arc (graph.py:126-132, 288). -/
inductive EKey where
  | num (k : Nat)
  | n
  deriving DecidableEq, Repr

/-- Python exceptions that the modelled code can raise.
(the exceptions raised at model.py:212, 332, 665, 678, 888, 893, 978, graph.py:318 and causal_model/utils.py:142-148). -/
inductive Err where
  | assertion        -- AssertionError
  | networkx         -- networkx.NetworkXError
  | nodeNotFound     -- networkx.NodeNotFound
  | unfeasible       -- networkx.NetworkXUnfeasible (cycle in topological_sort)
  | identification   -- ylearn IdentificationError (causal_model/utils.py:142-148)
  | value            -- ValueError
  | index            -- IndexError
  | type             -- TypeError
  | key              -- KeyError
  | exception        -- a plain Exception
  | recursion        -- the recursion budget of the model is used up (Python: RecursionError)
  | attr             -- AttributeError
  deriving DecidableEq, Repr

/-- `nx.MultiDiGraph`: nodes in insertion order, keyed edges in insertion order.
(created at graph.py:124, 289). -/
structure MDG (α : Type) where
  nodes : List α
  edges : List (α × α × EKey)
  deriving DecidableEq

namespace MDG

variable {α : Type} [DecidableEq α]

/-- The empty graph `nx.MultiDiGraph()` (graph.py:289). -/
def empty : MDG α := ⟨[], []⟩

/-- `G.add_node` / one element of `G.add_nodes_from` (graph.py:339). -/
def addNode (g : MDG α) (v : α) : MDG α :=
  if v ∈ g.nodes then g else { g with nodes := g.nodes ++ [v] }

/-- `G.add_nodes_from(nodes)`. (called at graph.py:339, 346.) -/
def addNodes (g : MDG α) (vs : List α) : MDG α := vs.foldl addNode g

/-- `G.add_edge(u, v, key)`: both ends are added if missing, an existing key is kept.
(called at graph.py:372, 409). -/
def addEdge (g : MDG α) (u v : α) (k : EKey) : MDG α :=
  let g := (g.addNode u).addNode v
  if (u, v, k) ∈ g.edges then g else { g with edges := g.edges ++ [(u, v, k)] }

/-- `MultiGraph.new_edge_key(u, v)`: start at the number of parallel edges and count up to a free
integer. Among `len + 1` candidates one is free. (reached through `add_edges_from` at graph.py:382.) -/
def newKey (g : MDG α) (u v : α) : Nat :=
  let m := (g.edges.filter (fun e => e.1 = u ∧ e.2.1 = v)).length
  ((List.range' m (m + 1)).find? (fun k => (u, v, EKey.num k) ∉ g.edges)).getD m

/-- `G.add_edges_from([(u, v)])` with 2-tuples: a fresh integer key is chosen.
(called at graph.py:382). -/
def addEdgeAuto (g : MDG α) (u v : α) : MDG α := g.addEdge u v (.num (g.newKey u v))

/-- `G.remove_nodes_from(vs)`: silent on missing nodes, removes incident edges.
(called at graph.py:442, 446). -/
def removeNodes (g : MDG α) (vs : List α) : MDG α :=
  ⟨g.nodes.filter (· ∉ vs), g.edges.filter (fun e => e.1 ∉ vs ∧ e.2.1 ∉ vs)⟩

/-- `G.remove_edge(u, v, key)`: raises `NetworkXError` if the keyed edge is absent.
(called at graph.py:473, 505). -/
def removeEdge (g : MDG α) (u v : α) (k : EKey) : Except Err (MDG α) :=
  if (u, v, k) ∈ g.edges then .ok { g with edges := g.edges.filter (· ≠ (u, v, k)) }
  else .error .networkx

/-- `G.remove_edges_from` with 3-tuples `(u, v, key)`: silent on missing edges.
(called at graph.py:479, 512). -/
def removeEdges (g : MDG α) (es : List (α × α × EKey)) : MDG α :=
  { g with edges := g.edges.filter (· ∉ es) }

/-- There is an edge (with any key) from `u` to `v`; `W[u][v] >= 1` in `nx.to_numpy_matrix(G)`.
(used at graph.py:153-158). -/
def hasEdge (g : MDG α) (u v : α) : Bool := g.edges.any (fun e => e.1 = u ∧ e.2.1 = v)

/-- `G.predecessors(v)`: keys of the predecessor dictionary, in insertion order.
(called at graph.py:273, model.py:761, 765). -/
def preds (g : MDG α) (v : α) : List α := ((g.edges.filter (fun e => e.2.1 = v)).map (·.1)).eraseDups

/-- `G.successors(v)` / `G.neighbors(v)`. (called at model.py:753.) -/
def succs (g : MDG α) (v : α) : List α := ((g.edges.filter (fun e => e.1 = v)).map (·.2.1)).eraseDups

/-- `G.out_degree[v]`: counts parallel edges.
(used inside `nx.d_separated`, called at graph.py:194). -/
def outDegree (g : MDG α) (v : α) : Nat := (g.edges.filter (fun e => e.1 = v)).length

/-- Breadth first search: `vis` is the visited set, the last argument the queue. Fuel is only a
termination device, see `Lib/Bfs.lean` for the proof that the fuel used by callers suffices.
(inside `nx.ancestors`/`nx.descendants`, called at causal_model/utils.py:27, 53). -/
def bfs (N : List α) (next : α → List α) : Nat → List α → List α → List α
  | 0, vis, _ => vis
  | _ + 1, vis, [] => vis
  | f + 1, vis, u :: q =>
    let new := N.filter (fun v => v ∈ next u ∧ v ∉ vis)
    bfs N next f (vis ++ new) (q ++ new)

/-- All nodes reached from `s` by following `next`, `s` included.
(inside `nx.ancestors`/`nx.descendants`, called at causal_model/utils.py:27, 53). -/
def reachList (N : List α) (next : α → List α) (s : α) : List α :=
  bfs N next (N.length + 1) [s] [s]

/-- `nx.ancestors(G, v)`: raises if `v` is not in `G`; `v` itself is never included.
(called at causal_model/utils.py:27, 106, model.py:941). -/
def ancestors (g : MDG α) (v : α) : Except Err (List α) :=
  if v ∈ g.nodes then .ok ((reachList g.nodes g.preds v).filter (· ≠ v)) else .error .networkx

/-- `nx.descendants(G, v)`: raises if `v` is not in `G`; `v` itself is never included.
(called at causal_model/utils.py:53, model.py:646). -/
def descendants (g : MDG α) (v : α) : Except Err (List α) :=
  if v ∈ g.nodes then .ok ((reachList g.nodes g.succs v).filter (· ≠ v)) else .error .networkx

/-- One generation of `nx.topological_generations`: for every node of the generation and each of its
children decrement the child's in-degree and emit the child when it drops to zero. The in-degree
counter is represented by the set of already processed predecessors.
(inside `nx.topological_sort`, called at graph.py:318). -/
def nextGen (g : MDG α) (done gen : List α) : List α :=
  (gen.foldl (fun (st : List α × List α) u =>
    (st.1 ++ [u], st.2 ++ (g.succs u).filter (fun c => (g.preds c).all (· ∈ st.1 ++ [u]))))
    (done, [])).2

/-- The `while zero_indegree` loop of `nx.topological_generations`.
(inside `nx.topological_sort`, called at graph.py:318). -/
def topoAux (g : MDG α) : Nat → List α → List α → List α
  | 0, done, _ => done
  | _ + 1, done, [] => done
  | f + 1, done, gen => topoAux g f (done ++ gen) (nextGen g done gen)

/-- `list(nx.topological_sort(G))`; `NetworkXUnfeasible` if some in-degree never drops to zero.
(called at graph.py:318). -/
def topologicalSort (g : MDG α) : Except Err (List α) :=
  let out := topoAux g (g.nodes.length + 1) [] (g.nodes.filter (fun v => (g.preds v).isEmpty))
  if g.nodes.all (· ∈ out) then .ok out else .error .unfeasible

/-- `nx.is_directed_acyclic_graph(G)`: topological sorting does not fail. (called at graph.py:166.) -/
def isDag (g : MDG α) : Bool :=
  match g.topologicalSort with
  | .ok _ => true
  | .error _ => false

/-- One removal of the leaf-pruning loop of `nx.d_separated`; parents whose only outgoing edge goes to
the leaf are appended to the queue. (inside `nx.d_separated`, called at graph.py:194.) -/
def pruneStep (g : MDG α) (keep : List α) (leaf : α) (q : List α) : MDG α × List α :=
  if leaf ∈ keep then (g, q)
  else if leaf ∈ g.nodes then
    (g.removeNodes [leaf], q ++ (g.preds leaf).filter (fun p => g.outDegree p = 1))
  else (g, q)

/-- The `while len(leaves) > 0` loop of `nx.d_separated`.
(inside `nx.d_separated`, called at graph.py:194). -/
def pruneLoop (keep : List α) : Nat → MDG α → List α → MDG α
  | 0, g, _ => g
  | _ + 1, g, [] => g
  | f + 1, g, leaf :: q =>
    let r := pruneStep g keep leaf q
    pruneLoop keep f r.1 r.2

/-- Remove leaves outside `keep` until none is left. Each node enters the queue at most once.
(inside `nx.d_separated`, called at graph.py:194). -/
def pruneLeaves (g : MDG α) (keep : List α) : MDG α :=
  pruneLoop keep (2 * g.nodes.length + 1) g (g.nodes.filter (fun v => g.outDegree v = 0))

/-- Delete all outgoing edges of the nodes in `z`.
(inside `nx.d_separated`, called at graph.py:194). -/
def cutOut (g : MDG α) (z : List α) : MDG α := { g with edges := g.edges.filter (fun e => e.1 ∉ z) }

/-- Undirected neighbours. (inside `nx.d_separated`, called at graph.py:194.) -/
def nbrs (g : MDG α) (v : α) : List α := g.preds v ++ g.succs v

/-- `nx.d_separated(G, x, y, z)` of networkx 2.8: fails on a non-DAG or a missing node; prunes leaves
outside `x ∪ y ∪ z`, deletes outgoing edges of `z` and looks for a weakly connected component that
meets both `x` and `y` (the union-find merges all of `x`, and all of `y`, so the two classes coincide
exactly when one component meets both). (called at graph.py:194, model.py:574, 624, 652, 659, 662.) -/
def dSeparated (g : MDG α) (x y z : List α) : Except Err Bool :=
  if g.isDag then
    if (x ++ y ++ z).all (· ∈ g.nodes) then
      let h := (g.pruneLeaves (x ++ y ++ z)).cutOut z
      .ok (!(x.any (fun a => y.any (fun b => b ∈ reachList h.nodes h.nbrs a))))
    else .error .nodeNotFound
  else .error .networkx

end MDG

/-- `nx.connected_components(G)` for an undirected graph given by its nodes and an edge list: for each
node not seen yet the set reached from it. (called at graph.py:208.) -/
def connectedComponents {α : Type} [DecidableEq α] (N : List α) (arcs : List (α × α)) :
    List (List α) :=
  N.foldl (fun (cs : List (List α)) v =>
    if cs.any (fun c => v ∈ c) then cs
    else cs ++ [MDG.reachList N (fun a => N.filter (fun b => (a, b) ∈ arcs ∨ (b, a) ∈ arcs)) v]) []

end YL
