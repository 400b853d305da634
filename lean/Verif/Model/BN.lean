import Mathlib.Data.List.Sort
import Mathlib.Algebra.Field.Basic
import Verif.Model.Nx

set_option linter.unusedSectionVars false

/-!
# Model of `ylearn/bayesian`: `_dag.py`, `_base.py`, `_data.py`, `_collectors.py`, `_network.py`

Not modelled: plotting, the inner workings of Pyro's stochastic variational inference (`fit` and `do` produce *some*
weights), the tensors behind a column of values (a column is an element of an arbitrary type).
Node names are compared and sorted, so they form a linear order.
-/

namespace YL.BN

variable {α : Type} [LinearOrder α]

/-! ### `_dag.py` -/

/-- The edges as pairs. (`self.edges`, _dag.py:22, 46.) -/
def arcs (g : MDG α) : List (α × α) := g.edges.map (fun e => (e.1, e.2.1))

/-- `nx.number_weakly_connected_components(g)` (called at _dag.py:29) -/
def numWeak (g : MDG α) : Nat := (connectedComponents g.nodes (arcs g)).length

/-- The argument of `DAG(...)`: a networkx graph, or a dict / adjacency frame that was just turned into an
`nx.DiGraph` (_dag.py:12-24). The branch for `CausalGraph` (_dag.py:12-14) is not modelled. -/
inductive GraphArg (α : Type) where
  | nx (g : MDG α)
  | other (g : MDG α)

/-- The graph inside the argument. (_dag.py:16-24.) -/
def GraphArg.graph : GraphArg α → MDG α
  | .nx g => g
  | .other g => g

/-- `nx.DiGraph(edges)`: the graph made of the given edges only.
(the class constructor called at _dag.py:22). -/
def ofEdges (es : List (α × α)) : MDG α := es.foldl (fun g e => g.addEdge e.1 e.2 (.num 0)) MDG.empty

/-- `DAG(graph)`, that is `DiGraph(graph, acyclic=True)` (_dag.py:11-33, 275-278). From a networkx graph only the edges
are copied (_dag.py:17), from the other kinds the graph itself (_dag.py:20, 23). -/
def mkDag (a : GraphArg α) : Except Err (MDG α) :=
  if a.graph.isDag then
    if numWeak a.graph > 1 then .error .value
    else match a with
      | .nx g => .ok (ofEdges (arcs g))
      | .other g => .ok g
  else .error .value

/-- property `topo_sorted_nodes` (_dag.py:42-62), with `is_dag` of _dag.py:35-39 -/
def topoNodes (g : MDG α) : Except Err (List α) :=
  if g.isDag ∧ numWeak g = 1 then g.topologicalSort else .error .value

/-- `sort_nodes(nodes, topo_sorted)` (_dag.py:148-153) -/
def sortNodes (g : MDG α) (ns : List α) (topo : Bool) : Except Err (List α) :=
  if topo then
    match topoNodes g with
    | .ok l => .ok (l.filter (· ∈ ns))
    | .error e => .error e
  else .ok (ns.insertionSort (· ≤ ·))

/-- `get_parents(node, topo_sorted)` (_dag.py:70-71); networkx refuses an unknown node -/
def getParents (g : MDG α) (v : α) (topo : Bool) : Except Err (List α) :=
  if v ∈ g.nodes then sortNodes g (g.preds v) topo else .error .networkx

/-- `get_children(node, topo_sorted)` (_dag.py:73-74) -/
def getChildren (g : MDG α) (v : α) (topo : Bool) : Except Err (List α) :=
  if v ∈ g.nodes then sortNodes g (g.succs v) topo else .error .networkx

/-- sequencing of two computations that may raise (exceptions propagate, e.g. at _dag.py:79-86) -/
def andThen {β γ : Type} (x : Except Err β) (f : β → Except Err γ) : Except Err γ :=
  match x with
  | .error e => .error e
  | .ok b => f b

/-- `for node in nodes: acc.extend(f(node))` (_dag.py:79-86, 92-99) -/
def gather {β : Type} (f : α → Except Err (List β)) : List α → Except Err (List β)
  | [] => .ok []
  | v :: vs => match f v with
    | .error e => .error e
    | .ok l => match gather f vs with
      | .error e => .error e
      | .ok r => .ok (l ++ r)

/-- `get_upstream_blanket(nodes, return_self, topo_sorted)` for a list of nodes (_dag.py:76-87) -/
def upstream (g : MDG α) (ns : List α) (self topo : Bool) : Except Err (List α) :=
  match gather (fun v => getParents g v false) ns with
  | .error e => .error e
  | .ok ps => sortNodes g (if self then (ps ++ ns).eraseDups else ps.eraseDups) topo

/-- `get_downstream_blanket(nodes, return_self, topo_sorted)` for a list of nodes (_dag.py:89-100) -/
def downstream (g : MDG α) (ns : List α) (self topo : Bool) : Except Err (List α) :=
  match gather (fun v => getChildren g v false) ns with
  | .error e => .error e
  | .ok cs => sortNodes g (if self then (cs ++ ns).eraseDups else cs.eraseDups) topo

/-- `get_markov_blanket(nodes, return_self, topo_sorted)` for a list of nodes (_dag.py:102-126) -/
def markov (g : MDG α) (ns : List α) (self topo : Bool) : Except Err (List α) :=
  match gather (fun v => getParents g v false) ns with
  | .error e => .error e
  | .ok ps => match gather (fun v => getChildren g v false) ns with
    | .error e => .error e
    | .ok cs => match gather (fun c => getParents g c false) cs.eraseDups with
      | .error e => .error e
      | .ok os =>
        sortNodes g (if self then (ps ++ cs ++ os ++ ns).eraseDups
          else ((ps ++ cs ++ os).eraseDups).filter (· ∉ ns)) topo

/-- The argument `nodes`: one name or a list of names. (_dag.py:76, 89, 102, 128.) -/
inductive NodesArg (α : Type) where
  | one (v : α)
  | many (vs : List α)

/-- `to_list(nodes)`: one name becomes a list of one name (utils/_common.py:60-70; names without commas, a string with commas
is split there). -/
def NodesArg.toList : NodesArg α → List α
  | .one v => [v]
  | .many vs => vs

/-- `for n in nodes`: iterating a `str` yields its characters, here given by `chars`.
(_dag.py:79, 92). -/
def NodesArg.iter (chars : α → List α) : NodesArg α → List α
  | .one v => chars v
  | .many vs => vs

/-- The argument `kind`: 'markov', 'downstream', anything else. (_dag.py:128-136.) -/
inductive Kind where
  | markov
  | downstream
  | upstream

/-- `get_blanket(nodes, kind, return_self, topo_sorted)` (_dag.py:128-140) -/
def getBlanket (chars : α → List α) (g : MDG α) (ns : NodesArg α) (kind : Kind) (self topo : Bool) :
    Except Err (List α) :=
  let blanket := match kind with
    | .markov => markov g ns.toList true topo
    | .downstream => downstream g ns.toList true topo
    | .upstream => upstream g ns.toList true topo
  match blanket with
  | .error e => .error e
  | .ok b => .ok (if self then b else (ns.iter chars).foldl (fun b n => b.erase n) b)

/-! ### `_base.py`: node states -/

section State

variable {R : Type} [LinearOrder R]

/-- `CategoryNodeState(classes)` (bayesian/_base.py:51-54): the sorted classes; fewer than two fail the assertion -/
def mkCategory (classes : List R) : Except Err (List R) :=
  if classes.length < 2 then .error .assertion else .ok (classes.insertionSort (· ≤ ·))

/-- `encode(value)` (bayesian/_base.py:64-69): `np.searchsorted(self.classes, value)`, the number of classes below the value
(this is what the binary search of numpy returns on a sorted array) -/
def encode (classes : List R) (v : R) : Nat := (classes.filter (· < v)).length

/-- `decode(value)` (bayesian/_base.py:71-76): `np.take(self.classes, index)` -/
def decode (classes : List R) (i : Nat) : Except Err R :=
  match classes[i]? with
  | some r => .ok r
  | none => .error .index

end State

/-! ### `BayesianModel.model` -/

section Sampling

variable {V : Type}

/-- `find_missing_inputs(nodes_)` (_network.py:108-115) with at most `f` nested calls; `keys` are the columns of the
data -/
def findMissing (g : MDG α) (keys : List α) : Nat → List α → Except Err (List α)
  | 0, _ => .error .recursion
  | f + 1, ns =>
    gather (fun n => andThen (getParents g n false) (fun ps => gather (fun p =>
      if p ∉ ns ∧ p ∉ keys then andThen (findMissing g keys f [p]) (fun l => .ok (p :: l)) else .ok []) ps)) ns

/-- the value of a dict at a key (_network.py:129-131) -/
def kget (d : List (α × V)) (v : α) : Option V := (d.find? (fun e => e.1 = v)).map (·.2)

/-- `[ps[p] if p in ps else data[p] for p in parents]` (_network.py:131); a missing key is a KeyError -/
def inputsOf (ps data : List (α × V)) : List α → Except Err (List V)
  | [] => .ok []
  | p :: rest =>
    match (kget ps p).orElse (fun _ => kget data p) with
    | none => .error .key
    | some x => match inputsOf ps data rest with
      | .error e => .error e
      | .ok l => .ok (x :: l)

/-- The loop over `nodes_to_sample` (_network.py:127-148). `fn v inputs obs` is what the node function of `v` returns
under the current Pyro handlers (one draw of the noise). Columns named `..._inputs` (_network.py:129) are not modelled:
`DataLoader.spread` never makes them for nodes of the graph unless a node carries such a name. -/
def sampleLoop (g : MDG α) (data : List (α × V)) (fn : α → List V → Option V → V) :
    List α → List (α × V) → Except Err (List (α × V))
  | [], ps => .ok ps
  | v :: rest, ps =>
    match getParents g v false with
    | .error e => .error e
    | .ok parents => match inputsOf ps data parents with
      | .error e => .error e
      | .ok inputs => sampleLoop g data fn rest (ps ++ [(v, fn v inputs (kget data v))])

/-- the fuel for `findMissing`: one nested call per node, and one more (_network.py:108-115) -/
def fuel (g : MDG α) : Nat := g.nodes.length + 1

/-- `BayesianModel.model(data, nodes=nodes)` (_network.py:98-152), one run. `data` is a dict of columns (`None` is the
empty dict: the plate size is part of the node functions). -/
def model (g : MDG α) (data : List (α × V)) (fn : α → List V → Option V → V) (nodes : Option (List α)) :
    Except Err (List (α × V)) :=
  match nodes with
  | none => match topoNodes g with
    | .error e => .error e
    | .ok order => sampleLoop g data fn order []
  | some ns => match findMissing g (data.map (·.1)) (fuel g) ns with
    | .error e => .error e
    | .ok miss => match sortNodes g (ns ++ miss) true with
      | .error e => .error e
      | .ok order => match sampleLoop g data fn order [] with
        | .error e => .error e
        | .ok ps => .ok (ps.filter (fun e => e.1 ∈ ns))

/-- What a node function returns under `poutine.condition(model, cond)`: the conditioned value if the node has one,
otherwise the observation, otherwise the value generated from the inputs (Pyro's `condition` handler replaces the value
of a sample site; `pyro.sample(..., obs=...)` returns the observation). `gen` holds one draw of the noise.
(used by _network.py:490-507). -/
def condFn (cond : List (α × V)) (gen : α → List V → V) (v : α) (inputs : List V) (obs : Option V) : V :=
  match kget cond v with
  | some c => c
  | none => match obs with
    | some o => o
    | none => gen v inputs

end Sampling

/-! ### `estimate` -/

section Estimate

variable {V K : Type}

/-- `dict.update`: new entries win. (_network.py:491-493.) -/
def upd (d e : List (α × V)) : List (α × V) := e ++ d

/-- One draw inside `estimate` (_network.py:490-507): the model restricted to the outcomes and their parents, conditioned on
`kv` (outer handler, wins) and on the node values among the fitted parameters; the value of outcome `y` in the trace -/
def drawOutcome (g : MDG α) (data cond kv : List (α × V)) (gen : α → List V → V) (outcomes : List α) (y : α) :
    Except Err V :=
  match getBlanket (fun v => [v]) g (.many outcomes) .upstream true true with
  | .error e => .error e
  | .ok nodes => match model g data (condFn (upd cond kv) gen) (some nodes) with
    | .error e => .error e
    | .ok ps => match kget ps y with
      | some v => .ok v
      | none => .error .key

/-- The sum that a sample collector builds up (_collectors.py:13-19, 36-43); `proj` is the identity for a numerical
outcome and the indicator of a class for a categorical one. -/
def collect [Add K] [Zero K] (f : Ω → Except Err V) (proj : V → K) : List Ω → Except Err K
  | [] => .ok 0
  | w :: ws => match f w with
    | .error e => .error e
    | .ok v => match collect f proj ws with
      | .error e => .error e
      | .ok s => .ok (proj v + s)

/-- `NumberSampleCollector.__call__` on the successive values of a site, with the tensors in a heap (_collectors.py:14-19): the
first tensor is kept by reference and the later ones are added to it *in place*; the resulting heap -/
def accumulate [Add K] (heap : Nat → K) (first : Nat) : List Nat → Nat → K
  | [] => heap
  | r :: rs => accumulate (Function.update heap first (heap first + heap r)) first rs

/-- `NumberSampleCollector`: all calls and then `to` (_collectors.py:14-22); no sample at all is a TypeError (`None / 0`) -/
def numberCollector [DivisionRing K] (heap : Nat → K) : List Nat → Except Err (K × (Nat → K))
  | [] => .error .type
  | r :: rs =>
    let h := accumulate heap r rs
    .ok (h r / ((rs.length + 1 : ℕ) : K), h)

/-- `estimate(data, treatment, outcome, treat=…, control=…)` (_network.py:449-517) for one outcome column: mean over the draws
under `treat` minus mean over the draws under `control`. `drawsT`, `drawsC` are the (independent) noises of the draws. -/
def estimate [DivisionRing K] {Ω : Type} (g : MDG α) (data cond treat control : List (α × V)) (gen : Ω → α → List V → V)
    (outcomes : List α) (y : α) (proj : V → K) (drawsT drawsC : List Ω) : Except Err K :=
  match collect (fun w => drawOutcome g data cond treat (gen w) outcomes y) proj drawsT with
  | .error e => .error e
  | .ok t => match collect (fun w => drawOutcome g data cond control (gen w) outcomes y) proj drawsC with
    | .error e => .error e
    | .ok c => .ok (t / (drawsT.length : K) - c / (drawsC.length : K))

end Estimate

/-! ### the objects: `BayesianNetwork` / `SviBayesianNetwork` -/

section Objects

variable {R V W : Type}

/-- A fitted network object (_network.py:216-227, 579-584). `enc v r` is `state_[v].encode(r)` (`none`: no such column). `params_`
holds the weights and, after `sample` or `predict`, also values of nodes. -/
structure Net (α R V W : Type) where
  enc : α → Option (R → V)
  weights : W
  nodeParams : List (α × V)
  interventions : List (α × R)

/-- `{k: states[k].encode(v) for k, v in interventions.items()}` (_network.py:272, 311, 659) -/
def encodeAll (enc : α → Option (R → V)) : List (α × R) → Except Err (List (α × V))
  | [] => .ok []
  | (k, r) :: rest => match enc k with
    | none => .error .key
    | some f => match encodeAll enc rest with
      | .error e => .error e
      | .ok l => .ok ((k, f r) :: l)

/-- The calls a user can make on a fitted object, with the result of the training they run.
(_network.py:229, 449, 533, 587). -/
inductive Op (α R V W : Type) where
  /-- `fit(data)`: new states, new weights -/
  | fit (enc : α → Option (R → V)) (w : W)
  /-- `do(intervention, inplace=True)`: new weights -/
  | doIn (iv : List (α × R)) (w : W)
  /-- `predict(...)` or `sample(...)` -/
  | predict
  /-- `estimate(...)` -/
  | estimate

/-- What the caller gets: the weights and the node values the model is conditioned on.
(_network.py:268-273, 493). -/
inductive Out (α V W : Type) where
  | none
  | raised (e : Err)
  | conditioned (w : W) (cond : List (α × V))

/-- The nodes whose values a condition fixes, as a function. (_network.py:272, 493.) -/
def condOf (cond : List (α × V)) : α → Option V := kget cond

/-- One call. `fit` (_network.py:229-233, 587-644) keeps `interventions_`; `do` (_network.py:646-708) updates the existing dict
before anything can fail (a fresh dict when there is none yet); `predict` and `sample` (_network.py:268-273, 308-312) write the
encoded interventions into `params_`; `estimate` (_network.py:493) conditions on `params_` only. -/
def step (n : Net α R V W) : Op α R V W → Net α R V W × Out α V W
  | .fit enc w => ({ n with enc := enc, weights := w, nodeParams := [] }, .none)
  | .doIn iv w =>
    if iv = [] then (n, .raised .assertion)
    else
      let new := upd n.interventions iv
      match encodeAll n.enc new with
      | .error e => (if n.interventions = [] then n else { n with interventions := new }, .raised e)
      | .ok _ => ({ n with interventions := new, weights := w, nodeParams := [] }, .none)
  | .predict =>
    match encodeAll n.enc n.interventions with
    | .error e => (n, .raised e)
    | .ok iv =>
      let c := upd n.nodeParams iv
      ({ n with nodeParams := c }, .conditioned n.weights c)
  | .estimate => (n, .conditioned n.weights n.nodeParams)

/-- A history of calls. (calls of the methods at _network.py:229-708.) -/
def steps (n : Net α R V W) : List (Op α R V W) → Net α R V W
  | [] => n
  | o :: os => steps (step n o).1 os

/-- `do(intervention, inplace=False)` (_network.py:533-551, 646-708): works on a deep copy; the result and the original -/
def doCopy (n : Net α R V W) (iv : List (α × R)) (w : W) : Net α R V W × Except Err (Net α R V W) :=
  match step n (.doIn iv w) with
  | (_, .raised e) => (n, .error e)
  | (m, _) => (n, .ok m)

/-- The loss of `do` is divided by `len(blanket_nodes) * n_samples` (_network.py:688-692): with an empty blanket every
epoch raises ZeroDivisionError (rendered as `Err.exception`). -/
def doWeight (g : MDG α) (ivs : List α) (kind : Kind) (nSamples : Nat) : Except Err Nat :=
  match getBlanket (fun v => [v]) g (.many ivs) kind false false with
  | .error e => .error e
  | .ok b => if b.length * nSamples = 0 then .error .exception else .ok (b.length * nSamples)

end Objects

end YL.BN
