import Mathlib.Algebra.BigOperators.Group.List.Basic
import Mathlib.Algebra.Order.Group.Defs
import Mathlib.Algebra.Order.Group.Unbundled.Abs
import Mathlib.Data.List.FinRange
import Mathlib.Data.List.Sort
import Mathlib.Data.Fintype.Basic
import Verif.Model.Frontdoor

/-!
# Model of `ylearn/causal_discovery/_base.py` and of `_to_dag` in `_discovery.py`

A square matrix is a function of two indices below `n`; its entries live in an ordered additive group `K` (the
floating point numbers of numpy are idealised, NaN is excluded). A `nx.DiGraph` made from a matrix is represented by
the matrix: the edges are the non-zero entries (`nx.from_numpy_array`), removing an edge sets its entry to zero, and
`nx.to_numpy_array` gives the matrix back.
-/

namespace YL

/-- square matrices (causal_discovery/_base.py:14, 42) -/
abbrev Mat (n : Nat) (K : Type) := Fin n → Fin n → K

variable {n : Nat} {K : Type} [AddCommGroup K] [LinearOrder K]

namespace Discovery

/-- `g[u]`: the heads of the edges from `u` in increasing order (causal_discovery/_base.py:19) -/
def succs (W : Mat n K) (u : Fin n) : List (Fin n) := (List.finRange n).filter (fun v => W u v ≠ 0)

/-- `nx.has_path(g, u, v)` (called at causal_discovery/_base.py:25) -/
def hasPath (W : Mat n K) (u v : Fin n) : Bool := v ∈ MDG.reachList (List.finRange n) (succs W) u

/-- `zip(p[:-1], p[1:])` (causal_discovery/_base.py:28) -/
def pathEdges (p : List (Fin n)) : List (Fin n × Fin n) := p.zip p.tail

/-- length of a path (used by causal_discovery/_base.py:26) -/
def pathWeight (W : Mat n K) (p : List (Fin n)) : K := ((pathEdges p).map (fun e => W e.1 e.2)).sum

/-- `list(nx.all_shortest_paths(g, s, t, weight='weight'))` for positive weights: the simple paths of minimal total
weight (networkx finds them with Dijkstra's algorithm; negative weights, for which that algorithm may raise
`ValueError`, are not modelled). The order of the list is that of a depth first search; the caller does not depend
on it. (called at causal_discovery/_base.py:26.) -/
def shortestPaths (W : Mat n K) (s t : Fin n) : List (List (Fin n)) :=
  let ps := simplePaths (succs W) [t] n [] s
  ps.filter (fun p => ps.all (fun q => decide (pathWeight W p ≤ pathWeight W q)))

/-- `sorted(es, key=lambda e: edge_weights[e])[0]`: the first edge of minimal weight
(causal_discovery/_base.py:29). -/
def minEdge (W : Mat n K) : List (Fin n × Fin n) → Option (Fin n × Fin n)
  | [] => none
  | e :: es => match minEdge W es with
    | none => some e
    | some f => if W e.1 e.2 ≤ W f.1 f.2 then some e else some f

/-- `g.remove_edge(u, v)` if present (causal_discovery/_base.py:30-31) -/
def clear (W : Mat n K) (e : Fin n × Fin n) : Mat n K := fun i j => if (i, j) = e then 0 else W i j

/-- the loop `for p in paths` (causal_discovery/_base.py:27-31); `W₀` holds `edge_weights`; `es[0]` of a path without edges raises
`IndexError` -/
def trimPaths (W₀ : Mat n K) : Mat n K → List (List (Fin n)) → Except Err (Mat n K)
  | W, [] => .ok W
  | W, p :: ps => match minEdge W₀ (pathEdges p) with
    | none => .error .index
    | some e => trimPaths W₀ (clear W e) ps

/-- `sorted(edge_weights.keys(), key=..., reverse=True)` (causal_discovery/_base.py:22-23), a stable sort -/
def sortedEdges (W : Mat n K) : List (Fin n × Fin n) :=
  (((List.finRange n).flatMap (fun i => (List.finRange n).map (fun j => (i, j)))).filter (fun e => W e.1 e.2 ≠ 0)).insertionSort
    (fun e f => W f.1 f.2 ≤ W e.1 e.2)

/-- `trim_with_weight()` (causal_discovery/_base.py:21-33): `none` when it returns False, otherwise the new graph -/
def trimStep (W : Mat n K) : Except Err (Option (Mat n K)) :=
  match (sortedEdges W).find? (fun e => hasPath W e.2 e.1) with
  | none => .ok none
  | some e => match trimPaths W W (shortestPaths W e.2 e.1) with
    | .error er => .error er
    | .ok W' => .ok (some W')

/-- `while trim_with_weight(): pass` (causal_discovery/_base.py:35-36), at most `f` rounds -/
def trimLoop : Nat → Mat n K → Except Err (Mat n K)
  | 0, _ => .error .recursion
  | f + 1, W => match trimStep W with
    | .error e => .error e
    | .ok none => .ok W
    | .ok (some W') => trimLoop f W'

/-- `nx.is_directed_acyclic_graph(g)`: no edge has a way back
(called at causal_discovery/_base.py:38). -/
def isDag (W : Mat n K) : Bool :=
  (List.finRange n).all (fun i => (List.finRange n).all (fun j => decide (W i j = 0) || !hasPath W j i))

/-- `BaseDiscovery.trim_cycle(matrix)` (causal_discovery/_base.py:14-39) with at most `f` rounds of the loop -/
def trimCycle (f : Nat) (W : Mat n K) : Except Err (Mat n K) :=
  match trimLoop f W with
  | .error e => .error e
  | .ok W' => if isDag W' then .ok W' else .error .assertion

/-- the double loop of `_to_dag` (_discovery.py:241-247, the same in _dydiscovery.py:160-170): of two opposite
entries the smaller one is cleared, the diagonal is cleared. Each pair is handled exactly once, so the loop is
written entry by entry. -/
def dropReverse (W : Mat n K) : Mat n K := fun i j =>
  if i = j then 0
  else if i < j then (if |W i j| < |W j i| then 0 else W i j)
  else (if |W j i| < |W i j| then W i j else 0)

/-- `_to_dag(matrix)` (_discovery.py:239-250) -/
def toDag (f : Nat) (W : Mat n K) : Except Err (Mat n K) := trimCycle f (dropReverse W)

/-! ### matrix2dict -/

/-- The stack machine of `nx.dfs_edges(g, source, depth_limit)` (networkx 2.8): an entry of the stack is the depth
still allowed and the children not yet looked at. The answer is the list of visited nodes in the order of the
visits; the heads of the yielded edges are those after the source.
(called at causal_discovery/_base.py:63, _identifier.py:212, 217). -/
def dfsLoop (next : Fin n → List (Fin n)) : Nat → List (Nat × List (Fin n)) → List (Fin n) → List (Fin n)
  | 0, _, vis => vis
  | _ + 1, [], vis => vis
  | f + 1, (_, []) :: st, vis => dfsLoop next f st vis
  | f + 1, (d, c :: cs) :: st, vis =>
    if c ∈ vis then dfsLoop next f ((d, cs) :: st) vis
    else if 1 < d then dfsLoop next f ((d - 1, next c) :: (d, cs) :: st) (vis ++ [c])
    else dfsLoop next f ((d, cs) :: st) (vis ++ [c])

/-- `g[u]` of the reversed graph (causal_discovery/_base.py:59) -/
def preds (W : Mat n K) (v : Fin n) : List (Fin n) := (List.finRange n).filter (fun u => W u v ≠ 0)

/-- `set(c[1] for c in nx.dfs_edges(g, i, depth_limit=depth))` (causal_discovery/_base.py:63); `depth=None` means the number of
nodes. Every node is pushed at most once and every step consumes a child or pops an entry. -/
def dfsTargets (W : Mat n K) (depth : Option Nat) (i : Fin n) : List (Fin n) :=
  (dfsLoop (preds W) ((n + 1) * (n + 1)) [(depth.getD n, preds W i)] [i]).tail

/-- `matrix2dict(matrix, names, depth)` (causal_discovery/_base.py:41-66) for distinct names, as the list of the items. -/
def matrix2dict {ν : Type} (W : Mat n K) (names : Fin n → ν) (depth : Option Nat := none) : List (ν × List ν) :=
  (List.finRange n).map (fun i =>
    (names i, ((List.finRange n).filter (fun j => j ∈ dfsTargets W depth i)).map names))

/-! ### matrix2array -/

/-- one row of `matrix2array` (causal_discovery/_base.py:87-96); for an `np.ndarray` both `v` and `vt` are `matrix[row, col]` -/
def arrayRow (W : Mat n K) (isFrame : Bool) (i j : Fin n) : Fin n × Fin n × K :=
  let v := W i j
  let vt := if isFrame then W j i else W i j
  if |vt| ≤ |v| then (i, j, v) else (j, i, vt)

/-- `matrix2array(matrix)` (causal_discovery/_base.py:68-101), without the final renaming of the indices -/
def matrix2array (W : Mat n K) (isFrame : Bool) : List (Fin n × Fin n × K) :=
  (List.finRange n).flatMap (fun i =>
    ((List.finRange n).filter (fun j => i < j)).map (fun j => arrayRow W isFrame i j))

end Discovery

end YL
