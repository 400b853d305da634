import Verif.Model.Tree

/-!
# Model of the queries of a grown tree: `Tree.apply` and `Tree.decision_path`, for dense and sparse data

Model of `ylearn/sklearn_ex/cloned/tree/_tree.pyx:826-1100`: the output buffers, the walk along raw pointers and the two scratch arrays of the sparse versions.
A read or write outside an array, which in the compiled code is undefined behaviour, is an error here, and so is a walk that does not end.
The three arrays of a CSR matrix are modelled as the list of its rows, each a list of entries (column, value); the types of the numbers are not modelled.
-/

namespace YL.TreeQ

open YL YL.Tree

/-- what must never happen in the compiled code: an access outside an array, a loop without an end (_tree.pyx:857-864) -/
inductive Fault where
  | outside
  | endless
  deriving DecidableEq

variable {K V : Type} [Field K] [LinearOrder K]

/-- `X_ndarray[i, node.feature]` (_tree.pyx:860, 992) -/
def denseCell (row : List K) (f : Nat) : Except Fault K :=
  match row[f]? with
  | some v => .ok v
  | none => .error .outside

/-- `while node.left_child != _TREE_LEAF` of `apply` (_tree.pyx:857-864, 911-924); only the left child is tested -/
def seek (nodes : List (Node K V)) (cell : Nat → Except Fault K) : Nat → Nat → Except Fault Nat
  | 0, _ => .error .endless
  | fuel + 1, i =>
    match nodes[i]? with
    | none => .error .outside
    | some n => match n.left with
      | none => .ok i
      | some l => match cell n.feature with
        | .error e => .error e
        | .ok v => if v ≤ n.threshold then seek nodes cell fuel l else match n.right with
          | none => .error .outside
          | some r => seek nodes cell fuel r

/-- `_apply_dense` (_tree.pyx:833-869) -/
def applyDense (nodes : List (Node K V)) (rows : List (List K)) : Except Fault (List Nat) :=
  match rows with
  | [] => .ok []
  | row :: rest => match seek nodes (denseCell row) nodes.length 0 with
    | .error e => .error e
    | .ok i => match applyDense nodes rest with
      | .error e => .error e
      | .ok out => .ok (i :: out)

/-- `indices_ptr[k] = v` (_tree.pyx:989, 998) -/
def store (buf : List Nat) (k v : Nat) : Except Fault (List Nat) := if k < buf.length then .ok (buf.set k v) else .error .outside

/-- the walk of `decision_path`, which writes the nodes into the buffer from position `k` on (_tree.pyx:987-999, 1063-1088): the buffer and the next position -/
def trace (nodes : List (Node K V)) (cell : Nat → Except Fault K) : Nat → Nat → List Nat → Nat → Except Fault (List Nat × Nat)
  | 0, _, _, _ => .error .endless
  | fuel + 1, i, buf, k =>
    match nodes[i]? with
    | none => .error .outside
    | some n => match store buf k i with
      | .error e => .error e
      | .ok buf => match n.left with
        | none => .ok (buf, k + 1)
        | some l => match cell n.feature with
          | .error e => .error e
          | .ok v => if v ≤ n.threshold then trace nodes cell fuel l buf (k + 1) else match n.right with
            | none => .error .outside
            | some r => trace nodes cell fuel r buf (k + 1)

/-- `for i in range(n_samples)` of `_decision_path_dense` (_tree.pyx:982-999): buffer, position, `indptr` so far -/
def denseLoop (nodes : List (Node K V)) : List (List K) → List Nat → Nat → List Nat → Except Fault (List Nat × List Nat)
  | [], buf, _, ptr => .ok (buf, ptr)
  | row :: rest, buf, k, ptr => match trace nodes (denseCell row) nodes.length 0 buf k with
    | .error e => .error e
    | .ok (buf, k) => denseLoop nodes rest buf k (ptr ++ [k])

/-- `_decision_path_dense` (_tree.pyx:953-1007): `indices` and `indptr` of the indicator matrix, all entries of which are ones -/
def pathsDense (nodes : List (Node K V)) (maxDepth : Nat) (rows : List (List K)) : Except Fault (List Nat × List Nat) :=
  match denseLoop nodes rows (List.replicate (rows.length * (1 + maxDepth)) 0) 0 [0] with
  | .error e => .error e
  | .ok (buf, ptr) => .ok (buf.take (ptr.getLastD 0), ptr)

/-- a CSR matrix (_tree.pyx:882-892) -/
structure Csr (K : Type) where
  width : Nat
  rows : List (List (Nat × K))

/-- the scratch arrays `feature_to_sample` (`none` is -1) and `X_sample` (_tree.pyx:898-911) -/
structure Scratch (K : Type) where
  mark : List (Option Nat)
  cells : List K

/-- `for k in range(X_indptr[i], X_indptr[i + 1])` (_tree.pyx:916-918) -/
def load (i : Nat) : List (Nat × K) → Scratch K → Except Fault (Scratch K)
  | [], s => .ok s
  | (f, v) :: rest, s => if f < s.mark.length ∧ f < s.cells.length then load i rest ⟨s.mark.set f (some i), s.cells.set f v⟩ else .error .outside

/-- `feature_value` (_tree.pyx:921-929) -/
def sparseCell (s : Scratch K) (i f : Nat) : Except Fault K :=
  match s.mark[f]? with
  | none => .error .outside
  | some m => if m = some i then match s.cells[f]? with
      | some v => .ok v
      | none => .error .outside
    else .ok 0

/-- `for i in range(n_samples)` of `_apply_sparse_csr` (_tree.pyx:913-936) -/
def sparseApplyLoop (nodes : List (Node K V)) : Nat → List (List (Nat × K)) → Scratch K → Except Fault (List Nat)
  | _, [], _ => .ok []
  | i, row :: rest, s => match load i row s with
    | .error e => .error e
    | .ok s => match seek nodes (sparseCell s i) nodes.length 0 with
      | .error e => .error e
      | .ok leaf => match sparseApplyLoop nodes (i + 1) rest s with
        | .error e => .error e
        | .ok out => .ok (leaf :: out)

/-- `_apply_sparse_csr` (_tree.pyx:871-942); `junk` is what the freshly allocated `X_sample` holds -/
def applySparse (nodes : List (Node K V)) (junk : Nat → K) (c : Csr K) : Except Fault (List Nat) :=
  sparseApplyLoop nodes 0 c.rows ⟨List.replicate c.width none, (List.range c.width).map junk⟩

/-- `for i in range(n_samples)` of `_decision_path_sparse_csr` (_tree.pyx:1055-1088) -/
def sparseLoop (nodes : List (Node K V)) : Nat → List (List (Nat × K)) → Scratch K → List Nat → Nat → List Nat → Except Fault (List Nat × List Nat)
  | _, [], _, buf, _, ptr => .ok (buf, ptr)
  | i, row :: rest, s, buf, k, ptr => match load i row s with
    | .error e => .error e
    | .ok s => match trace nodes (sparseCell s i) nodes.length 0 buf k with
      | .error e => .error e
      | .ok (buf, k) => sparseLoop nodes (i + 1) rest s buf k (ptr ++ [k])

/-- `_decision_path_sparse_csr` (_tree.pyx:1009-1100) -/
def pathsSparse (nodes : List (Node K V)) (maxDepth : Nat) (junk : Nat → K) (c : Csr K) : Except Fault (List Nat × List Nat) :=
  match sparseLoop nodes 0 c.rows ⟨List.replicate c.width none, (List.range c.width).map junk⟩ (List.replicate (c.rows.length * (1 + maxDepth)) 0) 0 [0] with
  | .error e => .error e
  | .ok (buf, ptr) => .ok (buf.take (ptr.getLastD 0), ptr)

end YL.TreeQ
