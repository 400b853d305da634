import Mathlib.Data.List.Sort
import Mathlib.Data.List.Dedup
import Verif.Model.Discovery
import Verif.Model.Why

/-!
# Model of the discovery proxies and of the identifiers that use them

`ylearn/causal_discovery/_proxy_gcastle.py`, `_proxy_pgm.py`, `ylearn/api/_identifier.py`. The learners of gCastle and pgmpy
are arbitrary functions of the data.
-/

namespace YL.Proxy

open YL Discovery

/-- a square `DataFrame`: row labels, column labels, and the entry at two labels -/
structure Labelled (L K : Type) where
  index : List L
  columns : List L
  entry : L → L → K

/-- the position of the `i`-th label; labels are distinct -/
def nth {L : Type} [Inhabited L] (l : List L) (i : Nat) : L := l.getD i default

/-- `.values`: rows in the order of the index, columns in the order of the columns -/
def values {L K : Type} [Inhabited L] (f : Labelled L K) : Mat f.columns.length K :=
  fun i j => f.entry (nth f.index i) (nth f.columns j)

/-- `matrix2dict(frame)`: the names are the column labels, the positions those of `.values` (causal_discovery/_base.py:46-60) -/
def frame2dict {L K : Type} [Inhabited L] [AddCommGroup K] [LinearOrder K] (f : Labelled L K) : List (L × List L) :=
  matrix2dict (values f) (fun j => nth f.columns j)

/-- the labels of the sum of two frames: those of the left if they are equal or the right is empty, else the sorted union
(`DataFrame.__add__`, outer alignment) -/
def outer {L : Type} [DecidableEq L] [LinearOrder L] (a b : List L) : List L :=
  if a = b ∨ b = [] then a else ((a ++ b).dedup).insertionSort (· ≤ ·)

/-- `a + b` for frames with the same labels on both axes, then `.fillna(0.0)` (_proxy_pgm.py:71-73) -/
def addFill {L K : Type} [DecidableEq L] [LinearOrder L] [Zero K] [Add K] (a b : Labelled L K) : Labelled L K where
  index := outer a.index b.index
  columns := outer a.columns b.columns
  entry r c := if (r ∈ a.index ∧ c ∈ a.columns) ∧ r ∈ b.index ∧ c ∈ b.columns then a.entry r c + b.entry r c else 0

/-- the graph a pgmpy learner returns: its nodes in some order and its edges -/
structure Dag (L : Type) where
  nodes : List L
  edge : L → L → Bool

/-- `nx.to_numpy_array(dag, nodelist=nodes, weight=None)` with labels (_proxy_pgm.py:69-70) -/
def learned {L : Type} (g : Dag L) : Labelled L Int where
  index := g.nodes
  columns := g.nodes
  entry r c := if g.edge r c then 1 else 0

/-- the zero frame on the data's columns (_proxy_pgm.py:71-72) -/
def zeros {L : Type} (columns : List L) : Labelled L Int := { index := columns, columns := columns, entry := fun _ _ => 0 }

/-- the matrix of `PgmProxy.__call__` on a frame with these columns (_proxy_pgm.py:65-73) -/
def pgm {L : Type} [DecidableEq L] [LinearOrder L] (columns : List L) (g : Dag L) : Except Err (Labelled L Int) :=
  if g.nodes.all (fun v => decide (v ∈ columns)) then .ok (addFill (zeros columns) (learned g)) else .error .assertion

/-- `PgmProxy.__call__` on an array: the columns are `0, …, n-1` (_proxy_pgm.py:49-52, 75-78) -/
def pgmArray (n : Nat) (g : Dag Nat) : Except Err (Labelled Nat Int) := pgm (List.range n) g

/-- what a proxy returns -/
inductive Result (L K : Type) where
  | matrix (f : Labelled L K)
  | dict (d : List (L × List L))

/-- the end of `PgmProxy.__call__`: the threshold is not used (_proxy_pgm.py:80-85) -/
def pgmCall {L : Type} [DecidableEq L] [LinearOrder L] [Inhabited L] (columns : List L) (g : Dag L) (returnDict : Bool)
    (_threshold : Option Int) : Except Err (Result L Int) :=
  match pgm columns g with
  | .error e => .error e
  | .ok f => if returnDict then .ok (.dict (frame2dict f)) else .ok (.matrix f)

/-- `GCastleProxy.__call__` on a frame: the learner's matrix with the data's columns as labels; `matrix2dict` has no parameter
`threshold` (_proxy_gcastle.py:49-73) -/
def gcastleCall {L : Type} [Inhabited L] (columns : List L) (m : Nat → Nat → Int) (pos : L → Nat) (returnDict : Bool)
    (threshold : Option Int) : Except Err (Result L Int) :=
  let f : Labelled L Int := { index := columns, columns := columns, entry := fun r c => m (pos r) (pos c) }
  if returnDict then
    match threshold with
    | none => .ok (.dict (frame2dict f))
    | some _ => .error .type
  else .ok (.matrix f)

/-- the matrix a user-supplied learner returns -/
inductive Learned (L K : Type) where
  | array (rows cols : Nat) (m : Nat → Nat → K)
  | frame (f : Labelled L K)
  | other

/-- `IdentifierWithLearner._discovery_causation(X)` (_identifier.py:294-306) -/
def learnerMatrix {L K : Type} (columns : List L) (pos : L → Nat) : Learned L K → Except Err (Labelled L K)
  | .array r c m =>
    if r = columns.length ∧ c = columns.length then
      .ok { index := columns, columns := columns, entry := fun a b => m (pos a) (pos b) }
    else .error .assertion
  | .frame f => if f.index.length = columns.length ∧ f.columns.length = columns.length then .ok f else .error .assertion
  | .other => .error .assertion

/-- the column of the outcome, by labels: `causation[outcome]`, the candidates of `identify_treatment` before sorting
(_identifier.py:84-85) -/
def candidates {L K : Type} [DecidableEq L] [AddCommGroup K] [LinearOrder K] (f : Labelled L K) (outcome : L) : List L :=
  f.index.filter (fun i => decide (0 < |f.entry i outcome|) && decide (i ≠ outcome))

/-- `_identify_ci_dfs` on a frame (_identifier.py:200-224): positions of `.values`, names of the columns -/
def frameCi {L K : Type} [DecidableEq L] [Inhabited L] [AddCommGroup K] [LinearOrder K] (f : Labelled L K) (outcome : L)
    (treatment : List L) : Except Err (List L × List L) :=
  Why.ciDfs (values f) (fun j => nth f.columns j) outcome treatment

/-! ## An identifier object used for several data sets -/

/-- the two calls `Why.fit` makes: `identify_treatment` (only when no treatment was given) and `identify_aci` -/
inductive IdCall (D : Type) where
  | treatment (d : D)
  | aci (d : D)

/-- `self.causal_matrix_` after a call and the matrix the call's answer is computed from (_identifier.py:80-107) -/
def idStep {D M : Type} (discover : D → M) (cached : Option M) : IdCall D → Option M × M
  | .treatment d => (some (discover d), discover d)
  | .aci d =>
    match cached with
    | some m => (some m, m)
    | none => (some (discover d), discover d)

/-- `Why.fit` on a data set with or without a given treatment, with an identifier object (_why.py:345-416) -/
def idFit {D M : Type} (discover : D → M) (cached : Option M) (d : D) (given : Bool) : Option M × M :=
  if given then idStep discover cached (.aci d)
  else idStep discover (idStep discover cached (.treatment d)).1 (.aci d)

end YL.Proxy
