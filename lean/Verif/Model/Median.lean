import Mathlib.Algebra.Order.Field.Basic
import Mathlib.Algebra.Order.Ring.Abs
import Mathlib.Algebra.BigOperators.Group.List.Basic

/-!
# The running weighted median and the absolute error criterion

Model of `WeightedPQueue`, `WeightedMedianCalculator`
(`/repo/ylearn/sklearn_ex/cloned/tree/_utils.pyx:84-453`) and `MAE`
(`/repo/ylearn/sklearn_ex/cloned/tree/_criterion.pyx:876-1170`).

Simplified: exact numbers of an ordered field instead of doubles; the records of the queue are a
list, and a read outside of the records in use is the result `none`; `MAE` is modelled for one
output (its loops treat the outputs separately), and the node's samples are the list of their
numbers, in the order of `samples[start:end]`; capacities and reallocation are not modelled.
-/
set_option linter.unusedSectionVars false

namespace YL.Med

variable {K : Type} [Field K] [LinearOrder K] [IsStrictOrderedRing K]

/-- A record: value and weight (`_utils.pxd:64-66`). -/
abbrev Rec (K : Type) := K × K

/-- The loop of `WeightedPQueue.push` (`_utils.pyx:149-154`): from the end the new record changes
places while its value is smaller; the list is given from the end. -/
def bubble (x : Rec K) : List (Rec K) → List (Rec K)
  | [] => [x]
  | y :: ys => if x.1 < y.1 then y :: bubble x ys else x :: y :: ys

/-- `WeightedPQueue.push` (`_utils.pyx:128-158`). -/
def pushQ (l : List (Rec K)) (x : Rec K) : List (Rec K) := (bubble x l.reverse).reverse

/-- `WeightedPQueue.remove` (`_utils.pyx:160-186`): the first record with this value and weight
goes; without one nothing changes. -/
def removeQ (d w : K) : List (Rec K) → List (Rec K)
  | [] => []
  | r :: rs => if r.1 = d ∧ r.2 = w then rs else r :: removeQ d w rs

/-- The calculator's fields (`_utils.pyx:240-279`). -/
structure St (K : Type) where
  samples : List (Rec K)
  k : Nat
  total : K
  sum : K

/-- `__cinit__` and `reset` (`_utils.pyx:274-298`). -/
def empty : St K := ⟨[], 0, 0, 0⟩

/-- `samples[k-1]`, where `k` is unsigned. -/
def before (l : List (Rec K)) (k : Nat) : Option (Rec K) := if k = 0 then none else l[k - 1]?

/-- `get_median` (`_utils.pyx:444-453`); without a `return` the result is 0. -/
def getMedian (s : St K) : Option K :=
  if s.sum = s.total / 2 then
    match s.samples[s.k]?, before s.samples s.k with
    | some r, some q => some ((r.1 + q.1) / 2)
    | _, _ => none
  else if s.sum > s.total / 2 then (before s.samples s.k).map Prod.fst
  else some 0

/-- The loop that lowers `k` (`_utils.pyx:341-347, 435-441`). -/
def shrink (l : List (Rec K)) (total : K) : Nat → K → Option (Nat × K)
  | 0, s => some (0, s)
  | 1, s => some (1, s)
  | k + 2, s =>
    match l[k + 1]? with
    | none => none
    | some r =>
      if s - r.2 ≥ total / 2 then shrink l total (k + 1) (s - r.2) else some (k + 2, s)

/-- The loop that raises `k` (`_utils.pyx:352-356, 425-431`); the list is what follows after the
first `k` records. -/
def grow (total : K) : List (Rec K) → Nat → K → Nat × K
  | [], k, s => (k, s)
  | r :: rs, k, s => if s < total / 2 then grow total rs (k + 1) (s + r.2) else (k, s)

/-- `update_median_parameters_post_push` (`_utils.pyx:317-357`). -/
def postPush (s : St K) (d w m : K) : Option (St K) :=
  if s.samples.length = 1 then some ⟨s.samples, 1, w, w⟩
  else if d < m then
    (shrink s.samples (s.total + w) (s.k + 1) (s.sum + w)).map
      (fun p => ⟨s.samples, p.1, s.total + w, p.2⟩)
  else
    let p := grow (s.total + w) (s.samples.drop s.k) s.k s.sum
    some ⟨s.samples, p.1, s.total + w, p.2⟩

/-- `get_median` if there are records (`_utils.pyx:309-310, 366-367, 381-382`). -/
def oldMedian (s : St K) : Option K := if s.samples = [] then some 0 else getMedian s

/-- `push` (`_utils.pyx:300-315`). -/
def push (s : St K) (d w : K) : Option (St K) :=
  match oldMedian s with
  | none => none
  | some m => postPush { s with samples := pushQ s.samples (d, w) } d w m

/-- `update_median_parameters_post_remove` (`_utils.pyx:394-442`); `k -= 1` of an unsigned 0 is
outside of the records in use. -/
def postRemove (s : St K) (d w m : K) : Option (St K) :=
  if s.samples.length = 0 then some ⟨s.samples, 0, 0, 0⟩
  else if s.samples.length = 1 then some ⟨s.samples, 1, s.total - w, s.total - w⟩
  else if d < m then
    if s.k = 0 then none
    else
      let p := grow (s.total - w) (s.samples.drop (s.k - 1)) (s.k - 1) (s.sum - w)
      some ⟨s.samples, p.1, s.total - w, p.2⟩
  else
    (shrink s.samples (s.total - w) s.k s.sum).map (fun p => ⟨s.samples, p.1, s.total - w, p.2⟩)

/-- `remove` (`_utils.pyx:359-372`). -/
def remove (s : St K) (d w : K) : Option (St K) :=
  match oldMedian s with
  | none => none
  | some m => postRemove { s with samples := removeQ d w s.samples } d w m

/-- `pop` (`_utils.pyx:374-392`) of a calculator with records: the record and the new state. -/
def pop (s : St K) : Option (Rec K × St K) :=
  match oldMedian s with
  | none => none
  | some m =>
    match s.samples with
    | [] => none
    | r :: rs => (postRemove { s with samples := rs } r.1 r.2 m).map (fun t => (r, t))

/-! ### The criterion -/

/-- The fields of `MAE` (`_criterion.pyx:886-919`). -/
structure Mae (K : Type) where
  samples : List Nat
  pos : Nat
  left : St K
  right : St K
  wNode : K
  wLeft : K
  wRight : K
  median : K

/-- Pushing samples, one after the other (`_criterion.pyx:952-962`). -/
def pushAll (y wt : Nat → K) : List Nat → St K → Option (St K)
  | [], s => some s
  | i :: is, s =>
    match push s (y i) (wt i) with
    | none => none
    | some s' => pushAll y wt is s'

/-- Moving `n` records from one calculator to the other by `pop` and `push`
(`_criterion.pyx:995-1001, 1023-1029`). -/
def pour : Nat → St K → St K → Option (St K × St K)
  | 0, a, b => some (a, b)
  | n + 1, a, b =>
    match pop a with
    | none => none
    | some (r, a') =>
      match push b r.1 r.2 with
      | none => none
      | some b' => pour n a' b'

/-- Moving given samples by `remove` and `push` (`_criterion.pyx:1056-1065, 1072-1080`). -/
def moveAll (y wt : Nat → K) : List Nat → St K → St K → Option (St K × St K)
  | [], a, b => some (a, b)
  | i :: is, a, b =>
    match remove a (y i) (wt i) with
    | none => none
    | some a' =>
      match push b (y i) (wt i) with
      | none => none
      | some b' => moveAll y wt is a' b'

/-- `reset` (`_criterion.pyx:973-1002`). -/
def reset (c : Mae K) : Option (Mae K) :=
  (pour c.left.samples.length c.left c.right).map (fun p =>
    { c with left := p.1, right := p.2, wLeft := 0, wRight := c.wNode, pos := 0 })

/-- `reverse_reset` (`_criterion.pyx:1004-1030`). -/
def reverseReset (c : Mae K) : Option (Mae K) :=
  (pour c.right.samples.length c.right c.left).map (fun p =>
    { c with right := p.1, left := p.2, wRight := 0, wLeft := c.wNode, pos := c.samples.length })

/-- `init` (`_criterion.pyx:921-972`) for a node with these samples. -/
def init (y wt : Nat → K) (xs : List Nat) : Option (Mae K) :=
  match pushAll y wt xs empty with
  | none => none
  | some r =>
    match getMedian r with
    | none => none
    | some m => reset ⟨xs, 0, empty, r, (xs.map wt).sum, 0, 0, m⟩

/-- The splitter reorders the node's samples before a `reset` (`_splitter.pyx`). -/
def reorder (c : Mae K) (xs : List Nat) : Mae K := { c with samples := xs }

/-- `update` (`_criterion.pyx:1032-1087`). -/
def update (y wt : Nat → K) (c : Mae K) (newPos : Nat) : Option (Mae K) :=
  if newPos - c.pos ≤ c.samples.length - newPos then
    let moved := (c.samples.drop c.pos).take (newPos - c.pos)
    (moveAll y wt moved c.right c.left).map (fun p =>
      { c with
        right := p.1, left := p.2, pos := newPos
        wLeft := c.wLeft + (moved.map wt).sum
        wRight := c.wNode - (c.wLeft + (moved.map wt).sum) })
  else
    match reverseReset c with
    | none => none
    | some c =>
      let moved := (c.samples.drop newPos).reverse
      (moveAll y wt moved c.left c.right).map (fun p =>
        { c with
          left := p.1, right := p.2, pos := newPos
          wLeft := c.wLeft - (moved.map wt).sum
          wRight := c.wNode - (c.wLeft - (moved.map wt).sum) })

/-- The sum of the weighted absolute deviations of samples. -/
def deviation (y wt : Nat → K) (m : K) (is : List Nat) : K :=
  (is.map (fun i => |y i - m| * wt i)).sum

/-- `node_impurity` (`_criterion.pyx:1095-1117`). -/
def nodeImpurity (y wt : Nat → K) (c : Mae K) : K :=
  deviation y wt c.median c.samples / c.wNode

/-- `children_impurity` (`_criterion.pyx:1119-1164`). -/
def childrenImpurity (y wt : Nat → K) (c : Mae K) : Option (K × K) :=
  match getMedian c.left, getMedian c.right with
  | some l, some r =>
    some (deviation y wt l (c.samples.take c.pos) / c.wLeft,
      deviation y wt r (c.samples.drop c.pos) / c.wRight)
  | _, _ => none

end YL.Med
