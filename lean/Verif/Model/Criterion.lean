import Mathlib.Data.List.Basic
import Mathlib.Algebra.Field.Defs
import Mathlib.Algebra.Order.Ring.Defs
import Mathlib.Algebra.Group.Prod
import Mathlib.Algebra.Group.Int.Defs
import Mathlib.Data.Int.Cast.Defs

/-!
# Model of the split criteria of the causal trees

`ylearn/estimator_model/_tree/tree_criterion.pyx`, `tree_criterion_lib.cpp` (`HonestCMSE`, `CMSE`, used by
`CausalTree`) and `ylearn/estimator_model/_generalized_forest/tree/_criterion.pyx` (`GrfTreeCriterion`, used by
`GRForest` and `CausalForest`).

Floats are elements of an ordered field `K`; the 32 bit counters are unbounded integers.  `y[samples[p]]` and
`sample_weight[samples[p]]` are only read together, so the node is a function from positions `p` to pairs.
The accumulators that one loop updates together are one tuple.
-/

namespace YL.Crit

/-- `for(p=a; p<b; p++) acc += f(p)` (tree_criterion_lib.cpp:17-31, tree_criterion.pyx:148-166, _generalized_forest/tree/_criterion.pyx:388-396) -/
def sumUp {M : Type} [AddCommGroup M] (f : Nat → M) (a b : Nat) : M :=
  (List.range' a (b - a)).foldl (fun acc p => acc + f p) 0

/-- `for(p=b-1; p>a-1; p--) acc -= f(p)`, from `acc` on (tree_criterion_lib.cpp:33-46, _generalized_forest/tree/_criterion.pyx:400-408) -/
def subDown {M : Type} [AddCommGroup M] (f : Nat → M) (a b : Nat) (acc : M) : M :=
  (List.range' a (b - a)).reverse.foldl (fun acc p => acc - f p) acc

/-- A criterion at a node: the segment, the current position, the sums of the node, of the samples left of the
position and of those right of it (tree_criterion.pyx:50-106, _generalized_forest/tree/_criterion.pyx:76-103). -/
structure Crit (M : Type) where
  start : Nat
  stop : Nat
  pos : Nat
  total : M
  left : M
  right : M
  deriving DecidableEq

variable {M : Type} [AddCommGroup M]

/-- `reset()` (tree_criterion.pyx:179-205, _generalized_forest/tree/_criterion.pyx:336-350) -/
def reset (c : Crit M) : Crit M := { c with left := 0, right := c.total, pos := c.start }

/-- `reverse_reset()` (tree_criterion.pyx:207-233, _generalized_forest/tree/_criterion.pyx:352-366) -/
def reverseReset (c : Crit M) : Crit M := { c with right := 0, left := c.total, pos := c.stop }

/-- `init(...)` at `samples[start:end]` (tree_criterion.pyx:113-177, _generalized_forest/tree/_criterion.pyx:108-330) -/
def init (f : Nat → M) (start stop : Nat) : Crit M :=
  reset ⟨start, stop, start, sumUp f start stop, 0, 0⟩

/-- `on_update(...)`: what is added to the left sums (tree_criterion_lib.cpp:1-55). The comparison is one of signed
integers. -/
def onUpdate (f : Nat → M) (stop pos newPos : Nat) : M :=
  if (newPos : Int) - pos ≤ (stop : Int) - newPos then sumUp f pos newPos else subDown f newPos stop 0

/-- `HonestCMSE.update(new_pos)` (tree_criterion.pyx:235-333): `pos` is read before a possible `reverse_reset()` -/
def update (f : Nat → M) (c : Crit M) (newPos : Nat) : Crit M :=
  let pos := c.pos
  let c' := if (newPos : Int) - pos ≤ (c.stop : Int) - newPos then c else reverseReset c
  let left := c'.left + onUpdate f c.stop pos newPos
  { c' with left := left, right := c.total - left, pos := newPos }

/-- `GrfTreeCriterion.update(new_pos)` (_generalized_forest/tree/_criterion.pyx:368-416): the left sums are changed in place -/
def updateGrf (f : Nat → M) (c : Crit M) (newPos : Nat) : Crit M :=
  let left := if (newPos : Int) - c.pos ≤ (c.stop : Int) - newPos
    then (List.range' c.pos (newPos - c.pos)).foldl (fun acc p => acc + f p) c.left
    else subDown f newPos c.stop (reverseReset c).left
  { c with left := left, right := c.total - left, pos := newPos }

/-- What the splitter does with a criterion at one node: it reorders the samples of the node (one sort per feature)
and resets, it resets from either side, it moves the position (sklearn_ex/cloned/tree/_splitter.pyx:380-468). -/
inductive Op (M : Type) where
  | resort (f : Nat → M)
  | reset
  | reverseReset
  | update (p : Nat)

/-- one call; `upd` is the `update` method of the class (sklearn_ex/cloned/tree/_splitter.pyx:380-468) -/
def step (upd : (Nat → M) → Crit M → Nat → Crit M) (s : (Nat → M) × Crit M) : Op M → (Nat → M) × Crit M
  | .resort f => (f, reset s.2)
  | .reset => (s.1, reset s.2)
  | .reverseReset => (s.1, reverseReset s.2)
  | .update p => (s.1, upd s.1 s.2 p)

/-- a sequence of calls at one node (sklearn_ex/cloned/tree/_splitter.pyx:380-468) -/
def run (upd : (Nat → M) → Crit M → Nat → Crit M) (s : (Nat → M) × Crit M) (ops : List (Op M)) :
    (Nat → M) × Crit M := ops.foldl (step upd) s

/-! ### `HonestCMSE` -/

variable {K : Type} [Field K] [LinearOrder K]

/-- the sums of one side: `nt`, `n0`, `yt_sum`, `y0_sum`, `yt_sq_sum`, `y0_sq_sum` (tree_criterion.pyx:64-106) -/
abbrev Stats (K : Type) := Int × Int × K × K × K × K

/-- number of treated samples (tree_criterion.pyx:65) -/
def Stats.nt (s : Stats K) : Int := s.1
/-- number of control samples (tree_criterion.pyx:66) -/
def Stats.n0 (s : Stats K) : Int := s.2.1
/-- sum of the treated outcomes (tree_criterion.pyx:89) -/
def Stats.yt (s : Stats K) : K := s.2.2.1
/-- sum of the control outcomes (tree_criterion.pyx:90) -/
def Stats.y0 (s : Stats K) : K := s.2.2.2.1
/-- sum of the squared treated outcomes (tree_criterion.pyx:83) -/
def Stats.yt2 (s : Stats K) : K := s.2.2.2.2.1
/-- sum of the squared control outcomes (tree_criterion.pyx:84) -/
def Stats.y02 (s : Stats K) : K := s.2.2.2.2.2

/-- one sample `(w, y)`: the weight tells the arm (tree_criterion.pyx:155-163, tree_criterion_lib.cpp:22-30) -/
def contrib (wy : K × K) : Stats K :=
  if 0 < wy.1 then (1, 0, wy.2, 0, wy.2 * wy.2, 0) else (0, 1, 0, wy.2, 0, wy.2 * wy.2)

/-- `node_value` (tree_criterion.pyx:414-418); `eps` is `1e-5` (tree_criterion.pyx:27) -/
def nodeValue (eps : K) (s : Stats K) : K := s.yt / (s.nt + eps) - s.y0 / (s.n0 + eps)

/-- the impurity of one set of samples: `node_impurity` (tree_criterion.pyx:335-346) for the node, `children_impurity`
(tree_criterion.pyx:387-412) for a child; `alpha` is `1e10` (tree_criterion.pyx:28) -/
def impurity (eps alpha : K) (s : Stats K) : K :=
  alpha + 2 * (s.yt2 / (s.nt + eps) - (s.yt / (s.nt + eps)) ^ 2) / (s.nt + eps)
    + 2 * (s.y02 / (s.n0 + eps) - (s.y0 / (s.n0 + eps)) ^ 2) / (s.n0 + eps)
    - (s.yt / (s.nt + eps) - s.y0 / (s.n0 + eps)) ^ 2

/-- `proxy_impurity_improvement` (tree_criterion.pyx:420-427) -/
def proxy (eps alpha : K) (c : Crit (Stats K)) : K :=
  -((c.right.nt + c.right.n0 : Int) : K) * impurity eps alpha c.right
    - ((c.left.nt + c.left.n0 : Int) : K) * impurity eps alpha c.left

/-- `impurity_improvement(parent, left, right)` (tree_criterion.pyx:429-434) with the children's impurities -/
def improvement (eps alpha parent : K) (c : Crit (Stats K)) : K :=
  let n : K := ((c.total.nt + c.total.n0 : Int) : K) + eps
  parent - (((c.right.nt + c.right.n0 : Int) : K) / n * impurity eps alpha c.right)
    - (((c.left.nt + c.left.n0 : Int) : K) / n * impurity eps alpha c.left)

/-! ### `GrfTreeCriterion` -/

/-- one sample `(w, rho)`: its weight and its weighted pseudo outcome (_generalized_forest/tree/_criterion.pyx:388-396,
`_util_lib.cpp`: `sum_rho += w * rho[i]`) -/
def contribGrf (wr : K × K) : K × K := (wr.1, wr.1 * wr.2)

/-- `proxy_impurity_improvement` of the forest's criterion (_generalized_forest/tree/_criterion.pyx:473-490) -/
def proxyGrf (c : Crit (K × K)) : K :=
  c.left.2 * c.left.2 / c.left.1 + c.right.2 * c.right.2 / c.right.1

/-- `children_impurity` of the forest's criterion (_generalized_forest/tree/_criterion.pyx:434-463): the left sum is computed afresh from
`samples[start:pos]` -/
def childrenGrf (f : Nat → K × K) (c : Crit (K × K)) : K × K :=
  let l := (sumUp f c.start c.pos).2
  let r := c.total.2 - l
  (l * l / c.left.1, r * r / c.right.1)

/-- `impurity_improvement` of the forest's criterion (_generalized_forest/tree/_criterion.pyx:492-521) -/
def improvementGrf (f : Nat → K × K) (c : Crit (K × K)) : K :=
  (childrenGrf f c).1 + (childrenGrf f c).2

end YL.Crit
