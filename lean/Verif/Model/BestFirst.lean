import Verif.Model.Tree
import Mathlib.Algebra.BigOperators.Fin

/-!
# Model of best-first tree growing and of `GrfTree`

`ylearn/sklearn_ex/cloned/tree/_tree.pyx` (`BestFirstTreeBuilder`),
`ylearn/estimator_model/_generalized_forest/tree/_tree.pyx`, `_splitter.pyx`, `_criterion.pyx`, `_util_lib.cpp`,
`_grf_tree.py` (`GrfTree`).

Simplifications, besides those of `Verif.Model.Tree`:
* the binary heap (`push_heap`, `pop_heap` of the C++ library) is an arbitrary function `pick` that names the record to
  be popped; theorems that need it assume that a record with the largest improvement is popped;
* the criterion may depend on the samples of the node (the pseudo outcomes `rho` are computed per node), so it is a
  function of the rows of the node;
* the least squares solver (`eigen_solve`) and the pseudo inverse (`eigen_pinv`) are arbitrary functions.
-/

namespace YL.Tree
open YL.Crit

variable {A K V M : Type} [AddCommGroup M] [Field K] [LinearOrder K]

/-- `FrontierRecord` (_tree.pxd, _tree.pyx:304-318): the node, its segment, and its split unless `is_leaf` -/
structure Front (A K : Type) where
  id : Nat
  seg : Rec A K
  split : Option (Found A K)

/-- `record.improvement` (_tree.pyx:524-540): 0 for a leaf -/
def Front.improvement (f : Front A K) : K :=
  match f.split with
  | none => 0
  | some s => s.improvement

/-- `_add_split_node` (_tree.pyx:461-541): the nodes with the new one, and its record -/
def addSplitNode (P : Params A K) (C : List A → Criterion A M K V) (x : A → Nat → K) (draw : Nat → List Nat)
    (nodes : List (Node K V)) (r : Rec A K) : List (Node K V) × Front A K :=
  let id := nodes.length
  match splitOf P (C r.rows) x draw id r with
  | none =>
    (link nodes r.parent r.isLeft id ++
      [⟨none, none, 0, 0, r.impurity, r.rows.length, nodeVal (C r.rows) r.rows⟩], ⟨id, r, none⟩)
  | some s =>
    (link nodes r.parent r.isLeft id ++
      [⟨none, none, s.split.feature, s.split.threshold, r.impurity, r.rows.length, nodeVal (C r.rows) r.rows⟩],
     ⟨id, r, some s⟩)

/-- `node.left_child = _TREE_LEAF; ...` (_tree.pyx:415-420) -/
def setLeaf (nodes : List (Node K V)) (id : Nat) : List (Node K V) :=
  nodes.modify id (fun n => { n with left := none, right := none, feature := 0, threshold := 0 })

/-- the children of an expanded record: the two nodes are added one after the other (_tree.pyx:428-450) -/
def expand (P : Params A K) (C : List A → Criterion A M K V) (x : A → Nat → K) (draw : Nat → List Nat)
    (nodes : List (Node K V)) (f : Front A K) (s : Found A K) : List (Node K V) × Front A K × Front A K :=
  let l := addSplitNode P C x draw nodes ⟨s.rows.take s.split.pos, f.seg.depth + 1, some f.id, true, s.impurityLeft⟩
  let r := addSplitNode P C x draw l.1 ⟨s.rows.drop s.split.pos, f.seg.depth + 1, some f.id, false, s.impurityRight⟩
  (r.1, l.2, r.2)

/-- `while not frontier.empty()` (_tree.pyx:404-458): nodes, frontier, `max_split_nodes`, `max_depth_seen` -/
def frontLoop (P : Params A K) (C : List A → Criterion A M K V) (x : A → Nat → K) (draw : Nat → List Nat)
    (pick : List (Front A K) → Nat) :
    Nat → List (Node K V) → List (Front A K) → Nat → Nat → List (Node K V) × Nat
  | 0, nodes, _, _, d => (nodes, d)
  | fuel + 1, nodes, front, splits, d =>
    match front[pick front]? with
    | none => (nodes, d)
    | some f =>
      let rest := front.eraseIdx (pick front)
      match f.split, splits with
      | some s, k + 1 =>
        let e := expand P C x draw nodes f s
        frontLoop P C x draw pick fuel e.1 (e.2.1 :: e.2.2 :: rest) k (max d f.seg.depth)
      | _, _ => frontLoop P C x draw pick fuel (setLeaf nodes f.id) rest splits (max d f.seg.depth)

/-- `BestFirstTreeBuilder._build_tree` (_tree.pyx:368-458): the nodes and `tree.max_depth`. The sample weights are not
handed to the splitter (_tree.pyx:346-366 and _generalized_forest/tree/_tree.pyx:16-35), so all rows are used. -/
def buildBest (P : Params A K) (C : List A → Criterion A M K V) (x : A → Nat → K) (draw : Nat → List Nat)
    (pick : List (Front A K) → Nat) (maxLeaf : Nat) (train : List A) : List (Node K V) × Nat :=
  let root : Rec A K := ⟨train, 0, none, true,
    (C train).nodeImpurity (init (reads (C train).contrib train) 0 train.length).total⟩
  let a := addSplitNode P C x draw [] root
  frontLoop P C x draw pick (2 * maxLeaf + 1) a.1 [a.2] (maxLeaf - 1) 0

/-! ### `GrfTree` -/

/-- A sample of the forest: covariates, treatment vector, outcome (_grf_tree.py:261-297). -/
structure GSample (K : Type) (d : Nat) where
  v : Nat → K
  x : Fin d → K
  y : K

variable {d : Nat}

/-- `mean_tr` (_util_lib.cpp:122-136); the weight of every sample is 1, as `sample_weight` is `NULL` -/
def meanTr (rows : List (GSample K d)) (k : Fin d) : K := (rows.map (fun a => a.x k)).sum / (rows.length : K)

/-- `mean_sum` (_util_lib.cpp:138-141) -/
def meanOut (rows : List (GSample K d)) : K := (rows.map (fun a => a.y)).sum / (rows.length : K)

/-- `grad` with the ridge term (_util_lib.cpp:163-187); `ridge` is `1e-7` -/
def gradMat (ridge : K) (rows : List (GSample K d)) (j k : Fin d) : K :=
  (rows.map (fun a => (a.x j - meanTr rows j) * (a.x k - meanTr rows k) / (rows.length : K))).sum +
    (if j = k then ridge else 0)

/-- `grad_coef_ik`: the residual of the local regression (_util_lib.cpp:153-162) for the coefficients `beta` -/
def residual (beta : Fin d → K) (rows : List (GSample K d)) (a : GSample K d) : K :=
  a.y - meanOut rows - ∑ k, (a.x k - meanTr rows k) * beta k

/-- `rho[i]` (_util_lib.cpp:166-212): `solve` is `eigen_solve`, `pinv` is `eigen_pinv` -/
def rho (ridge : K) (solve : List (GSample K d) → Fin d → K) (pinv : (Fin d → Fin d → K) → Fin d → Fin d → K)
    (rows : List (GSample K d)) (a : GSample K d) : K :=
  ∑ k, ∑ j, pinv (gradMat ridge rows) j k * ((a.x j - meanTr rows j) * residual (solve rows) rows a)

/-- the part of the sums the criterion's formulas use: `weighted_n`, `sum_rho` (_criterion.pyx:76-103) -/
def rhoPart (m : K × K × K) : K × K := (m.1, m.2.1)

/-- the same for both sides (_criterion.pyx:76-103) -/
def rhoSides (c : Crit (K × K × K)) : Crit (K × K) :=
  ⟨c.start, c.stop, c.pos, rhoPart c.total, rhoPart c.left, rhoPart c.right⟩

/-- `GrfTreeCriterion` with given pseudo outcomes, as splitter and builder see it (_criterion.pyx:66-521): the sums are
`weighted_n`, `sum_rho` and `sum_total`; the impurity of a root is 1 (_criterion.pyx:418-434) -/
def grfCriterion (r : GSample K d → K) : Criterion (GSample K d) (K × K × K) K K where
  contrib a := ((contribGrf (1, r a)).1, (contribGrf (1, r a)).2, a.y)
  update := updateGrf
  value m := m.2.2 / m.1
  nodeImpurity _ := 1
  weight l := (l.length : K)
  weightLeft c := c.left.1
  weightRight c := c.right.1
  proxy c := proxyGrf (rhoSides c)
  children f c := childrenGrf (fun p => rhoPart (f p)) (rhoSides c)
  improvement _ l r _ := l + r

/-- the settings of `GrfTree` that reach the builder, as given by the user (_grf_tree.py:188-214) -/
structure GrfSettings (K : Type) where
  maxDepth : Option Nat
  minSamplesSplit : Nat
  minSamplesLeaf : Nat
  maxLeafNodes : Option Nat
  minDecrease : K
  minWeightFraction : K

/-- the parameters the splitter and the builder get (_grf_tree.py:299-346, 351-372); integral `min_samples_*`;
`bigDepth` is `np.iinfo(np.int32).max`; the arguments after it are those of `Params` that are no settings -/
def grfParams (g : GrfSettings K) (bigDepth : Nat) (eps thr : K)
    (sort : (GSample K d → K) → List (GSample K d) → List (GSample K d)) (mid : K → K → K)
    (weights : Option (List K)) (n : Nat) : Params (GSample K d) K where
  minSamplesSplit := max g.minSamplesSplit (2 * g.minSamplesLeaf)
  minSamplesLeaf := g.minSamplesLeaf
  minWeightLeaf := match weights with
    | none => g.minWeightFraction * (n : K)
    | some w => g.minWeightFraction * w.sum
  maxDepth := g.maxDepth.getD bigDepth
  minDecrease := g.minDecrease
  eps := eps
  thr := thr
  sort := sort
  mid := mid

/-- what is not a setting of a `GrfTree`: floating point constants, the sorting routine, the solvers, the features drawn
at each node and the order of the heap (_grf_tree.py:348-374) -/
structure GrfEnv (K : Type) (d : Nat) where
  bigDepth : Nat
  eps : K
  thr : K
  ridge : K
  sort : (GSample K d → K) → List (GSample K d) → List (GSample K d)
  mid : K → K → K
  solve : List (GSample K d) → Fin d → K
  pinv : (Fin d → Fin d → K) → Fin d → Fin d → K
  draw : Nat → List Nat
  pick : List (Front (GSample K d) K) → Nat

/-- `GrfTree._fit_with_array` (_grf_tree.py:261-381): the tree -/
def grfFit (E : GrfEnv K d) (g : GrfSettings K) (weights : Option (List K)) (rows : List (GSample K d)) :
    List (Node K K) × Nat :=
  buildBest (grfParams g E.bigDepth E.eps E.thr E.sort E.mid weights rows.length)
    (fun l => grfCriterion (rho E.ridge E.solve E.pinv l)) (fun a => a.v) E.draw E.pick (g.maxLeafNodes.getD 1000) rows

end YL.Tree
