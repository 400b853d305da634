import Verif.Model.Criterion

/-!
# Model of tree growing and of `CausalTree`

`ylearn/sklearn_ex/cloned/tree/_splitter.pyx` (`Splitter.init`, `BestSplitter.node_split`), `_tree.pyx`
(`DepthFirstTreeBuilder.build`, `Tree._add_node`, `apply`, `predict`) and
`ylearn/estimator_model/causal_tree.py` (`_fit_with_array`, `_assign_honest_values`, `estimate`).

Simplifications:
* a node's segment `samples[start:end]` is a list of samples carried in the stack record (`node_split` permutes only
  its own segment, and the segments of the records on the stack are disjoint), so positions are relative to `start`;
* which features `node_split` draws at the node with a given id is an arbitrary list (the random draws and the
  bookkeeping of constant features are not part of this model);
* `sort` is an arbitrary function (introsort in the code) and so is the rounded midpoint of two floats; theorems
  assume that `sort` sorts and that the midpoint lies between its arguments;
* floats are elements of an ordered field, without infinities and NaN; `None` stands for the initial `-INFINITY`.
-/

namespace YL.Tree
open YL.Crit

variable {A K V M : Type} [AddCommGroup M] [Field K] [LinearOrder K]

/-- What the splitter and the builder use of a criterion (sklearn_ex/cloned/tree/_criterion.pyx; its methods are called in
_splitter.pyx:166-212, 376-447 and _tree.pyx:225-263). -/
structure Criterion (A M K V : Type) where
  /-- what one sample adds to the sums -/
  contrib : A → M
  /-- `update(new_pos)` -/
  update : (Nat → M) → Crit M → Nat → Crit M
  /-- `node_value` from the sums of the node -/
  value : M → V
  /-- `node_impurity` from the sums of the node -/
  nodeImpurity : M → K
  /-- `weighted_n_node_samples` -/
  weight : List A → K
  /-- `weighted_n_left` -/
  weightLeft : Crit M → K
  /-- `weighted_n_right` -/
  weightRight : Crit M → K
  /-- `proxy_impurity_improvement()` -/
  proxy : Crit M → K
  /-- `children_impurity` -/
  children : (Nat → M) → Crit M → K × K
  /-- `impurity_improvement(parent, left, right)` -/
  improvement : K → K → K → Crit M → K

/-- The parameters of the splitter and the builder (_splitter.pyx:56-100, _tree.pyx:144-152), with the constants
`EPSILON` (_tree.pyx:68) and `FEATURE_THRESHOLD` (_splitter.pyx:40), the sorting routine (_splitter.pyx:458-463) and the
midpoint `a / 2.0 + b / 2.0` (_splitter.pyx:417). -/
structure Params (A K : Type) where
  minSamplesSplit : Nat
  minSamplesLeaf : Nat
  minWeightLeaf : K
  maxDepth : Nat
  minDecrease : K
  eps : K
  thr : K
  sort : (A → K) → List A → List A
  mid : K → K → K

/-- `SplitRecord` without the impurities (_splitter.pxd, `_init_split`, _splitter.pyx:48-54) -/
structure Split (K : Type) where
  feature : Nat
  pos : Nat
  threshold : K
  deriving DecidableEq

/-- the criterion reads sample `p` of the segment (tree_criterion.pyx:148-166) -/
def reads (g : A → M) (l : List A) (p : Nat) : M :=
  match l[p]? with
  | some a => g a
  | none => 0

/-- `Xf[p]` after the copy of one feature (_splitter.pyx:361-363) -/
def value (x : A → Nat → K) (f : Nat) (l : List A) (p : Nat) : K :=
  match l[p]? with
  | some a => x a f
  | none => 0

/-- `while p + 1 < end and Xf[p + 1] <= Xf[p] + FEATURE_THRESHOLD: p += 1` (_splitter.pyx:382-384) -/
def skipTies (thr : K) (xs : Nat → K) (n : Nat) : Nat → Nat → Nat
  | 0, p => p
  | fuel + 1, p => if p + 1 < n ∧ xs (p + 1) ≤ xs p + thr then skipTies thr xs n fuel (p + 1) else p

/-- the threshold for a cut before position `p` (_splitter.pyx:417-422), without infinities -/
def threshold (mid : K → K → K) (xs : Nat → K) (p : Nat) : K :=
  let t := mid (xs (p - 1)) (xs p)
  if t = xs p then xs (p - 1) else t

/-- `current_proxy_improvement > best_proxy_improvement` (_splitter.pyx:414); `none` is `-INFINITY` -/
def better (s : K) : Option (K × Split K) → Bool
  | none => true
  | some b => decide (b.1 < s)

/-- `while p < end: ...`: all cuts along one sorted feature (_splitter.pyx:380-424) -/
def scan (P : Params A K) (C : Criterion A M K V) (x : A → Nat → K) (f : Nat) (l : List A) :
    Nat → Nat → Crit M → Option (K × Split K) → Crit M × Option (K × Split K)
  | 0, _, c, best => (c, best)
  | fuel + 1, p, c, best =>
    if p < l.length then
      let q := skipTies P.thr (value x f l) l.length l.length p + 1
      if q < l.length then
        if q < P.minSamplesLeaf ∨ l.length - q < P.minSamplesLeaf then scan P C x f l fuel q c best
        else
          let c' := C.update (reads C.contrib l) c q
          if C.weightLeft c' < P.minWeightLeaf ∨ C.weightRight c' < P.minWeightLeaf then
            scan P C x f l fuel q c' best
          else if better (C.proxy c') best then
            scan P C x f l fuel q c' (some (C.proxy c', ⟨f, q, threshold P.mid (value x f l) q⟩))
          else scan P C x f l fuel q c' best
      else scan P C x f l fuel q c best
    else (c, best)

/-- one drawn feature: sort the samples, skip a constant feature, else evaluate all cuts (_splitter.pyx:354-424) -/
def visit (P : Params A K) (C : Criterion A M K V) (x : A → Nat → K)
    (st : List A × Crit M × Option (K × Split K)) (f : Nat) : List A × Crit M × Option (K × Split K) :=
  let l := P.sort (fun a => x a f) st.1
  if value x f l (l.length - 1) ≤ value x f l 0 + P.thr then (l, st.2.1, st.2.2)
  else (l, scan P C x f l l.length 0 (reset st.2.1) st.2.2)

/-- `samples[i], samples[j] = samples[j], samples[i]` (_splitter.pyx:438) -/
def swapAt (l : List A) (i j : Nat) : List A :=
  match l[i]?, l[j]? with
  | some a, some b => (l.set i b).set j a
  | _, _ => l

/-- the reorganisation of the samples around the threshold (_splitter.pyx:427-438) -/
def partition (le : A → Bool) : Nat → List A → Nat → Nat → List A
  | 0, l, _, _ => l
  | fuel + 1, l, p, e =>
    if p < e then
      match l[p]? with
      | some a => if le a then partition le fuel l (p + 1) e else partition le fuel (swapAt l p (e - 1)) p (e - 1)
      | none => l
    else l

/-- what `node_split` returns: the best split, the impurities of the children, the improvement and the new order of
the samples (_splitter.pyx:440-456) -/
structure Found (A K : Type) where
  split : Split K
  impurityLeft : K
  impurityRight : K
  improvement : K
  rows : List A

/-- `BestSplitter.node_split` for the drawn features `feats` (_splitter.pyx:266-456); `none`: no cut was found, the
record keeps `pos = end` -/
def nodeSplit (P : Params A K) (C : Criterion A M K V) (x : A → Nat → K) (feats : List Nat) (l : List A)
    (impurity : K) : Option (Found A K) :=
  match feats.foldl (visit P C x) (l, init (reads C.contrib l) 0 l.length, none) with
  | (_, _, none) => none
  | (l', c, some (_, s)) =>
    let rows := partition (fun a => decide (x a s.feature ≤ s.threshold)) l'.length l' 0 l'.length
    let c' := C.update (reads C.contrib rows) (reset c) s.pos
    let ch := C.children (reads C.contrib rows) c'
    some ⟨s, ch.1, ch.2, C.improvement impurity ch.1 ch.2 c', rows⟩

/-- A node of the tree (_tree.pxd `Node`); `none` is `TREE_LEAF` (_tree.pyx:776-818) -/
structure Node (K V : Type) where
  left : Option Nat
  right : Option Nat
  feature : Nat
  threshold : K
  impurity : K
  samples : Nat
  value : V
  deriving DecidableEq

/-- `StackRecord` (_tree.pyx:130-138) with the samples of the segment -/
structure Rec (A K : Type) where
  rows : List A
  depth : Nat
  parent : Option Nat
  isLeft : Bool
  impurity : K

/-- the child registers itself at its parent (_tree.pyx:799-803) -/
def link (nodes : List (Node K V)) (parent : Option Nat) (isLeft : Bool) (id : Nat) : List (Node K V) :=
  match parent with
  | none => nodes
  | some p => if isLeft then nodes.modify p (fun n => { n with left := some id })
      else nodes.modify p (fun n => { n with right := some id })

/-- the stopping rules checked before the split (_tree.pyx:227-237) -/
def stops (P : Params A K) (C : Criterion A M K V) (r : Rec A K) : Bool :=
  decide (P.maxDepth ≤ r.depth) || decide (r.rows.length < P.minSamplesSplit) ||
    decide (r.rows.length < 2 * P.minSamplesLeaf) || decide (C.weight r.rows < 2 * P.minWeightLeaf) ||
    decide (r.impurity ≤ P.eps)

/-- the split the builder uses at a record, if any (_tree.pyx:227-251) -/
def splitOf (P : Params A K) (C : Criterion A M K V) (x : A → Nat → K) (draw : Nat → List Nat) (id : Nat)
    (r : Rec A K) : Option (Found A K) :=
  if stops P C r then none
  else match nodeSplit P C x (draw id) r.rows r.impurity with
    | none => none
    | some s => if s.improvement + P.eps < P.minDecrease then none else some s

/-- the value stored for a node: `node_value` of the sums of its segment (_tree.pyx:263, tree_criterion.pyx:414-418) -/
def nodeVal (C : Criterion A M K V) (l : List A) : V :=
  C.value (init (reads C.contrib l) 0 l.length).total

/-- one round of the builder's loop (_tree.pyx:211-290): the new nodes and what is pushed -/
def round (P : Params A K) (C : Criterion A M K V) (x : A → Nat → K) (draw : Nat → List Nat)
    (nodes : List (Node K V)) (r : Rec A K) : List (Node K V) × List (Rec A K) :=
  let id := nodes.length
  match splitOf P C x draw id r with
  | none => (link nodes r.parent r.isLeft id ++ [⟨none, none, 0, 0, r.impurity, r.rows.length, nodeVal C r.rows⟩], [])
  | some s =>
    (link nodes r.parent r.isLeft id ++
      [⟨none, none, s.split.feature, s.split.threshold, r.impurity, r.rows.length, nodeVal C r.rows⟩],
     [⟨s.rows.take s.split.pos, r.depth + 1, some id, true, s.impurityLeft⟩,
      ⟨s.rows.drop s.split.pos, r.depth + 1, some id, false, s.impurityRight⟩])

/-- `while not builder_stack.empty()` (_tree.pyx:211-290); the third component is `max_depth_seen` -/
def loop (P : Params A K) (C : Criterion A M K V) (x : A → Nat → K) (draw : Nat → List Nat) :
    Nat → List (Node K V) → List (Rec A K) → Nat → List (Node K V) × Nat
  | 0, nodes, _, d => (nodes, d)
  | _ + 1, nodes, [], d => (nodes, d)
  | fuel + 1, nodes, r :: stack, d =>
    loop P C x draw fuel (round P C x draw nodes r).1 ((round P C x draw nodes r).2 ++ stack) (max d r.depth)

/-- `Splitter.init`: only samples with a nonzero weight are used (_splitter.pyx:146-165) -/
def active (w : A → K) (train : List A) : List A := train.filter (fun a => decide (w a ≠ 0))

/-- `DepthFirstTreeBuilder.build` (_tree.pyx:154-294): the nodes and `tree.max_depth` -/
def build (P : Params A K) (C : Criterion A M K V) (x : A → Nat → K) (w : A → K) (draw : Nat → List Nat)
    (train : List A) : List (Node K V) × Nat :=
  let l := active w train
  loop P C x draw (2 * l.length + 1) []
    [⟨l, 0, none, false, C.nodeImpurity (init (reads C.contrib l) 0 l.length).total⟩] 0

/-- the walk of one sample from a node on (_tree.pyx:857-864) -/
def walk (nodes : List (Node K V)) (q : Nat → K) : Nat → Nat → Nat
  | 0, i => i
  | fuel + 1, i =>
    match nodes[i]? with
    | none => i
    | some n =>
      match n.left, n.right with
      | some l, some r => if q n.feature ≤ n.threshold then walk nodes q fuel l else walk nodes q fuel r
      | _, _ => i

/-- `apply` for one sample (_tree.pyx:823-868) -/
def apply (nodes : List (Node K V)) (q : Nat → K) : Nat := walk nodes q nodes.length 0

/-- `predict` for one sample (_tree.pyx:820-826) -/
def predict (nodes : List (Node K V)) (q : Nat → K) : Option V := (nodes[apply nodes q]?).map (fun n => n.value)

/-! ### `CausalTree` -/

/-- A sample of `CausalTree`: its features, its weight (1 treated, 0 control) and its outcome
(causal_tree.py:755-766). -/
structure Sample (K : Type) where
  x : Nat → K
  w : K
  y : K

/-- `HonestCMSE` as the splitter and builder see it (tree_criterion.pyx:113-434): it never sets `weighted_n_left` and
`weighted_n_right`, which stay 0; `eps`, `alpha` are its constants (tree_criterion.pyx:27-28). -/
def honestCMSE (eps alpha : K) : Criterion (Sample K) (Stats K) K K where
  contrib a := contrib (a.w, a.y)
  update := update
  value := nodeValue eps
  nodeImpurity := impurity eps alpha
  weight l := (l.map (fun a => a.w)).sum
  weightLeft _ := 0
  weightRight _ := 0
  proxy := proxy eps alpha
  children _ c := (impurity eps alpha c.left, impurity eps alpha c.right)
  improvement parent _ _ c := improvement eps alpha parent c

/-- One row of the data after encoding: treatment codes, features, outcome (causal_tree.py:728-753). -/
structure Row (K : Type) where
  x : List Nat
  wv : Nat → K
  y : K

/-- the rows of the two arms with their weight (causal_tree.py:757-763) -/
def arms (treat control : List Nat) (rows : List (Row K)) : List (Sample K) :=
  (rows.filter (fun r => decide (r.x = treat) || decide (r.x = control))).map
    (fun r => ⟨r.wv, if r.x = treat then 1 else 0, r.y⟩)

/-- mean of a list of outcomes (causal_tree.py:446) -/
def mean (l : List K) : K := l.sum / ((l.length : Nat) : K)

/-- one round of `_assign_honest_values` (causal_tree.py:439-449) -/
def honestLeaf (nodes : List (Node K K)) (test : List (Sample K)) (vals : List (Node K K)) (leaf : Nat) :
    List (Node K K) :=
  let sub := test.filter (fun a => decide (apply nodes a.x = leaf))
  let tr := (sub.filter (fun a => decide (a.w = 1))).map (fun a => a.y)
  let ctrl := (sub.filter (fun a => decide (a.w = 0))).map (fun a => a.y)
  if tr.length = 0 ∨ ctrl.length = 0 then vals
  else vals.modify leaf (fun n => { n with value := mean tr - mean ctrl })

/-- `_assign_honest_values(tree, wv, y, x)` (causal_tree.py:435-449): the leaves that held-out samples reach -/
def honestValues (nodes : List (Node K K)) (test : List (Sample K)) : List (Node K K) :=
  ((test.map (fun a => apply nodes a.x)).dedup).foldl (honestLeaf nodes test) nodes

/-- The `honest_subsample_num` argument (causal_tree.py:496-516). -/
inductive HonestNum (K : Type) where
  | none
  | int (n : Int)
  | real (r : K)

/-- `_get_honest_samples_num` (causal_tree.py:496-516): for an integer the code reads `self.honest_subsample`, an
attribute that no method sets -/
def honestNum : HonestNum K → Except String (Option K)
  | .none => .ok none
  | .int _ => .error "AttributeError"
  | .real r => if 1 ≤ r ∨ r < 0 then .error "ValueError" else .ok (some r)

/-- a fitted `CausalTree`: the tree, its depth and the features of the rows kept for `estimate()`
(causal_tree.py:776, 890-973) -/
structure Fitted (K : Type) where
  nodes : List (Node K K)
  depth : Nat
  wv : List (Nat → K)

/-- `_fit_with_array` (causal_tree.py:726-973) for given codes of the arms. `honest` is the result of
`train_test_split` (arbitrary), `none` without honest estimation. -/
def fit (P : Params (Sample K) K) (eps alpha : K) (draw : Nat → List Nat) (treat control : List Nat)
    (honest : Option (List (Sample K) → List (Sample K) × List (Sample K))) (rows : List (Row K)) : Fitted K :=
  let s := arms treat control rows
  match honest with
  | none =>
    let t := build P (honestCMSE eps alpha) (fun a => a.x) (fun a => a.w) draw s
    ⟨t.1, t.2, s.map (fun a => a.x)⟩
  | some h =>
    let t := build P (honestCMSE eps alpha) (fun a => a.x) (fun a => a.w) draw (h s).1
    ⟨honestValues t.1 (h s).2, t.2, s.map (fun a => a.x)⟩

/-- the `quantity` argument of `estimate` (causal_tree.py:401-417) -/
inductive Quantity where
  | ate
  | cate
  | other
  deriving DecidableEq

/-- `estimate(data, quantity)` (causal_tree.py:401-430): the mean is computed and dropped -/
def estimate (t : Fitted K) (data : Option (List (Nat → K))) (quantity : Quantity) : Option (List (Option K)) :=
  let effect := (data.getD t.wv).map (predict t.nodes)
  if quantity = .ate ∨ quantity = .cate then none else some effect

end YL.Tree
