import Verif.Model.Tree
import Verif.Model.Introsort

/-!
# Model of how the splitter draws features

`ylearn/sklearn_ex/cloned/tree/_splitter.pyx:266-456` (`BestSplitter.node_split`) with its bookkeeping of constant
features, and `_tree.pyx:154-294` (`DepthFirstTreeBuilder.build`) with the arrays `features` and `constant_features` that
all nodes share. `Verif.Model.Tree` takes the drawn features of a node as an argument; here they are drawn as in the
code.

Simplifications: as in `Verif.Model.Tree`; the arrays are functions from indices; the random number generator is an
arbitrary sequence `rand` of numbers, of which `tick` have been used.
-/

namespace YL.Draw
open YL.Crit YL.Tree

variable {A K V M : Type} [AddCommGroup M] [Field K] [LinearOrder K]

/-- `Xf[end - 1] <= Xf[start] + FEATURE_THRESHOLD` after the samples are sorted along `f` (_splitter.pyx:361-367) -/
def looksConstant (P : Params A K) (x : A → Nat → K) (l : List A) (f : Nat) : Bool :=
  let m := P.sort (fun a => x a f) l
  decide (value x f m (m.length - 1) ≤ value x f m 0 + P.thr)

/-- the variables of the loop over the features (_splitter.pyx:285-311); `work` holds the samples, the criterion and the
best split so far -/
structure DrawSt (A M K : Type) where
  features : Nat → Nat
  drawn : Nat
  found : Nat
  fi : Nat
  visited : Nat
  work : List A × Crit M × Option (K × Split K)

/-- the condition of the loop (_splitter.pyx:326-330); `known + found` is `n_total_constants` -/
def goesOn (maxFeatures known : Nat) (s : DrawSt A M K) : Bool :=
  decide (known + s.found < s.fi) &&
    (decide (s.visited < maxFeatures) || decide (s.visited ≤ s.found + s.drawn))

/-- one round of the loop (_splitter.pyx:332-424) with the random number `r`; `rand_int(low, high)` is
`low + r % (high - low)` (_utils.pyx:64-67) -/
def drawStep (P : Params A K) (C : Criterion A M K V) (x : A → Nat → K) (known r : Nat) (s : DrawSt A M K) :
    DrawSt A M K :=
  let fj := s.drawn + r % (s.fi - s.found - s.drawn)
  if fj < known then
    { s with features := Sort.swap s.features s.drawn fj, drawn := s.drawn + 1, visited := s.visited + 1 }
  else
    let j := fj + s.found
    let f := s.features j
    if looksConstant P x s.work.1 f then
      { s with features := Sort.swap s.features j (known + s.found), found := s.found + 1, visited := s.visited + 1,
               work := visit P C x s.work f }
    else
      { s with features := Sort.swap s.features (s.fi - 1) j, fi := s.fi - 1, visited := s.visited + 1,
               work := visit P C x s.work f }

/-- the loop (_splitter.pyx:326-424): the used random numbers and the final variables -/
def drawLoop (P : Params A K) (C : Criterion A M K V) (x : A → Nat → K) (maxFeatures known : Nat) (rand : Nat → Nat) :
    Nat → Nat → DrawSt A M K → Nat × DrawSt A M K
  | 0, tick, s => (tick, s)
  | fuel + 1, tick, s =>
    if goesOn maxFeatures known s then
      drawLoop P C x maxFeatures known rand fuel (tick + 1) (drawStep P C x known (rand tick) s)
    else (tick, s)

/-- after the loop: the samples are reorganised around the best split (_splitter.pyx:427-447) -/
def finish (P : Params A K) (C : Criterion A M K V) (x : A → Nat → K)
    (work : List A × Crit M × Option (K × Split K)) (impurity : K) : Option (Found A K) :=
  match work with
  | (_, _, none) => none
  | (l', c, some (_, s)) =>
    let rows := partition (fun a => decide (x a s.feature ≤ s.threshold)) l'.length l' 0 l'.length
    let c' := C.update (reads C.contrib rows) (reset c) s.pos
    let ch := C.children (reads C.contrib rows) c'
    some ⟨s, ch.1, ch.2, C.improvement impurity ch.1 ch.2 c', rows⟩

/-- what the nodes share: the two arrays of the splitter and the state of the random numbers (_splitter.pxd) -/
structure Shared where
  features : Nat → Nat
  constants : Nat → Nat
  tick : Nat

/-- the variables before the loop (_splitter.pyx:285-311, 166-196) -/
def startDraw (C : Criterion A M K V) (n : Nat) (g : Shared) (l : List A) : DrawSt A M K :=
  ⟨g.features, 0, 0, n, 0, (l, init (reads C.contrib l) 0 l.length, none)⟩

/-- `node_split(impurity, split, n_constant_features)` (_splitter.pyx:266-456) for `n` features: the split, the new
number of constant features and the shared arrays, restored as in lines 449-453 -/
def nodeSplitD (P : Params A K) (C : Criterion A M K V) (x : A → Nat → K) (n maxFeatures known : Nat)
    (rand : Nat → Nat) (g : Shared) (l : List A) (impurity : K) : Option (Found A K) × Nat × Shared :=
  let e := drawLoop P C x maxFeatures known rand (known + n) g.tick (startDraw C n g l)
  let features := fun k => if k < known then g.constants k else e.2.features k
  let constants := fun k => if known ≤ k ∧ k < known + e.2.found then features k else g.constants k
  (finish P C x e.2.work impurity, known + e.2.found, ⟨features, constants, e.1⟩)

/-- the node of a record and what is pushed (_tree.pyx:239-290) -/
def place (P : Params A K) (C : Criterion A M K V) (nodes : List (Node K V)) (r : Rec A K) (known : Nat)
    (found : Option (Found A K)) : List (Node K V) × List (Rec A K × Nat) :=
  let id := nodes.length
  let leaf := (link nodes r.parent r.isLeft id ++ [⟨none, none, 0, 0, r.impurity, r.rows.length, nodeVal C r.rows⟩], [])
  match found with
  | none => leaf
  | some s =>
    if s.improvement + P.eps < P.minDecrease then leaf
    else
      (link nodes r.parent r.isLeft id ++
        [⟨none, none, s.split.feature, s.split.threshold, r.impurity, r.rows.length, nodeVal C r.rows⟩],
       [(⟨s.rows.take s.split.pos, r.depth + 1, some id, true, s.impurityLeft⟩, known),
        (⟨s.rows.drop s.split.pos, r.depth + 1, some id, false, s.impurityRight⟩, known)])

/-- one round of the builder's loop (_tree.pyx:211-290); a record carries its `n_constant_features` -/
def roundD (P : Params A K) (C : Criterion A M K V) (x : A → Nat → K) (n maxFeatures : Nat) (rand : Nat → Nat)
    (nodes : List (Node K V)) (g : Shared) (r : Rec A K × Nat) :
    (List (Node K V) × List (Rec A K × Nat)) × Shared :=
  if stops P C r.1 then (place P C nodes r.1 r.2 none, g)
  else
    let e := nodeSplitD P C x n maxFeatures r.2 rand g r.1.rows r.1.impurity
    (place P C nodes r.1 e.2.1 e.1, e.2.2)

/-- `while not builder_stack.empty()` (_tree.pyx:211-290) -/
def loopD (P : Params A K) (C : Criterion A M K V) (x : A → Nat → K) (n maxFeatures : Nat) (rand : Nat → Nat) :
    Nat → List (Node K V) → List (Rec A K × Nat) → Nat → Shared → List (Node K V) × Nat
  | 0, nodes, _, d, _ => (nodes, d)
  | _ + 1, nodes, [], d, _ => (nodes, d)
  | fuel + 1, nodes, r :: stack, d, g =>
    let e := roundD P C x n maxFeatures rand nodes g r
    loopD P C x n maxFeatures rand fuel e.1.1 (e.1.2 ++ stack) (max d r.1.depth) e.2

/-- `Splitter.init` (_splitter.pyx:166-172): `features[i] = i`; `constant_features` is not initialised (`junk`) -/
def shared0 (junk : Nat → Nat) : Shared := ⟨fun k => k, junk, 0⟩

/-- `DepthFirstTreeBuilder.build` (_tree.pyx:154-294) for data with `n` features -/
def buildD (P : Params A K) (C : Criterion A M K V) (x : A → Nat → K) (w : A → K) (n maxFeatures : Nat)
    (rand junk : Nat → Nat) (train : List A) : List (Node K V) × Nat :=
  let l := active w train
  loopD P C x n maxFeatures rand (2 * l.length + 1) []
    [(⟨l, 0, none, false, C.nodeImpurity (init (reads C.contrib l) 0 l.length).total⟩, 0)] 0 (shared0 junk)

end YL.Draw
