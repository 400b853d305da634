import Verif.Model.Tree

/-!
# Model of the splitter with random thresholds

`ylearn/sklearn_ex/cloned/tree/_splitter.pyx:572-767` (`RandomSplitter.node_split`), used by
`CausalTree(splitter='random')` and `PolicyTree(splitter='random')`.

Simplifications: as in `Verif.Model.Tree`; the features drawn at a node, each with its random number between 0 and 1
(`our_rand_r / RAND_R_MAX`), are an argument; `Xf` is the column of the feature in the order of the samples.
-/

namespace YL.Rand
open YL.Crit YL.Tree

variable {A K V M : Type} [AddCommGroup M] [Field K] [LinearOrder K]

/-- the loop that finds the least and the greatest value (_splitter.pyx:669-682) -/
def minMax : K × K → List K → K × K
  | b, [] => b
  | b, v :: vs => if v < b.1 then minMax (v, b.2) vs else if b.2 < v then minMax (b.1, v) vs else minMax b vs

/-- `rand_uniform(min, max)`, replaced by the minimum if it is the maximum (_splitter.pyx:693-699, _utils.pyx:70-74) -/
def drawThreshold (b : K × K) (u : K) : K :=
  let t := (b.2 - b.1) * u + b.1
  if t = b.2 then b.1 else t

/-- the partition of the samples, with the final `partition_end` (_splitter.pyx:701-712) -/
def partitionPos (le : A → Bool) : Nat → List A → Nat → Nat → List A × Nat
  | 0, l, _, e => (l, e)
  | fuel + 1, l, p, e =>
    if p < e then
      match l[p]? with
      | some a => if le a then partitionPos le fuel l (p + 1) e else partitionPos le fuel (swapAt l p (e - 1)) p (e - 1)
      | none => (l, e)
    else (l, e)

/-- the variables of the loop over the features (_splitter.pyx:604-624): the samples, the criterion, the best split
and `current.feature` -/
structure RSt (A M K : Type) where
  rows : List A
  crit : Crit M
  best : Option (K × Split K)
  current : Nat

/-- one drawn feature with its random number (_splitter.pyx:667-732) -/
def visitR (P : Params A K) (C : Criterion A M K V) (x : A → Nat → K) (s : RSt A M K) (d : Nat × K) : RSt A M K :=
  match s.rows with
  | [] => { s with current := d.1 }
  | a :: rest =>
    let b := minMax (x a d.1, x a d.1) (rest.map (fun c => x c d.1))
    if b.2 ≤ b.1 + P.thr then { s with current := d.1 }
    else
      let t := drawThreshold b d.2
      let r := partitionPos (fun c => decide (x c d.1 ≤ t)) s.rows.length s.rows 0 s.rows.length
      if r.2 < P.minSamplesLeaf ∨ s.rows.length - r.2 < P.minSamplesLeaf then
        { s with rows := r.1, current := d.1 }
      else
        let c := C.update (reads C.contrib r.1) (reset s.crit) r.2
        if C.weightLeft c < P.minWeightLeaf ∨ C.weightRight c < P.minWeightLeaf then
          { s with rows := r.1, crit := c, current := d.1 }
        else if better (C.proxy c) s.best then ⟨r.1, c, some (C.proxy c, ⟨d.1, r.2, t⟩), d.1⟩
        else { s with rows := r.1, crit := c, current := d.1 }

/-- `RandomSplitter.node_split` for the drawn features (_splitter.pyx:581-767); the samples are partitioned once more
unless the best feature was the last one (734-754). `none`: no split was found. `junk` is the uninitialised
`current.feature`. -/
def randomSplit (P : Params A K) (C : Criterion A M K V) (x : A → Nat → K) (junk : Nat) (ds : List (Nat × K))
    (l : List A) (impurity : K) : Option (Found A K) :=
  let e := ds.foldl (visitR P C x) ⟨l, init (reads C.contrib l) 0 l.length, none, junk⟩
  match e.best with
  | none => none
  | some (_, s) =>
    let rows := if e.current ≠ s.feature then
        partition (fun a => decide (x a s.feature ≤ s.threshold)) e.rows.length e.rows 0 e.rows.length
      else e.rows
    let c' := C.update (reads C.contrib rows) (reset e.crit) s.pos
    let ch := C.children (reads C.contrib rows) c'
    some ⟨s, ch.1, ch.2, C.improvement impurity ch.1 ch.2 c', rows⟩

end YL.Rand
