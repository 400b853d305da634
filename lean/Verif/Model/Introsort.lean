import Verif.Model.Tree

/-!
# Model of the sorting routine of the tree splitter

`ylearn/sklearn_ex/cloned/tree/_splitter.pyx:458-570`. The two arrays `Xf` and `samples` are always swapped together, so
they are one array of samples `a : Nat → A` with a key. Pointers into the array are offsets: `Xf + r` is `base + r`.

Simplifications: `float` keys are elements of a linear order (no NaN); `maxd` is an arbitrary number; loops carry fuel,
which the theorems show to suffice.
-/

namespace YL.Sort

variable {A K : Type} [LinearOrder K]

/-- `swap` (_splitter.pyx:467-471) -/
def swap (a : Nat → A) (i j : Nat) : Nat → A :=
  fun k => if k = i then a j else if k = j then a i else a k

/-- `median3` (_splitter.pyx:474-492) -/
def median3 (a b c : K) : K :=
  if a < b then
    if b < c then b
    else if a < c then c
    else a
  else if b < c then
    if a < c then a
    else c
  else b

/-- the three-way partition (_splitter.pyx:512-523): array, `l`, `r` -/
def partition3 (key : A → K) (pivot : K) (base : Nat) : Nat → (Nat → A) → Nat → Nat → Nat → (Nat → A) × Nat × Nat
  | 0, a, _, l, r => (a, l, r)
  | fuel + 1, a, i, l, r =>
    if i < r then
      if key (a (base + i)) < pivot then
        partition3 key pivot base fuel (swap a (base + i) (base + l)) (i + 1) (l + 1) r
      else if pivot < key (a (base + i)) then
        partition3 key pivot base fuel (swap a (base + i) (base + (r - 1))) i l (r - 1)
      else partition3 key pivot base fuel a (i + 1) l r
    else (a, l, r)

/-- the index of the largest of root, left child, right child (_splitter.pyx:538-544) -/
def maxInd (key : A → K) (base : Nat) (a : Nat → A) (root stop : Nat) : Nat :=
  let child := root * 2 + 1
  let m := if child < stop ∧ key (a (base + root)) < key (a (base + child)) then child else root
  if child + 1 < stop ∧ key (a (base + m)) < key (a (base + (child + 1))) then child + 1 else m

/-- `sift_down` (_splitter.pyx:530-550) -/
def siftDown (key : A → K) (base : Nat) : Nat → (Nat → A) → Nat → Nat → Nat → A
  | 0, a, _, _ => a
  | fuel + 1, a, root, stop =>
    let m := maxInd key base a root stop
    if m = root then a
    else siftDown key base fuel (swap a (base + root) (base + m)) m stop

/-- the heapify loop (_splitter.pyx:557-563), `start` counting down to 0 -/
def heapify (key : A → K) (base n : Nat) : Nat → (Nat → A) → Nat → A
  | 0, a => siftDown key base n a 0 n
  | start + 1, a => heapify key base n start (siftDown key base n a (start + 1) n)

/-- the shrinking loop (_splitter.pyx:566-570), `end` counting down to 0 -/
def shrink (key : A → K) (base n : Nat) : Nat → (Nat → A) → Nat → A
  | 0, a => a
  | stop + 1, a => shrink key base n stop (siftDown key base n (swap a base (base + (stop + 1))) 0 (stop + 1))

/-- `heapsort` (_splitter.pyx:553-570) -/
def heapsort (key : A → K) (a : Nat → A) (base n : Nat) : Nat → A :=
  shrink key base n (n - 1) (heapify key base n ((n - 2) / 2) a)

/-- `introsort` (_splitter.pyx:497-527): the loop continues with the upper part, the recursive call sorts the lower part;
both get the decreased `maxd` -/
def introsort (key : A → K) : Nat → (Nat → A) → Nat → Nat → Nat → A
  | 0, a, base, n => if 1 < n then heapsort key a base n else a
  | maxd + 1, a, base, n =>
    if 1 < n then
      let pivot := median3 (key (a base)) (key (a (base + n / 2))) (key (a (base + (n - 1))))
      let p := partition3 key pivot base n a 0 0 n
      introsort key maxd (introsort key maxd p.1 base p.2.1) (base + p.2.2) (n - p.2.2)
    else a

/-- `sort` (_splitter.pyx:460-464) of a list of samples -/
def sortList (key : A → K) (maxd : Nat → Nat) : List A → List A
  | [] => []
  | x :: xs =>
    let n := xs.length + 1
    (List.range n).map (introsort key (maxd n) (fun k => (x :: xs).getD k x) 0 n)

/-! ### the parameters of the splitter as they are in the code -/

/-- `current.threshold` (_splitter.pyx:416-423): the sum of the halves, replaced by the lower value if it is rounded to
the upper one -/
def codeMid [Field K] (a b : K) : K := if a / 2 + b / 2 = b then a else a / 2 + b / 2

/-- the splitter's parameters with its own sorting routine and thresholds (_splitter.pyx:276-296, 366, 416-423) -/
def codeParams [Field K] (maxd : Nat → Nat) (mss msl md : Nat) (mwl dec eps thr : K) : Tree.Params A K where
  minSamplesSplit := mss
  minSamplesLeaf := msl
  minWeightLeaf := mwl
  maxDepth := md
  minDecrease := dec
  eps := eps
  thr := thr
  sort g l := sortList g maxd l
  mid := codeMid

end YL.Sort
