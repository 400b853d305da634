import Verif.Model.BestFirst
import Mathlib.Data.Matrix.Mul
import Mathlib.Data.List.FinRange

/-!
# Model of the generalized random forest

`ylearn/estimator_model/_generalized_forest/_base_forest.py` (`BaseCausalForest`, base of `GRForest`, the second stage of
`CausalForest`).

Simplifications:
* the training data is a function from `Fin n`; a sub-sample is a list of `Fin n`; the draw (`rd.choice` without
  replacement) is arbitrary, theorems that need it assume that the draw has no duplicates;
* `np.linalg.inv` is an arbitrary function `inv`; theorems that need it assume that it inverts invertible matrices;
* `Parallel` runs the trees in any order; a tree depends on nothing another tree writes, so the result is a map;
* rounding `round(n * share)` is an arbitrary function of `n`.
-/

namespace YL.Forest
open YL.Tree

variable {K : Type} [Field K] [LinearOrder K] {d n : Nat}

/-- A fitted tree of the forest: its nodes and `leaf_record` (_base_forest.py:576-585): the leaf number of every
training row. -/
structure Grown (K : Type) (n : Nat) where
  nodes : List (Node K K)
  record : Fin n → Nat

/-- `leaf_record[idx] = v_pred` (_base_forest.py:576-577), one assignment after the other, starting with
`np.zeros` -/
def assign (leaf : Fin n → Nat) : List (Fin n) → (Fin n → Nat) → Fin n → Nat
  | [], r => r
  | i :: is, r => assign leaf is (Function.update r i (leaf i))

/-- the rows a tree is grown on: the sub-sample, or in honest mode what is left after the first `h` of it
(_base_forest.py:555-570) -/
def growRows (honest : Option Nat) (s : List (Fin n)) : List (Fin n) :=
  match honest with
  | none => s
  | some h => s.drop h

/-- the rows a tree is labelled with: the sub-sample, or in honest mode the first `h` of it (_base_forest.py:560-573) -/
def labelRows (honest : Option Nat) (s : List (Fin n)) : List (Fin n) :=
  match honest with
  | none => s
  | some h => s.take h

/-- `_fit` (_base_forest.py:532-587) -/
def fitOne (E : GrfEnv K d) (g : GrfSettings K) (honest : Option Nat) (weights : Option (Fin n → K))
    (rows : Fin n → GSample K d) (s : List (Fin n)) : Grown K n :=
  let nodes := (grfFit E g (weights.map (fun w => (growRows honest s).map w)) ((growRows honest s).map rows)).1
  { nodes := nodes
    record := assign (fun i => apply nodes (rows i).v) (labelRows honest s) (fun _ => 0) }

/-- `collect_all[leaf]` (_base_forest.py:580-582): the training rows with this leaf number, in order -/
def collected (t : Grown K n) (leaf : Nat) : List (Fin n) := (List.finRange n).filter (fun i => decide (t.record i = leaf))

/-- `_prediction` (_base_forest.py:121-134): the weights one tree gives to the training rows for one query -/
def treeAlpha (t : Grown K n) (q : Nat → K) (i : Fin n) : K :=
  let index := collected t (apply t.nodes q)
  if index.length = 0 then 0
  else if i ∈ index then 1 / (index.length : K) else 0

/-- `_compute_alpha` (_base_forest.py:589-607): the mean over the trees -/
def alpha (trees : List (Grown K n)) (q : Nat → K) (i : Fin n) : K :=
  (trees.map (fun t => treeAlpha t q i)).sum / (trees.length : K)

/-- `(alpha * x).sum(axis=1)` (_base_forest.py:637) -/
def wMean (a : Fin n → K) (x : Fin n → Fin d → K) (k : Fin d) : K := ∑ i, a i * x i k

/-- `x_dif` (_base_forest.py:636-639) -/
def xDif (a : Fin n → K) (x : Fin n → Fin d → K) (i : Fin n) (k : Fin d) : K := x i k - wMean a x k

/-- `grad_` (_base_forest.py:640-643) plus `eps` on the diagonal (utils.py:35-42) -/
def gradient (eps : K) (a : Fin n → K) (x : Fin n → Fin d → K) : Matrix (Fin d) (Fin d) K :=
  Matrix.of (fun j k => (∑ i, a i * (xDif a x i j * xDif a x i k)) + (if j = k then eps else 0))

/-- `theta_` (_base_forest.py:646-648) -/
def thetaNum (a : Fin n → K) (x : Fin n → Fin d → K) (y : Fin n → K) (k : Fin d) : K :=
  ∑ i, (a i * (y i - a i * y i)) * xDif a x i k

/-- `__do_prepare4est` for one query (_base_forest.py:526-530) -/
def effectOf (inv : Matrix (Fin d) (Fin d) K → Matrix (Fin d) (Fin d) K) (eps : K) (a : Fin n → K)
    (x : Fin n → Fin d → K) (y : Fin n → K) : Fin d → K :=
  (inv (gradient eps a x)).mulVec (thetaNum a x y)

/-- a fitted forest: the trees, and the data `_y`, `_x`, `_v` (_base_forest.py:387-388, 477-480) -/
structure Fitted (K : Type) (d n : Nat) where
  trees : List (Grown K n)
  rows : Fin n → GSample K d
  outputs : Nat

/-- the slices `v[i : i + batch_size]` (_base_forest.py:520-523) -/
def batches {B : Type} (size : Nat) : Nat → List B → List (List B)
  | 0, _ => []
  | fuel + 1, l => if l.length = 0 then [] else l.take size :: batches size fuel (l.drop size)

/-- `np.concatenate` (_base_forest.py:524): refuses an empty list of arrays -/
def concatenate {B : Type} (l : List (List B)) : Except String (List B) :=
  if l.length = 0 then .error "ValueError: need at least one array to concatenate" else .ok l.flatten

/-- `__do_prepare4est` for a batch (_base_forest.py:526-530), with the check of `_compute_alpha` (590-593) -/
def batchEffects (inv : Matrix (Fin d) (Fin d) K → Matrix (Fin d) (Fin d) K) (eps : K) (f : Fitted K d n)
    (qs : List (Nat → K)) : Except String (List (Fin d → K)) :=
  if 1 < f.outputs then .error "ValueError: more than one output"
  else .ok (qs.map (fun q => effectOf inv eps (alpha f.trees q) (fun i => (f.rows i).x) (fun i => (f.rows i).y)))

/-- all batches in turn; the first failure ends the comprehension (_base_forest.py:520-523) -/
def allBatches {B C : Type} (g : List B → Except String (List C)) : List (List B) → Except String (List (List C))
  | [] => .ok []
  | b :: bs => match g b with
    | .error e => .error e
    | .ok c => match allBatches g bs with
      | .error e => .error e
      | .ok cs => .ok (c :: cs)

/-- `estimate` (_base_forest.py:321-336, 513-524): `none` is the training data -/
def estimate (inv : Matrix (Fin d) (Fin d) K → Matrix (Fin d) (Fin d) K) (eps : K) (batch : Nat) (f : Fitted K d n)
    (data : Option (List (Nat → K))) : Except String (List (Fin d → K)) :=
  let qs := match data with
    | none => (List.finRange n).map (fun i => (f.rows i).v)
    | some l => l
  match allBatches (batchEffects inv eps f) (batches batch qs.length qs) with
  | .error e => .error e
  | .ok l => concatenate l

/-! ### numbers of samples -/

/-- a setting that may be missing, a count or a share (_base_forest.py:485-497) -/
inductive Size where
  | absent
  | count (m : Int)
  | share (round : Nat → Int)

/-- `_get_sub_samples_num` (_base_forest.py:485-497); `dflt n` is `round(n * 0.85)` -/
def subSampleNum (dflt : Nat → Int) (n : Nat) : Size → Except String Int
  | .absent => .ok (dflt n)
  | .count m => if (n : Int) < m then .error "ValueError: sub_samples_num" else .ok m
  | .share r => .ok (r n)

/-- `_get_honest_samples_num` (_base_forest.py:499-511): the integral branch reads `self.honest_subsample`, which is
never set -/
def honestNum (sub : Nat) : Size → Except String (Option Int)
  | .absent => .ok none
  | .count _ => .error "AttributeError: honest_subsample"
  | .share r => .ok (some (r sub))

/-- `rd.choice(all_idx, size=m, replace=False)` (_base_forest.py:98-101): `draw` is the generator's choice -/
def choice (draw : Nat → List (Fin n)) (m : Int) : Except String (List (Fin n)) :=
  if m < 0 then .error "ValueError: negative dimensions are not allowed"
  else if (n : Int) < m then .error "ValueError: Cannot take a larger sample than population"
  else .ok (draw m.toNat)

/-- the settings of the forest itself (_base_forest.py:138-161) -/
structure Settings where
  nEstimators : Int
  warmStart : Bool
  subSample : Size
  honest : Size

/-- the sub-samples of the new trees, `k` is the number of the first one (_base_forest.py:445-450) -/
def draws (draw : Nat → Nat → List (Fin n)) (m : Int) : Nat → Nat → Except String (List (List (Fin n)))
  | _, 0 => .ok []
  | k, c + 1 => match choice (draw k) m with
    | .error e => .error e
    | .ok s => match draws draw m (k + 1) c with
      | .error e => .error e
      | .ok ss => .ok (s :: ss)

/-- the trees kept from an earlier `fit` (_base_forest.py:424-426) -/
def kept (S : Settings) (old : Option (List (Grown K n))) : List (Grown K n) :=
  if S.warmStart then old.getD [] else []

/-- `_fit_with_array` (_base_forest.py:381-482): `old` are the trees of an earlier `fit` of the same object, if any; a
negative number of honest samples would slice from the end and is left out -/
def fitForest (E : Nat → GrfEnv K d) (g : GrfSettings K) (S : Settings) (dflt : Nat → Int)
    (draw : Nat → Nat → List (Fin n)) (weights : Option (Fin n → K)) (rows : Fin n → GSample K d) (outputs : Nat)
    (old : Option (List (Grown K n))) : Except String (Fitted K d n) :=
  match subSampleNum dflt n S.subSample with
  | .error e => .error e
  | .ok m => match honestNum m.toNat S.honest with
    | .error e => .error e
    | .ok h =>
      if S.nEstimators ≤ 0 then .error "ValueError: n_estimators must be greater than zero"
      else
        if S.nEstimators < ((kept S old).length : Int) then .error "ValueError: n_estimators when warm_start"
        else match draws draw m 0 (S.nEstimators - (kept S old).length).toNat with
          | .error e => .error e
          | .ok ss =>
            .ok ⟨kept S old ++ ss.mapIdx (fun k s => fitOne (E k) g (h.map Int.toNat) weights rows s), rows, outputs⟩

end YL.Forest
