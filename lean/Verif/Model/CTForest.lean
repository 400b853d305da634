import Verif.Model.Forest
import Mathlib.Data.List.Sort
import Mathlib.Data.List.Dedup

/-!
# Model of `CTCausalForest`

`ylearn/estimator_model/causal_tree.py:976-1149` on top of `BaseCausalForest`
(`_generalized_forest/_base_forest.py:281-336, 381-482`) and `CausalTree` (Model/Tree.lean), with
`get_treat_control` (`utils.py:93-112`) and sklearn's `OrdinalEncoder(categories="auto")`.

Simplifications: one outcome; the treatment columns hold numbers (the forest converts them to `float64`,
_base_forest.py:411-412); at least one covariate or adjustment; a query is the row of its features; the sub-samples and the
halves of `train_test_split` are arbitrary; the order in which the threads get the lock is an arbitrary permutation.
-/

namespace YL.CTForest
open YL.Tree YL.Forest

variable {K : Type} [Field K] [LinearOrder K] {n : Nat}

/-- one row of the data before encoding: the values of the treatment columns, the features, the outcome -/
structure Raw (K : Type) where
  x : List K
  wv : Nat → K
  y : K

/-- `categories_` of one column (sklearn: `np.unique`): the values that occur, in ascending order -/
def uniques (l : List K) : List K := l.dedup.insertionSort (· ≤ ·)

/-- `OrdinalEncoder().fit(x).categories_` (causal_tree.py:737-738) for `k` treatment columns -/
def categories (k : Nat) (rows : List (Raw K)) : List (List K) :=
  (List.range k).map (fun j => uniques (rows.map (fun r => r.x.getD j 0)))

/-- `transform` of one value: its place among the categories; other values are refused -/
def encode (cats : List K) (v : K) : Except String Nat :=
  if v ∈ cats then .ok (cats.findIdx (fun c => decide (c = v))) else .error "ValueError: unknown categories"

/-- `transform` of one row (causal_tree.py:739, utils.py:105), column by column -/
def encodeRow : List (List K) → List K → Except String (List Nat)
  | [], [] => .ok []
  | c :: cs, v :: vs => match encode c v with
    | .error e => .error e
    | .ok i => match encodeRow cs vs with
      | .error e => .error e
      | .ok is => .ok (i :: is)
  | _, _ => .error "ValueError: number of columns"

/-- `get_treat_control` (utils.py:93-112): without an argument the codes 1 or 0 of every column -/
def treatControl (cats : List (List K)) (arg : Option (List K)) (treat : Bool) : Except String (List Nat) :=
  match arg with
  | none => .ok (List.replicate cats.length (if treat then 1 else 0))
  | some l => if l.length = cats.length then encodeRow cats l else .error "AssertionError"

/-- the encoded rows (causal_tree.py:739) -/
def encodeRows (cats : List (List K)) : List (Raw K) → Except String (List (Row K))
  | [] => .ok []
  | r :: rs => match encodeRow cats r.x with
    | .error e => .error e
    | .ok x => match encodeRows cats rs with
      | .error e => .error e
      | .ok l => .ok (⟨x, r.wv, r.y⟩ :: l)

/-- the two codes and the encoded rows a tree works with (causal_tree.py:737-747) -/
def prepared (k : Nat) (treat control : Option (List K)) (rows : List (Raw K)) :
    Except String (List Nat × List Nat × List (Row K)) :=
  match encodeRows (categories k rows) rows with
  | .error e => .error e
  | .ok enc => match treatControl (categories k rows) treat true with
    | .error e => .error e
    | .ok t => match treatControl (categories k rows) control false with
      | .error e => .error e
      | .ok c => .ok (t, c, enc)

/-- what differs from tree to tree: the splitter with its random state and the halves of the honest split -/
structure TreeEnv (K : Type) where
  params : Params (Sample K) K
  draw : Nat → List Nat
  halves : K → List (Sample K) → List (Sample K) × List (Sample K)

/-- `CTCausalForest._fit` (causal_tree.py:1070-1095): `CausalTree._fit_with_array` on the rows of the sub-sample -/
def fitTree (E : TreeEnv K) (eps alpha : K) (honest : HonestNum K) (k : Nat) (treat control : Option (List K))
    (rows : List (Raw K)) : Except String (Tree.Fitted K) :=
  match prepared k treat control rows with
  | .error e => .error e
  | .ok (t, c, enc) => match Tree.honestNum honest with
    | .error e => .error e
    | .ok none => .ok (Tree.fit E.params eps alpha E.draw t c none enc)
    | .ok (some share) => .ok (Tree.fit E.params eps alpha E.draw t c (some (E.halves share)) enc)

/-- the new trees, one per sub-sample (_base_forest.py:458-475); `i` is the number of the first one -/
def fitTrees (E : Nat → TreeEnv K) (eps alpha : K) (honest : HonestNum K) (k : Nat) (treat control : Option (List K))
    (rows : Fin n → Raw K) : Nat → List (List (Fin n)) → Except String (List (Tree.Fitted K))
  | _, [] => .ok []
  | i, s :: ss => match fitTree (E i) eps alpha honest k treat control (s.map rows) with
    | .error e => .error e
    | .ok t => match fitTrees E eps alpha honest k treat control rows (i + 1) ss with
      | .error e => .error e
      | .ok ts => .ok (t :: ts)

/-- `CTCausalForest.fit` (causal_tree.py:1050-1068, _base_forest.py:381-482); the forest's own honest sample number is that of
the default `CausalTree()`, `None` (causal_tree.py:1097-1098) -/
def fit (E : Nat → TreeEnv K) (eps alpha : K) (honest : HonestNum K) (S : Settings) (dflt : Nat → Int)
    (draw : Nat → Nat → List (Fin n)) (k : Nat) (treat control : Option (List K)) (rows : Fin n → Raw K)
    (old : Option (List (Tree.Fitted K))) : Except String (List (Tree.Fitted K)) :=
  match subSampleNum dflt n S.subSample with
  | .error e => .error e
  | .ok m =>
    if S.nEstimators ≤ 0 then .error "ValueError: n_estimators must be greater than zero"
    else
      let kept := if S.warmStart then old.getD [] else []
      if S.nEstimators < (kept.length : Int) then .error "ValueError: n_estimators when warm_start"
      else match draws draw m 0 (S.nEstimators - kept.length).toNat with
        | .error e => .error e
        | .ok ss => match fitTrees E eps alpha honest k treat control rows 0 ss with
          | .error e => .error e
          | .ok new => .ok (kept ++ new)

/-- `_accumulate_prediction` (causal_tree.py:976-988): under the lock one tree's predictions are added -/
def addPrediction (qs : List (Nat → K)) (out : List K) (t : Tree.Fitted K) : List K :=
  out.zipWith (· + ·) (qs.map (fun q => (predict t.nodes q).getD 0))

/-- `estimate(data)` (_base_forest.py:321-336, causal_tree.py:1100-1149): `_w` is stored by no method, so without data it is
an exception; `schedule` is the order in which the trees get the lock -/
def estimate (schedule : List (Tree.Fitted K) → List (Tree.Fitted K)) (trees : List (Tree.Fitted K))
    (data : Option (List (Nat → K))) : Except String (List K) :=
  match data with
  | none => .error "AttributeError: _w"
  | some qs => .ok (((schedule trees).foldl (addPrediction qs) (List.replicate qs.length 0)).map
      (fun v => v / (trees.length : K)))

/-- `apply(v)` (_base_forest.py:341-361): passes two positional arguments and `check_input` to a method with keyword-only
arguments `data` and `wv` (causal_tree.py:545) -/
def applyAll (trees : List (Tree.Fitted K)) (_qs : List (Nat → K)) : Except String (List (List Nat)) :=
  match trees with
  | [] => .ok []
  | _ :: _ => .error "TypeError: apply() takes 1 positional argument"

end YL.CTForest
