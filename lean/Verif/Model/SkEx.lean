import Mathlib.Algebra.Order.Field.Basic
import Mathlib.Algebra.Order.Floor.Semiring
import Mathlib.Data.Rat.Floor
import Mathlib.Data.List.Sort
import Verif.Model.MetaLearner

/-!
# Model of `ylearn/sklearn_ex/_transformer.py`

`SafeOrdinalEncoder` and `FeatureImportancesSelectionTransformer._select_feature_by_importance`. NaN is excluded: values have a
lawful equality and importances are elements of a linear order.
-/

namespace YL.SkEx

variable {V K : Type} [DecidableEq V]

/-! ### SafeOrdinalEncoder -/

/-- the array type of the codes (`OrdinalEncoder(dtype=...)`, float64 by default)
(_transformer.py:61-98). -/
inductive CodeType where
  | float
  | int
  deriving DecidableEq

/-- `m = dict(zip(categories, range(unseen)))`: for equal keys the last one counts
(_transformer.py:63). -/
def dictGet (x : V) : Nat → List V → Option Nat
  | _, [] => none
  | i, c :: cs => match dictGet x (i + 1) cs with
    | some j => some j
    | none => if x = c then some i else none

/-- `make_encoder(categories)` applied to one value (_transformer.py:61-65) -/
def encode (categories : List V) (x : V) : Nat := (dictGet x 0 categories).getD categories.length

/-- `transform` of one row (_transformer.py:67-69): column `i` uses `categories_[i]`; more columns than were fitted raise
`IndexError` -/
def transformRow : List (List V) → List V → Except Err (List Nat)
  | _, [] => .ok []
  | [], _ :: _ => .error .index
  | cs :: css, x :: xs => match transformRow css xs with
    | .error e => .error e
    | .ok r => .ok (encode cs x :: r)

/-- `make_decoder(categories, dtype)` applied to one code (_transformer.py:86-98); `default` is the default value of the
column's type. An array cannot be indexed with a float: `IndexError`. -/
def decode (t : CodeType) (default : V) (categories : List V) (x : Int) : Except Err V :=
  if x < categories.length ∧ 0 ≤ x then
    match t, categories[x.toNat]? with
    | .float, _ => .error .index
    | .int, some c => .ok c
    | .int, none => .error .index
  else .ok default

/-- `inverse_transform` of one row (_transformer.py:100-102); the columns come with their default values -/
def inverseRow (t : CodeType) : List (List V × V) → List Int → Except Err (List V)
  | _, [] => .ok []
  | [], _ :: _ => .error .index
  | c :: cs, x :: xs => match decode t c.2 c.1 x, inverseRow t cs xs with
    | .error e, _ => .error e
    | _, .error e => .error e
    | .ok v, .ok r => .ok (v :: r)

/-! ### feature selection -/

/-- the arguments `strategy`, `threshold`, `quantile`, `number` (_transformer.py:198-224) -/
inductive Strategy where
  | threshold
  | quantile
  | number
  | unsupported
  deriving DecidableEq

/-- `number`: an integer, or a float strictly between 0 and 1 (_transformer.py:243-247) -/
inductive Num where
  | count (k : Int)
  | frac (q : Rat)
  deriving DecidableEq

/-- `_detect_strategy` (_transformer.py:198-223): the strategy with the arguments completed -/
def detect (strategy : Option Strategy) (threshold quantile : Option Rat) (number : Option Num) :
    Except Err (Strategy × Option Rat × Option Rat × Option Num) :=
  let s := match strategy with
    | some s => s
    | none => if threshold.isSome then .threshold else if number.isSome then .number else if quantile.isSome then .quantile else .threshold
  match s with
  | .threshold => .ok (s, some (threshold.getD (1 / 10)), quantile, number)
  | .number => .ok (s, threshold, quantile, some (number.getD (.frac (8 / 10))))
  | .quantile => if 0 < quantile.getD (2 / 10) ∧ quantile.getD (2 / 10) < 1 then .ok (s, threshold, some (quantile.getD (2 / 10)), number)
    else .error .assertion
  | .unsupported => .error .value

/-- `np.quantile(l, q)` with linear interpolation (called at _transformer.py:241) -/
def npQuantile (l : List Rat) (q : Rat) : Rat :=
  let s := l.insertionSort (· ≤ ·)
  let h := q * ((l.length : Rat) - 1)
  let lo := ⌊h⌋₊
  let a := s[lo]?.getD 0
  let b := s[lo + 1]?.getD a
  a + (h - lo) * (b - a)

/-- the positions with importance at least `t` (_transformer.py:238, 241) -/
def atLeast (imp : List Rat) (t : Rat) : List Nat :=
  (List.range imp.length).filter (fun i => match imp[i]? with
    | some x => decide (t ≤ x)
    | none => false)

/-- the branch `number` (_transformer.py:243-247); `argsort`, `argsortN` are `np.argsort` on importances and on positions -/
def byNumber (argsort : List Rat → List Nat) (argsortN : List Nat → List Nat) (imp : List Rat) (number : Num) : List Nat :=
  let k : Int := match number with
    | .count k => k
    | .frac q => ⌈(imp.length : Rat) * q⌉
  let pos : Int := imp.length - k
  (List.range imp.length).filter (fun i => match (argsortN (argsort imp))[i]? with
    | some r => decide (pos ≤ (r : Int))
    | none => false)

/-- `_select_feature_by_importance` (_transformer.py:226-254): the positions of the selected features -/
def select (argsort : List Rat → List Nat) (argsortN : List Nat → List Nat) (imp : List Rat) (strategy : Option Strategy)
    (threshold quantile : Option Rat) (number : Option Num) : Except Err (List Nat) :=
  if imp = [] then .error .assertion
  else match detect strategy threshold quantile number with
    | .error e => .error e
    | .ok (.threshold, t, _, _) => .ok (atLeast imp (t.getD 0))
    | .ok (.quantile, _, q, _) => .ok (atLeast imp (npQuantile imp (q.getD 0)))
    | .ok (.number, _, _, k) => .ok (byNumber argsort argsortN imp (k.getD (.count 0)))
    | .ok (.unsupported, _, _, _) => .error .value

end YL.SkEx
