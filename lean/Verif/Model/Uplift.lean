import Mathlib.Algebra.Field.Defs
import Mathlib.Algebra.Order.Group.Unbundled.Abs
import Mathlib.Algebra.BigOperators.Group.List.Basic
import Mathlib.Order.Defs.LinearOrder
import Verif.Model.Nx

/-!
# Model of `ylearn/uplift/_metric.py`

One row of the data frame holds the score of one model, the outcome, the treatment and (if there is one) the true
effect. Numbers live in an ordered field `K`; NaN is `none`. Every score column is processed on its own
(_metric.py:36-45), so a column of scores together with the common columns is a list of rows.
-/

namespace YL.Uplift

/-- one row of `df[[col] + common_columns]` (_metric.py:26-40) -/
structure Row (S τ K : Type) where
  score : S
  y : K
  x : τ
  effect : K
  deriving DecidableEq

variable {S τ K : Type} [LinearOrder S] [DecidableEq τ] [Field K] [LinearOrder K]

/-- `Series.cumsum()` (called at _metric.py:110-113, 122, 150-153, 167-168) -/
def cumsum (a : K) : List K → List K
  | [] => []
  | b :: l => (a + b) :: cumsum (a + b) l

/-- `a / b` on float columns: `0 / 0` is NaN. (In all uses below `b` is a count of rows and `a` is a sum over those
rows, so that `a = 0` whenever `b = 0` and no infinity appears.) (_metric.py:115, 122, 155, 168) -/
def div (a b : K) : Option K := if b = 0 then none else some (a / b)

/-- subtraction with NaN (_metric.py:115, 155) -/
def sub : Option K → Option K → Option K
  | some a, some b => some (a - b)
  | _, _ => none

/-- multiplication of a column with NaN by numbers (_metric.py:130, 138, 155, 168) -/
def mulc : Option K → K → Option K
  | some a, b => some (a * b)
  | none, _ => none

/-- `df_col.index`: 1, ..., n (_metric.py:38) -/
def index (rows : List (Row S τ K)) : List K := (List.range' 1 rows.length).map (fun (i : Nat) => (i : K))

/-- `__x_tr__` (_metric.py:110, 150): number of treated rows so far -/
def xTr (treat : τ) (rows : List (Row S τ K)) : List K := cumsum 0 (rows.map (fun r => if r.x = treat then 1 else 0))

/-- `__x_ct__` (_metric.py:111, 151): `index - __x_tr__` -/
def xCt (treat : τ) (rows : List (Row S τ K)) : List K := List.zipWith (· - ·) (index rows) (xTr treat rows)

/-- `__y_tr__`, `__y_ct__` (_metric.py:112-113, 152-153): sum of the outcome over the rows of one arm so far -/
def yArm (arm : τ) (rows : List (Row S τ K)) : List K := cumsum 0 (rows.map (fun r => r.y * (if r.x = arm then 1 else 0)))

/-- `set(df_col[self.treatment].unique()) == {self.treat, self.control}` (_metric.py:105, 145, 162) -/
def armsOk (treat control : τ) (rows : List (Row S τ K)) : Bool :=
  rows.all (fun r => r.x = treat ∨ r.x = control) && rows.any (fun r => r.x = treat) && rows.any (fun r => r.x = control)

/-- The curves of the module. (the classes at _metric.py:103-170.) -/
inductive Kind where
  | lift | gain | qini
  deriving DecidableEq

/-- `cumulate_column` of the six cumulators (_metric.py:103-170); `trueEffect` selects the `...WithTrueEffect` classes.
`AssertionError` unless exactly the two arms occur (the lift and gain of true effects do not check). -/
def column (kind : Kind) (trueEffect : Bool) (treat control : τ) (rows : List (Row S τ K)) : Except Err (List (Option K)) :=
  let cumEffect := cumsum 0 (rows.map (·.effect))
  match kind, trueEffect with
  | .lift, true => .ok (List.zipWith div cumEffect (index rows))
  | .gain, true => .ok (List.zipWith mulc (List.zipWith div cumEffect (index rows)) (index rows))
  | .qini, true => if armsOk treat control rows then
      .ok (List.zipWith mulc (List.zipWith div cumEffect (index rows)) (xTr treat rows)) else .error .assertion
  | .lift, false => if armsOk treat control rows then
      .ok (List.zipWith sub (List.zipWith div (yArm treat rows) (xTr treat rows))
        (List.zipWith div (yArm control rows) (xCt treat rows))) else .error .assertion
  | .gain, false => if armsOk treat control rows then
      .ok (List.zipWith mulc (List.zipWith sub (List.zipWith div (yArm treat rows) (xTr treat rows))
        (List.zipWith div (yArm control rows) (xCt treat rows))) (index rows)) else .error .assertion
  | .qini, false => if armsOk treat control rows then
      .ok (List.zipWith sub ((yArm treat rows).map some)
        (List.zipWith div (List.zipWith (· * ·) (yArm control rows) (xTr treat rows)) (xCt treat rows)))
      else .error .assertion

/-- The last valid value strictly before position `i`, with its position.
(inside `Series.interpolate`, called at _metric.py:48). -/
def prevValid (l : List (Option K)) : Nat → Option (Nat × K)
  | 0 => none
  | i + 1 => match l[i]? with
    | some (some v) => some (i, v)
    | _ => prevValid l i

/-- The first valid value at or after the position of the head, which is `i`.
(inside `Series.interpolate`, called at _metric.py:48). -/
def nextValid : List (Option K) → Nat → Option (Nat × K)
  | [], _ => none
  | some v :: _, i => some (i, v)
  | none :: l, i => nextValid l (i + 1)

/-- `Series.interpolate()` (linear, forward): NaN between two valid values is replaced by linear interpolation, NaN
after the last valid value by that value, NaN before the first valid value stays.
(called at _metric.py:48). -/
def interpAt (l : List (Option K)) (i : Nat) : Option K :=
  match l[i]? with
  | some (some v) => some v
  | _ => match prevValid l i, nextValid (l.drop (i + 1)) (i + 1) with
    | some (p, a), some (q, b) => some (a + (b - a) * ((i - p : Nat) : K) / ((q - p : Nat) : K))
    | some (_, a), none => some a
    | none, _ => none

/-- `Series.interpolate()` (called at _metric.py:48) -/
def interpolate (l : List (Option K)) : List (Option K) := (List.range l.length).map (interpAt l)

/-- `r.idxmax(axis=0, skipna=True)` as a position: the first valid entry of maximal value
(called at _metric.py:43). -/
def idxmax : List (Option K) → Option (Nat × K)
  | [] => none
  | a :: l => match a, idxmax l with
    | none, none => none
    | none, some (i, v) => some (i + 1, v)
    | some u, none => some (0, u)
    | some u, some (i, v) => if v ≤ u then some (0, u) else some (i + 1, v)

/-- `cumulate(df)` for one score column (_metric.py:26-50), `sort` being `sort_values(col, ascending=False)`, whose
order on ties is not specified: the curve (row 0 is zero) and the score at the top point. -/
def cumulate (sort : List (Row S τ K) → List (Row S τ K)) (kind : Kind) (trueEffect : Bool) (treat control : τ)
    (rows : List (Row S τ K)) : Except Err (List (Option K) × S) :=
  let sorted := sort rows
  match column kind trueEffect treat control sorted with
  | .error e => .error e
  | .ok r => match (idxmax r).bind (fun m => sorted[m.1]?) with
    | none => .error .key
    | some top => .ok (interpolate (some 0 :: r), top.score)

/-- `gain.div(np.abs(gain.iloc[-1, :]), axis=1)` (_metric.py:199-200, 220-221) for one column; a zero at the end gives
infinities and NaN in pandas, here NaN throughout -/
def normalize (curve : List (Option K)) : List (Option K) :=
  match curve.getLast? with
  | some (some z) => curve.map (fun v => v.bind (fun a => div a |z|))
  | _ => curve.map (fun _ => none)

/-- `get_cumlift`, `get_gain`, `get_qini` for one score column (_metric.py:173-240) -/
def getCurve (sort : List (Row S τ K) → List (Row S τ K)) (kind : Kind) (trueEffect : Bool) (treat control : τ)
    (norm : Bool) (rows : List (Row S τ K)) : Except Err (List (Option K) × S) :=
  match cumulate sort kind trueEffect treat control rows with
  | .error e => .error e
  | .ok r => .ok (if norm then normalize r.1 else r.1, r.2)

/-- row `k` of `result_random.mean(axis=1)` (_metric.py:57): mean of the curves of the random score columns, NaN skipped -/
def randomAt (curves : List (List (Option K))) (k : Nat) : Option K :=
  let vals := curves.filterMap (fun r => (r[k]?).join)
  div vals.sum ((vals.length : Nat) : K)

/-- `result[self.random_name]` (_metric.py:51-58), all curves having the length of the first -/
def randomColumn (curves : List (List (Option K))) : List (Option K) :=
  match curves with
  | [] => []
  | r :: _ => (List.range r.length).map (randomAt curves)

/-- sum of a column; NaN is skipped by `sum()` (called at _metric.py:248, 261, 264) -/
def colSum (l : List (Option K)) : K := (l.map (fun v => v.getD 0)).sum

/-- `auuc_score` of one column (_metric.py:243-250): `gain.sum() / len(gain)` -/
def auuc (curve : List (Option K)) : K := colSum curve / ((curve.length : Nat) : K)

/-- `qini_score` of one column, given the RANDOM column (_metric.py:253-267) -/
def qiniScore (curve random : List (Option K)) : K := (colSum curve - colSum random) / ((curve.length : Nat) : K)

end YL.Uplift
