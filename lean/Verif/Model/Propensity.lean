import Verif.Model.CrossFit
import Verif.Model.MetaLearner
import Mathlib.Algebra.Field.Defs

/-!
# Model of the first stage with a classifier: `DoubleML._cross_fit` (double_ml.py 672-714) and the treatment part of
`DoublyRobust._cross_fit` (doubly_robust.py 546-591)

A row is its features and the code of its arm (`convert4onehot` of the one-hot treatment, double_ml.py:681). A classifier is an arbitrary
function: training rows, features of a row, class to probability. Like every sklearn classifier it knows the classes that occur in its
training rows, and `predict_proba` has one column for each of them in increasing order.
-/

namespace YL.Prop

open YL YL.CF YL.Meta

variable {W K : Type}

/-- one row of `model_.predict_proba` (double_ml.py:706, doubly_robust.py:572) -/
def proba (clf : List (W × Nat) → W → Nat → K) (train : List (W × Nat)) (w : W) : List K :=
  (uniq (train.map (·.2))).map (clf train w)

/-- numpy's assignment of a row of predictions to a row with `k` places, `paras[0][test_id] = target_predict`: the row itself, a single
column repeated, otherwise the shapes do not fit (double_ml.py:709, doubly_robust.py:585) -/
def widen (k : Nat) (row : List K) : Except Err (List K) :=
  if row.length = k then .ok row
  else match row with
    | [p] => .ok (List.replicate k p)
    | _ => .error .value

/-- the number of columns fits: `k`, or 1 (double_ml.py:709) -/
def fits (k : Nat) (train : List (W × Nat)) : Bool :=
  decide ((uniq (train.map (·.2))).length = k) || decide ((uniq (train.map (·.2))).length = 1)

/-- the loop over the folds (double_ml.py:698-710): a fold whose predictions do not fit raises `ValueError`. All rows of a fold have the
same number of columns. -/
def loop (clf : List (W × Nat) → W → Nat → K) (k : Nat) (data : List (W × Nat)) :
    List (List Nat × List Nat) → (Nat → Option (List K)) → Except Err (Nat → Option (List K))
  | [], paras => .ok paras
  | f :: l, paras =>
    if fits k (pick data f.1) then
      loop clf k data l (fun i => if i ∈ f.2 then
        (data[i]?).map (fun d => ((widen k (proba clf (pick data f.1) d.1)).toOption).getD []) else paras i)
    else .error .value

/-- the estimated probabilities of the `k` arms (the columns of the one-hot treatment) for every row: `_cross_fit` of the treatment model
and the `reshape` after it (double_ml.py:403-414, 672-714; doubly_robust.py:286-300). Without folds the predictions are reshaped to `k`
columns, which fails if there are not that many. -/
def crossProba (clf : List (W × Nat) → W → Nat → K) (k cfFold : Nat) (data : List (W × Nat)) : Except Err (List (Option (List K))) :=
  if 1 < cfFold then
    match kfold data.length cfFold with
    | .error e => .error e
    | .ok folds => match loop clf k data folds (fun _ => none) with
      | .error e => .error e
      | .ok paras => .ok ((List.range data.length).map paras)
  else if (uniq (data.map (·.2))).length = k then .ok (data.map (fun d => some (proba clf data d.1)))
  else .error .value

/-- the first fold of `_cross_fit` for one discrete outcome with `proba_output=True` (double_ml.py:290, 684-685, 698, 706-709): the place
for the predictions is a vector, the predictions of `m` test rows have one column per class. numpy drops leading axes of length 1
only, so this fits for one row and one class. -/
def outcomeFold (classes m : Nat) : Except Err Unit := if m = 1 ∧ classes = 1 then .ok () else .error .value

/-- the folds of `_cross_fit` for the outcome (double_ml.py:700-710) -/
def outcomeLoop (data : List (W × Nat)) : List (List Nat × List Nat) → Except Err Unit
  | [] => .ok ()
  | f :: l => match outcomeFold (uniq ((pick data f.1).map (·.2))).length f.2.length with
    | .error e => .error e
    | .ok _ => outcomeLoop data l

/-- `_cross_fit` of the outcome model with `proba_output=True` and `cf_fold ≥ 2` (double_ml.py:403-411, 672-714): whether it raises -/
def crossOutcome (cfFold : Nat) (data : List (W × Nat)) : Except Err Unit := match kfold data.length cfFold with
  | .error e => .error e
  | .ok folds => outcomeLoop data folds

end YL.Prop
