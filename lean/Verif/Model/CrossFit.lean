import Verif.Model.Nx

/-!
# Model of cross fitting and of the partition of a forest into jobs

`ylearn/estimator_model/double_ml.py: DoubleML._cross_fit`, `ylearn/estimator_model/doubly_robust.py:
DoublyRobust._cross_fit`, sklearn's `KFold` without shuffling, `ylearn/estimator_model/utils.py:
_partition_estimators`. A machine learning model is an arbitrary function from training data to a predictor of rows
(deterministic; prediction works row by row).
-/

namespace YL.CF

/-- `np.full(k, n // k)` with the first `n % k` entries increased by one (estimator_model/utils.py:15-16 and sklearn's `KFold`) -/
def sizes (n k : Nat) : List Nat := (List.range k).map (fun i => if i < n % k then n / k + 1 else n / k)

/-- the consecutive test blocks of `KFold._iter_test_indices` from position `cur` on
(called at double_ml.py:405, doubly_robust.py:291). -/
def foldTests : Nat → List Nat → List (List Nat)
  | _, [] => []
  | cur, s :: ss => List.range' cur s :: foldTests (cur + s) ss

/-- `KFold(n_splits=k).split(x)` for `n` rows: pairs (train, test); `ValueError` for `k ≤ 1` and for more folds than rows
(called at double_ml.py:405, doubly_robust.py:291). -/
def kfold (n k : Nat) : Except Err (List (List Nat × List Nat)) :=
  if k ≤ 1 ∨ n < k then .error .value
  else .ok ((foldTests 0 (sizes n k)).map (fun t => ((List.range n).filter (fun i => i ∉ t), t)))

variable {D T P : Type}

/-- the rows with the given positions, `args[0][train_id]`
(double_ml.py:701-710, doubly_robust.py:566-586). -/
def pick {α : Type} (data : List α) (idx : List Nat) : List α := idx.filterMap (fun i => data[i]?)

/-- `fitted_result["paras"][0][test_id] = model_.predict(wv[test_id])` after `model_.fit(wv[train_id],
target[train_id])` (double_ml.py:701-710, doubly_robust.py:566-586); `paras` maps a row to its prediction, `none` is NaN -/
def foldStep (fit : List (D × T) → D → P) (data : List (D × T)) (paras : Nat → Option P) (f : List Nat × List Nat) : Nat → Option P :=
  fun i => if i ∈ f.2 then (data[i]?).map (fun d => fit (pick data f.1) d.1) else paras i

/-- `_cross_fit` (double_ml.py:672-714, doubly_robust.py:546-591) called from `fit` with `cf_fold` folds
(double_ml.py:401-405, doubly_robust.py:284-290): predictions for all rows. `cf_fold ≤ 1` means one model for all rows,
evaluated on its own training rows. -/
def crossFit (fit : List (D × T) → D → P) (cfFold : Nat) (data : List (D × T)) : Except Err (List (Option P)) :=
  if 1 < cfFold then
    match kfold data.length cfFold with
    | .error e => .error e
    | .ok folds => .ok ((List.range data.length).map (folds.foldl (foldStep fit data) (fun _ => none)))
  else .ok (data.map (fun d => some (fit data d.1)))

/-- `np.cumsum` after a leading 0 (estimator_model/utils.py:17-19) -/
def starts (l : List Nat) : List Nat := l.scanl (· + ·) 0

/-- `_partition_estimators(n_estimators, n_jobs)` (estimator_model/utils.py:9-19); `eff` is `effective_n_jobs(n_jobs)`, at least 1. With
no estimators Python raises `ZeroDivisionError`. -/
def partitionEstimators (n eff : Nat) : Except Err (Nat × List Nat × List Nat) :=
  let jobs := min eff n
  if jobs = 0 then .error .exception
  else .ok (jobs, sizes n jobs, starts (sizes n jobs))

end YL.CF
