import Mathlib.Algebra.Field.Defs
import Verif.Model.CrossFit
import Verif.Model.MetaLearner

/-!
# Model of `ylearn/estimator_model/doubly_robust.py: DoublyRobust`

One outcome. The base models are arbitrary functions of their training data: `fitX` (with `predict_proba`), `fitY`, `fitV`
(the final model). Numbers are elements of a field (no rounding). The covariates `v` are a function of the row's
`wv`, or absent. Data sets of a single row are outside the model: there `y.squeeze()` (doubly_robust.py:482, 539) has no row axis.
-/

namespace YL.DR

open YL.Meta
open YL.Permuted (Arg)

variable {V W Z K : Type} [LinearOrder V] [Field K]

/-- `_YModelWrapper.predict` of one row (doubly_robust.py:28-39): for every treatment value the model is evaluated at the
same features, because `x[:, i] == 1` is a comparison and not an assignment: the one-hot part stays zero. -/
def yPredict (f : W × List Nat → K) (xd : Nat) (wvx : W × List Nat) : List K :=
  (List.range xd).map (fun _ => f (wvx.1, List.replicate xd 0))

/-- the pseudo-outcome of one row and one treatment value (doubly_robust.py:306-311): `m + (y - m) * (x == 1) / (e + 1e-5)`,
where `x` is the entry of the one-hot vector -/
def yPrime (eps m y e : K) (x : Nat) : K := m + ((y - m) * (if x = 1 then 1 else 0)) / (e + eps)

/-- one row of `y_prime` (doubly_robust.py:304-312): all treatment values -/
def scoreRow (eps y : K) (yhat xhat : List K) (x : List Nat) : List K :=
  List.zipWith (fun (me : K × K) (xi : Nat) => yPrime eps me.1 y me.2 xi) (yhat.zip xhat) x

/-- predictions of all rows; a missing prediction or one with the wrong number of columns does not fit into the result
array (`ValueError`). Broadcasting of a single column is not modelled. (doubly_robust.py:566-586.) -/
def collect (xd : Nat) (preds : List (Option (List K))) : Except Err (List (List K)) :=
  mapE (fun p : Option (List K) => match p with
    | some l => if l.length = xd then .ok l else .error .value
    | none => .error .value) preds

/-- the fitted attributes (assigned at doubly_robust.py:206-321) -/
structure Fitted (V Z K : Type) where
  enc : Encoder V
  treat : Nat
  control : Nat
  xd : Nat
  yprime : List (List K)
  models : Option (List (Z → K))

/-- `y_prime - y_prime_control` for one row (doubly_robust.py:530-531) -/
def subControl (control : Nat) (row : List K) : Except Err (List K) :=
  match row[control]? with
  | none => .error .index
  | some c => .ok (row.map (fun y => y - c))

/-- the one-hot vectors of all rows, their labels, and the first stage predictions (doubly_robust.py:276-300, 474-501) -/
def firstStage (fitX : List (W × Nat) → W → List K) (fitY : List ((W × List Nat) × K) → (W × List Nat → K)) (cfFold : Nat)
    (xd : Nat) (rows : List (Row V W K)) (xs : List (List Nat)) : Except Err (List (List K) × List (List K)) :=
  match CF.crossFit fitX cfFold ((rows.zip xs).map (fun p => (p.1.wv, convert4onehot p.2))) with
  | .error e => .error e
  | .ok px => match CF.crossFit (fun l => yPredict (fitY l) xd) cfFold ((rows.zip xs).map (fun p => ((p.1.wv, p.2), p.1.y))) with
    | .error e => .error e
    | .ok py => match collect xd px, collect xd py with
      | .error e, _ => .error e
      | _, .error e => .error e
      | .ok xh, .ok yh => .ok (xh, yh)

/-- `y_prime` of all rows (doubly_robust.py:304-312) -/
def scores (eps : K) (rows : List (Row V W K)) (xs : List (List Nat)) (xh yh : List (List K)) : List (List K) :=
  ((rows.zip xs).zip (yh.zip xh)).map (fun p => scoreRow eps p.1.1.y p.2.1 p.2.2 p.1.2)

/-- `DoublyRobust.fit` (doubly_robust.py:206-321) with `comp_transormer` (381-424), `_fit_1st_stage` and
`_fit_2nd_stage` (503-544). `comp_transormer` keeps the encoders of an earlier `fit` (`hasattr`). -/
def fit (eps : K) (fitX : List (W × Nat) → W → List K) (fitY : List ((W × List Nat) × K) → (W × List Nat → K))
    (fitV : List (Z × K) → Z → K) (cov : Option (W → Z)) (cfFold : Nat) (lit : Nat → V) (d : Nat) (old : Option (Encoder V))
    (rows : List (Row V W K)) (treat control : Option (Arg V)) : Except Err (Fitted V Z K) :=
  match useEncoder true d old rows with
  | .error e => .error e
  | .ok enc => match encodeRows lit enc rows with
    | .error e => .error e
    | .ok xs => match firstStage fitX fitY cfFold (width enc) rows xs with
      | .error e => .error e
      | .ok (xh, yh) => match getTrCtrl lit enc false control, getTrCtrl lit enc true treat with
        | .error e, _ => .error e
        | _, .error e => .error e
        | .ok c, .ok t => match mapE (subControl c) (scores eps rows xs xh yh) with
          | .error e => .error e
          | .ok yp => .ok ⟨enc, t, c, width enc, yp, cov.map (fun f => (List.range (width enc)).map (fun i =>
              fitV ((rows.zip yp).filterMap (fun p => (p.2[i]?).map (fun k => (f p.1.wv, k))))))⟩

/-- `_prepare4est(all_tr=False, treat=None)` on the training data without covariates (doubly_robust.py:441-472): one effect
per row; `IndexError` if there is no such treatment value -/
def estimateTrain (s : Fitted V Z K) : Except Err (List K) :=
  mapE (fun row : List K => match row[s.treat]? with
    | some k => .ok k
    | none => .error .index) s.yprime

/-- `_prepare4est` for one row of covariates (doubly_robust.py:449-472) -/
def estimateCov (s : Fitted V Z K) (v : Z) : Except Err K :=
  match s.models with
  | none => .error .type
  | some ms => match ms[s.treat]? with
    | some f => .ok (f v)
    | none => .error .index

end YL.DR
