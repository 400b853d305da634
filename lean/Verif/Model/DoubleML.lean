import Mathlib.Algebra.Field.Defs
import Verif.Model.CrossFit
import Verif.Model.MetaLearner

/-!
# Model of `ylearn/estimator_model/double_ml.py: DoubleML`

One outcome, `proba_output=False`, no transformers. The base models are arbitrary functions of their training data; the
final model returns a list of coefficients. Numbers are elements of a field (no rounding). `cov` gives the covariates `v`
of a row as a function of its `wv`; it is `none` when only adjustment variables are given.
-/

namespace YL.DML

open YL.Meta
open YL.Permuted (Arg)

variable {V W K : Type} [LinearOrder V] [Field K]

/-- scalar product (the product of double_ml.py:500-538) -/
def dot (a b : List K) : K := (List.zipWith (· * ·) a b).sum

/-- `nd_kron` for one row (estimator_model/utils.py:129-134) -/
def kron (x v : List K) : List K := x.flatMap (fun xi => v.map (fun vj => xi * vj))

/-- `_cal_x_prime` for one row (double_ml.py:790-793) -/
def xPrime (x xh v : List K) : List K := kron (List.zipWith (· - ·) x xh) (1 :: v)

/-- row `i` of `coef_vec.reshape(-1, v_d)` (double_ml.py:651-663) -/
def coefRow (coef : List K) (vd i : Nat) : List K := (coef.drop (i * vd)).take vd

/-- `_prepare4est` for one row (double_ml.py:602-663): the vector `f_i` for the treatments `i < xd` -/
def fij (coef : List K) (xd : Nat) (v : List K) : List K :=
  (List.range xd).map (fun i => dot (coefRow coef (v.length + 1) i) (1 :: v))

/-- a prediction that does not exist or has the wrong number of columns cannot be reshaped
(double_ml.py:701-710). -/
def collectX (xd : Nat) (preds : List (Option (List K))) : Except Err (List (List K)) :=
  mapE (fun p : Option (List K) => match p with
    | some l => if l.length = xd then .ok l else .error .value
    | none => .error .value) preds

/-- the predictions of the outcome (double_ml.py:701-710) -/
def collectY (preds : List (Option K)) : Except Err (List K) :=
  mapE (fun p : Option K => match p with
    | some k => .ok k
    | none => .error .value) preds

/-- steps 3 and 4 of `fit` (double_ml.py:421-427): the coefficients of the final model. Without covariates `v.shape`
raises `AttributeError` (modelled as `Err.type`). -/
def secondStage (fitR : List (List K) → List K → List K) (cov : Option (W → List K)) (ws : List W) (xs xh : List (List K))
    (ys yh : List K) : Except Err (List K) :=
  match cov with
  | none => .error .type
  | some f => .ok (fitR (((ws.zip xs).zip xh).map (fun p => xPrime p.1.2 p.2 (f p.1.1))) (List.zipWith (· - ·) ys yh))

/-- `DoubleML.fit` (double_ml.py:327-431) for a continuous treatment with `xd` columns -/
def fitCont (fitX : List (W × List K) → W → List K) (fitY : List (W × K) → W → K) (fitR : List (List K) → List K → List K)
    (cov : Option (W → List K)) (cfFold xd : Nat) (rows : List (W × List K × K)) : Except Err (List K) :=
  match CF.crossFit fitX cfFold (rows.map (fun r => (r.1, r.2.1))), CF.crossFit fitY cfFold (rows.map (fun r => (r.1, r.2.2))) with
  | .error e, _ => .error e
  | _, .error e => .error e
  | .ok px, .ok py => match collectX xd px, collectY py with
    | .error e, _ => .error e
    | _, .error e => .error e
    | .ok xh, .ok yh => secondStage fitR cov (rows.map (·.1)) (rows.map (·.2.1)) xh (rows.map (·.2.2)) yh

/-- `DoubleML.fit` for a discrete treatment (double_ml.py:389-431, comp_transormer 540-580): the encoders and the
coefficients. The treatment model is trained on labels and predicts probabilities. `comp_transormer` keeps the encoders of an
earlier `fit` (`_is_fitted`). -/
def fitDisc (fitX : List (W × Nat) → W → List K) (fitY : List (W × K) → W → K) (fitR : List (List K) → List K → List K)
    (cov : Option (W → List K)) (cfFold : Nat) (lit : Nat → V) (d : Nat) (old : Option (Encoder V)) (rows : List (Row V W K)) :
    Except Err (Encoder V × List K) :=
  match useEncoder true d old rows with
  | .error e => .error e
  | .ok enc => match encodeRows lit enc rows with
    | .error e => .error e
    | .ok xs =>
      match CF.crossFit fitX cfFold ((rows.zip xs).map (fun p => (p.1.wv, convert4onehot p.2))),
        CF.crossFit fitY cfFold (rows.map (fun r => (r.wv, r.y))) with
      | .error e, _ => .error e
      | _, .error e => .error e
      | .ok px, .ok py => match collectX (width enc) px, collectY py with
        | .error e, _ => .error e
        | _, .error e => .error e
        | .ok xh, .ok yh =>
          match secondStage fitR cov (rows.map (·.wv)) (xs.map (fun x => x.map (fun n : Nat => (n : K)))) xh (rows.map (·.y)) yh with
          | .error e => .error e
          | .ok coef => .ok (enc, coef)

/-- `estimate` for a discrete treatment and one row (double_ml.py:433-538). `stored` is `self.treat` of an earlier call:
the position of the treated value, which is taken for a value again. Returns the effect and the new `self.treat`. Arms given
as numpy arrays are not modelled. -/
def estDisc (lit : Nat → V) (enc : Encoder V) (coef : List K) (stored : Option Nat) (v : List K) (treat control : Option (Arg V)) :
    Except Err (K × Option Nat) :=
  let treat' := match treat, stored with
    | none, some t => some (Arg.one (lit t))
    | a, _ => a
  match getTrCtrl lit enc true treat', getTrCtrl lit enc false control with
  | .error e, _ => .error e
  | _, .error e => .error e
  | .ok t, .ok c => match (fij coef (width enc) v)[t]?, (fij coef (width enc) v)[c]? with
    | some ft, some fc => .ok (ft - fc, some t)
    | _, _ => .error .index

/-- `estimate` for a continuous treatment, one row and scalar arms (double_ml.py:490-520) -/
def estCont (coef : List K) (xd : Nat) (stored : Option K) (v : List K) (treat control : Option K) : List K × Option K :=
  let t := match treat, stored with
    | some t, _ => t
    | none, some t => t
    | none, none => 1
  let c := control.getD 0
  ((fij coef xd v).map (fun f => f * (t - c)), some t)

/-- the answers to a sequence of calls of `estimate` with a discrete treatment on one row
(repeated calls of double_ml.py:433-538). -/
def callsDisc (lit : Nat → V) (enc : Encoder V) (coef : List K) (v : List K) :
    Option Nat → List (Option (Arg V) × Option (Arg V)) → List (Except Err K)
  | _, [] => []
  | st, q :: qs => match estDisc lit enc coef st v q.1 q.2 with
    | .ok (k, st') => .ok k :: callsDisc lit enc coef v st' qs
    | .error e => .error e :: callsDisc lit enc coef v st qs

end YL.DML
