import Verif.Model.WhyEffect
import Verif.Model.Permuted
import Verif.Model.Uplift

/-!
# Model of the effect table, the uplift model and the choice of the estimator in `ylearn/api/_why.py`
(and of the factories in `ylearn/estimator_model/_factory.py`)

The estimators for discrete treatments are the permuted learners of `Model/Permuted` (the factories of `_factory.py` build nothing
else). `Why` fits them on codes, and every code of a treatment occurs in the training data (its `LabelEncoder` is fitted on them), so
the values a learner knows are `0, ..., k-1`.
-/

namespace YL.WhyP

open YL Why

variable {C V L K R : Type} [DecidableEq C] [DecidableEq V]

/-- `'_'.join(map(str, pair))` (_why.py:1051), as a list of characters -/
def joinLabel : List (List Char) → List Char
  | [] => []
  | [s] => s
  | s :: t :: l => s ++ '_' :: joinLabel (t :: l)

/-- the codes of the chosen control (_why.py:1026-1030): a bare code for one treatment -/
def controlArg (classes : List (List V)) (control : Option (List V)) : Except Err (Option (Permuted.Arg Nat)) :=
  match control with
  | none => .ok none
  | some cs => match encodeAll classes cs with
    | .error e => .error e
    | .ok is => match classes, is with
      | [_], [i] => .ok (some (.one i))
      | _, is => .ok (some (.many is))

/-- `_effect_array` for discrete treatments and a continuous outcome (_why.py:1013-1070): the labels with their columns. `classes` are
the classes of the chosen treatments, `learners` the fitted estimator for them, `costCol` is `cost_effect` on a column
(api/utils.py:126-130). -/
def effectArray [Mul K] [Neg K] [One K] [Zero K] [DecidableEq K] (nji : L → List K × List K) (n : Nat) (classes : List (List V))
    (str : V → List Char) (learners : Permuted.Dict (List Nat × List Nat) L) (costCol : Option (List K → Except Err (List K)))
    (control : Option (List V)) : Except Err (List (List Char × List K)) :=
  if 2 < classes.length then .error .value
  else match controlArg classes control with
    | .error e => .error e
    | .ok arg => match Permuted.effectNji nji (some n) 1 (classes.map (fun c => List.range c.length)) learners arg with
      | .error e => .error e
      | .ok cols =>
        let labels := (prod classes).map (fun vs => joinLabel (vs.map str))
        if cols.length = labels.length then
          match costCol with
          | none => .ok (labels.zip cols)
          | some f => match Meta.mapE f cols with
            | .error e => .error e
            | .ok cols => .ok (labels.zip cols)
        else .error .assertion

/-! ### uplift_model and score -/

/-- the encoded treatments of a row (_why.py:506-509) -/
def encodeRow (encs : List (List V)) (vals : List V) : Except Err (List Nat) := encodeAll encs vals

/-- the default arms of `uplift_model` (_why.py:1305-1308): the last and the first class of every treatment -/
def upliftArm (encs : List (List V)) (last : Bool) (arm : Option (List V)) : Except Err (List V) :=
  match arm with
  | some a => .ok a
  | none => Meta.mapE (fun c : List V => match (if last then c.getLast? else c.head?) with
    | some v => .ok v
    | none => .error .index) encs

/-- the frame `uplift_model` builds (_why.py:1297-1323): rows are the values of the treatments and the rest. `est` is the estimate for the
two arms, `y` the (encoded) outcome of a row. The arms have one value per treatment. -/
def upliftFrame [Zero K] (est : R → List Nat → List Nat → K) (y : R → K) (encs : List (List V)) (treat control : Option (List V))
    (rows : List (List V × R)) : Except Err (List (Uplift.Row K Nat K)) :=
  match upliftArm encs true treat, upliftArm encs false control, Meta.mapE (fun r : List V × R => encodeRow encs r.1) rows with
  | .error e, _, _ => .error e
  | _, .error e, _ => .error e
  | _, _, .error e => .error e
  | .ok t, .ok c, .ok xs => match transformTC encs t c with
    | .error e => .error e
    | .ok (ti, ci) =>
      .ok (((xs.zip rows).filter (fun p => decide (p.1 = ti) || decide (p.1 = ci))).map (fun p =>
        ⟨est p.2.2 ti ci, y p.2.2, if p.1 = ti then 1 else 0, 0⟩))

/-- `_score_auuc_qini(..., scorer='auuc')` (_why.py:956-986): the score of the only column of the uplift model -/
def scoreAuuc [Field K] [LinearOrder K] (sort : List (Uplift.Row K Nat K) → List (Uplift.Row K Nat K)) (est : R → List Nat → List Nat → K)
    (y : R → K) (encs : List (List V)) (treat control : Option (List V)) (rows : List (List V × R)) : Except Err K :=
  match upliftFrame est y encs treat control rows with
  | .error e => .error e
  | .ok fr => match Uplift.getCurve sort .gain false 1 0 true fr with
    | .error e => .error e
    | .ok curve => .ok (Uplift.auuc curve.1)

/-! ### the choice of the estimator -/

/-- the estimators `Why` chooses from (_why.py:333-343) -/
inductive Est where
  /-- `NP2SLS` (_factory.py:296-314) -/
  | iv
  /-- `PermutedTLearner` (_factory.py:172-193) -/
  | tlearner
  /-- `DoubleML` (_factory.py:60-86) -/
  | dml
  deriving DecidableEq, Repr

/-- `_get_default_estimator` (_why.py:333-343) -/
def autoEstimator (instrument : Option (List C)) (discT discO : Bool) : Est :=
  if isEmpty instrument then (if discT || discO then .tlearner else .dml) else .iv

/-- what the factories refuse (_factory.py:72, 184, 306) when `Why` calls them with booleans as tasks (_why.py:459-466) -/
def factoryAccepts (e : Est) (covariate instrument : Option (List C)) (discT : Bool) : Except Err Unit :=
  match e with
  | .dml => if covariate.isSome then .ok () else .error .assertion
  | .tlearner => if discT then .ok () else .error .assertion
  | .iv => if instrument.isSome then .ok () else .error .assertion

/-- a task as the factories get it: a flag (from `Why`) or a name (_factory.py:74-75) -/
inductive TaskArg where
  /-- a boolean: discrete or not (_why.py:461) -/
  | flag (discrete : Bool)
  /-- the name of a task (_factory.py:74) -/
  | name (s : String)
  deriving DecidableEq

/-- `x_task if isinstance(x_task, bool) else x_task != const.TASK_REGRESSION` (_factory.py:74, 127, 157, 181) -/
def TaskArg.discrete : TaskArg → Bool
  | .flag b => b
  | .name s => decide (s ≠ "regression")

/-- the check of the DR factory (_factory.py:102): `x_task != const.TASK_REGRESSION` -/
def drAccepts (x : TaskArg) : Except Err Unit := if x ≠ .name "regression" then .ok () else .error .assertion

/-- the check of the meta learner factories (_factory.py:131, 160, 184, 209, 241) -/
def metaAccepts (x : TaskArg) : Except Err Unit := if x.discrete then .ok () else .error .assertion

/-- `_cf_fold` (_factory.py:43-54) -/
def cfFold (given : Option Nat) (size : Nat) : Nat :=
  match given with
  | some k => k
  | none => if size < 3000 then 1 else if size < 10000 then 3 else 5

end YL.WhyP
