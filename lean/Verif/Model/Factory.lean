import Verif.Model.Utils
import Verif.Model.WhyPolicy

/-!
# Model of `ylearn/estimator_model/_factory.py` and `general_estimator` (`ylearn/sklearn_ex/_transformer.py`)

The factories by which `Why` creates estimators and scorers from names, and the machine learning models the factories create from names. The
hyperparameters of the machine learning models are not modelled (apart from the seed), nor the extra keyword options of `MetaLearnerFactory`, `CausalTreeFactory`
and `GrfFactory`.
-/

namespace YL.Fact

open YL WhyP

/-- the exceptions: a failed `assert`, and the `NameError` of a library whose import failed (_transformer.py:285-298) -/
inductive FErr where
  | assertion
  | name
  deriving DecidableEq

/-- what is installed (_transformer.py:285-298, 381-387) -/
structure Env where
  xgb : Bool
  lgbm : Bool
  darwin : Bool

/-- the families of models `general_estimator` can make (_transformer.py:300-379) -/
inductive Family where
  | gbm | xgb | dt | rf | gb | lr | lasso
  deriving DecidableEq

/-- the argument `estimator` (_transformer.py:284): `None`, a string, an object -/
inductive Given (O : Type) where
  | absent
  | name (s : String)
  | object (o : O)
  deriving DecidableEq

/-- what comes back (_transformer.py:395-400): a fresh model, a copy of the object, or a copy of the string -/
inductive Out (O : Type) where
  | made (f : Family) (regressor : Bool) (seed : Option Nat)
  | copyOf (o : O)
  | text (s : String)
  deriving DecidableEq

/-- the value of `task` when a model is made (_transformer.py:389-393): a name, or the pair `infer_task_type` returns -/
inductive Resolved where
  | name (s : String)
  | pair (s : String) (labels : List Nat)
  deriving DecidableEq

/-- `task_ == const.TASK_REGRESSION` (_transformer.py:301, 326, 335, 341, 347, 354, 363) -/
def Resolved.isRegression : Resolved → Bool
  | .name s => decide (s = "regression")
  | .pair _ _ => false

/-- the dictionary `creators` (_transformer.py:368-379) -/
def creators (s : String) : Option Family :=
  if s = "gbm" ∨ s = "lgbm" ∨ s = "lightgbm" then some .gbm
  else if s = "xgb" ∨ s = "xgboost" then some .xgb
  else if s = "dt" then some .dt
  else if s = "rf" then some .rf
  else if s = "gb" then some .gb
  else if s = "lr" then some .lr
  else if s = "lasso" then some .lasso
  else none

/-- the functions `default_*` (_transformer.py:300-366): a missing library is an unbound name; linear regression gets no seed; lasso only regresses -/
def create (e : Env) (seed : Option Nat) (t : Resolved) : Family → Except FErr (Family × Bool × Option Nat)
  | .gbm => if e.lgbm then .ok (.gbm, t.isRegression, seed) else .error .name
  | .xgb => if e.xgb then .ok (.xgb, t.isRegression, seed) else .error .name
  | .dt => .ok (.dt, t.isRegression, seed)
  | .rf => .ok (.rf, t.isRegression, seed)
  | .gb => .ok (.gb, t.isRegression, seed)
  | .lr => .ok (.lr, t.isRegression, if t.isRegression then none else seed)
  | .lasso => if t.isRegression then .ok (.lasso, true, seed) else .error .assertion

/-- `estimator is None` (_transformer.py:381-387) -/
def defaultName (e : Env) : String := if e.xgb then "xgb" else if e.lgbm && !e.darwin then "gbm" else "rf"

/-- the task (_transformer.py:389-393); `inferred` is what `infer_task_type(y)` answers if `y` is given -/
def resolve (task : Option TaskArg) (inferred : Option (String × List Nat)) : Except FErr Resolved :=
  match task with
  | some (.flag b) => .ok (.name (if b then "multiclass" else "regression"))
  | some (.name s) => .ok (.name s)
  | none => match inferred with
    | some p => .ok (.pair p.1 p.2)
    | none => .error .assertion

/-- the last step (_transformer.py:395-400) -/
def finish {O : Type} (e : Env) (seed : Option Nat) (t : Resolved) : Given O → Except FErr (Out O)
  | .object o => .ok (.copyOf o)
  | .absent => .error .assertion
  | .name s => match creators s with
    | none => .ok (.text s)
    | some f => match create e seed t f with
      | .error x => .error x
      | .ok p => .ok (.made p.1 p.2.1 p.2.2)

/-- `general_estimator(X, y, estimator, task, random_state)` (_transformer.py:284-400) -/
def generalEstimator {O : Type} (e : Env) (inferred : Option (String × List Nat)) (est : Given O) (task : Option TaskArg) (seed : Option Nat) :
    Except FErr (Out O) :=
  match resolve task inferred with
  | .error x => .error x
  | .ok t => finish e seed t (match est with
    | .absent => .name (defaultName e)
    | g => g)

/-- `BaseEstimatorFactory._model` (_factory.py:36-41) -/
def model {O : Type} (e : Env) (est : Given O) (task : Option TaskArg) (seed : Option Nat) : Except FErr (Out O) :=
  if task.isNone then .error .assertion
  else match est with
    | .absent => .error .assertion
    | g => generalEstimator e none g task seed

/-- the classes the factories instantiate (_factory.py:77, 104, 134, 162, 186, 216, 249, 270, 287, 308, 367, 390) -/
inductive Cls where
  | doubleML | permutedDR | permutedS | permutedT | permutedX | permutedTree | grf | bound | np2sls | deepIV | rloss
  deriving DecidableEq

/-- the factories with the arguments of their constructors (_factory.py:62-66, 91-95, 116-121, 150-151, 174-175, 198-200, 231-232, 254-255, 276-279,
298-300, 353-361, 381-384). `meta` is the first letter of the learner's name. -/
inductive Factory (O : Type) where
  | dml (y x yx : Given O) (cf : Option Nat)
  | dr (y x yx : Given O) (cf : Option Nat)
  | metaLearner (tag : Char) (model : Given O)
  | sLearner (model : Given O)
  | tLearner (model : Given O)
  | xLearner (model final : Given O)
  | tree
  | grf
  | bound (y x : Given O)
  | iv (y x : Given O)
  | deepIV
  | rloss (y x : Given O) (cf : Option Nat)

/-- the call of a factory (_factory.py:68-69); the size stands for `data` -/
structure Call where
  env : Env
  size : Nat
  yTask : Option TaskArg
  xTask : Option TaskArg
  covariate : Bool
  instrument : Bool
  seed : Option Nat

/-- the estimator a factory returns: the class, its machine learning models, the flags `is_discrete_outcome`, `is_discrete_treatment` and `proba_output` it
ends up with (those a factory does not pass have the defaults of the class: doubly_robust.py:200-204, approximation_bound.py:86-90, effect_score.py:182-191,
causal_tree.py:332-336), the number of folds (_factory.py:77-86) -/
structure Made (O : Type) where
  cls : Cls
  outcome : Option (Out O)
  treatment : Option (Out O)
  final : Option (Out O)
  toldOutcome : Bool
  toldTreatment : Bool
  proba : Bool
  folds : Option Nat

/-- `x_task if isinstance(x_task, bool) else x_task != const.TASK_REGRESSION`: `None` counts as discrete (_factory.py:74-75) -/
def discrete : Option TaskArg → Bool
  | none => true
  | some t => t.discrete

/-- two models in the order the code makes them (_factory.py:78-79) -/
def two {O : Type} (a b : Except FErr (Out O)) : Except FErr (Out O × Out O) :=
  match a with
  | .error e => .error e
  | .ok a => match b with
    | .error e => .error e
    | .ok b => .ok (a, b)

/-- a meta learner (_factory.py:133-145, 162-169, 186-193) -/
def metaMade {O : Type} (c : Call) (cls : Cls) (m : Given O) (final : Except FErr (Option (Out O))) : Except FErr (Made O) :=
  if discrete c.xTask then
    match final with
    | .error e => .error e
    | .ok fin => match model c.env m c.yTask c.seed with
      | .error e => .error e
      | .ok a => .ok ⟨cls, some a, none, fin, discrete c.yTask, discrete c.xTask, discrete c.yTask, none⟩
  else .error .assertion

/-- the final model of the X-learner (_factory.py:210-214): only for a discrete outcome -/
def xFinal {O : Type} (c : Call) (final : Given O) : Except FErr (Option (Out O)) :=
  if discrete c.yTask then (model c.env final (some (.name "regression")) c.seed).map some else .ok none

/-- the class of a meta learner (_factory.py:133-135) -/
def metaClass (tag : Char) : Option Cls := if tag = 's' then some .permutedS else if tag = 't' then some .permutedT else if tag = 'x' then some .permutedX else none

/-- `factory(data, outcome, treatment, y_task, x_task, ...)` (_factory.py:68-86, 97-110, 123-145, 153-169, 177-193, 202-225, 234-249, 257-270, 281-293, 302-314,
363-376, 386-397) -/
def Factory.call {O : Type} (c : Call) : Factory O → Except FErr (Made O)
  | .dml y x yx cf =>
    if c.covariate then
      match two (model c.env y c.yTask c.seed) (model c.env x c.xTask c.seed) with
      | .error e => .error e
      | .ok (a, b) => match model c.env yx (some (.name "regression")) c.seed with
        | .error e => .error e
        | .ok f => .ok ⟨.doubleML, some a, some b, some f, discrete c.yTask, discrete c.xTask, discrete c.yTask, some (cfFold cf c.size)⟩
    else .error .assertion
  | .dr y x yx cf =>
    if c.xTask ≠ some (.name "regression") then
      match two (model c.env y c.yTask c.seed) (model c.env x c.xTask c.seed) with
      | .error e => .error e
      | .ok (a, b) => match model c.env yx (some (.name "regression")) c.seed with
        | .error e => .error e
        | .ok f => .ok ⟨.permutedDR, some a, some b, some f, false, true, false, some (cfFold cf c.size)⟩
    else .error .assertion
  | .metaLearner tag m => match metaClass tag with
    | none => .error .assertion
    | some cls => metaMade c cls m (.ok none)
  | .sLearner m => metaMade c .permutedS m (.ok none)
  | .tLearner m => metaMade c .permutedT m (.ok none)
  | .xLearner m f => metaMade c .permutedX m (xFinal c f)
  | .tree => if discrete c.xTask then .ok ⟨.permutedTree, none, none, none, false, true, false, none⟩ else .error .assertion
  | .grf => .ok ⟨.grf, none, none, none, discrete c.yTask, discrete c.xTask, false, none⟩
  | .bound y x =>
    if c.covariate then
      match two (model c.env y c.yTask c.seed) (model c.env x c.xTask c.seed) with
      | .error e => .error e
      | .ok (a, b) => .ok ⟨.bound, some a, some b, none, false, discrete c.xTask, false, none⟩
    else .error .assertion
  | .iv y x =>
    if c.instrument then
      match two (model c.env y c.yTask c.seed) (model c.env x c.xTask c.seed) with
      | .error e => .error e
      | .ok (a, b) => .ok ⟨.np2sls, some a, some b, none, discrete c.yTask, discrete c.xTask, false, none⟩
    else .error .assertion
  | .deepIV => if c.instrument then .ok ⟨.deepIV, none, none, none, discrete c.yTask, discrete c.xTask, false, none⟩ else .error .assertion
  | .rloss y x cf =>
    match two (model c.env y c.yTask c.seed) (model c.env x c.xTask c.seed) with
    | .error e => .error e
    | .ok (a, b) => .ok ⟨.rloss, some a, some b, none, false, discrete c.xTask, false, some (cfFold cf c.size)⟩

/-- the tag of a class (_factory.py:15-21): the name without the ending `Factory`, in snake case -/
def tagOf (up : Char → Bool) (lower : Char → List Char) (cls : List Char) : List Char :=
  Utils.snake up lower (if "Factory".toList.isSuffixOf cls then cls.take (cls.length - 7) else cls)

/-- `register(name)(cls)` (_factory.py:11-28) -/
def register (up : Char → Bool) (lower : Char → List Char) (reg : List (List Char × List Char)) (name : Option (List Char)) (cls : List Char) :
    Except FErr (List (List Char × List Char)) :=
  let tag := match name with
    | some n => n
    | none => tagOf up lower cls
  if tag ∈ reg.map (·.1) then .error .assertion else .ok (reg ++ [(tag, cls)])

/-- registrations one after the other; of two decorators the lower one is applied first (_factory.py:60, 89, 113-114, 148, 172, 196, 228-229, 252, 273-274, 296,
350-351, 379) -/
def registerAll (up : Char → Bool) (lower : Char → List Char) (reg : List (List Char × List Char)) :
    List (Option (List Char) × List Char) → Except FErr (List (List Char × List Char))
  | [] => .ok reg
  | p :: l => match register up lower reg p.1 p.2 with
    | .error e => .error e
    | .ok r => registerAll up lower r l

/-- the registrations of the module (_factory.py:59-397) -/
def shipped : List (Option (List Char) × List Char) :=
  [(none, "DMLFactory".toList), (none, "DRFactory".toList), (some "ml".toList, "MetaLearnerFactory".toList), (none, "MetaLearnerFactory".toList),
   (none, "SLearnerFactory".toList), (none, "TLearnerFactory".toList), (none, "XLearnerFactory".toList), (some "tree".toList, "CausalTreeFactory".toList),
   (none, "CausalTreeFactory".toList), (none, "GrfFactory".toList), (some "bound".toList, "ApproxBoundFactory".toList), (none, "ApproxBoundFactory".toList),
   (none, "IVFactory".toList), (some "div".toList, "DeepIVFactory".toList), (none, "DeepIVFactory".toList), (none, "RLossFactory".toList)]

/-- the name `_get_default_estimator` looks up (_why.py:333-343) -/
def autoName : Est → List Char
  | .iv => "iv".toList
  | .tlearner => "tlearner".toList
  | .dml => "dml".toList

end YL.Fact
