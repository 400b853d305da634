import Verif.Model.Nx

/-!
# Model of the constructors of the estimators

`BaseEstModel.__init__` (`base_models.py`), the constructors of the estimators that call it, the constructors of the forests, and the rule by which Python binds the
arguments of a call to parameters. Left out: the attributes that are only stored under their own name (hyperparameters of trees and networks) and the
checks of `predict_proba` (`hasattr`); `proba_output` is modelled as a flag.
-/

namespace YL.Init

open YL

/-- the values that are passed as settings; `obj` stands for lists, models and transformers, told apart by a number -/
inductive Val where
  | none
  | bool (b : Bool)
  | int (n : Int)
  | str (s : String)
  | obj (k : Nat)
  deriving DecidableEq

/-- `bool(value)` (base_models.py:38, used at iv.py:236); objects are taken to be truthy -/
def Val.truthy : Val → Bool
  | .none => false
  | .bool b => b
  | .int n => decide (n ≠ 0)
  | .str s => decide (s ≠ "")
  | .obj _ => true

/-- the parameters bound by position: the first parameters, in order (a call such as iv.py:88-90) -/
def bindPos : List String → List Val → Except Err (List (String × Val))
  | _, [] => .ok []
  | [], _ :: _ => .error .type
  | p :: ps, v :: vs => match bindPos ps vs with
    | .error e => .error e
    | .ok b => .ok ((p, v) :: b)

/-- the parameters bound by name: a name that is not a parameter, or one that is bound already, is a `TypeError` (a call such as meta_learner.py:133-140) -/
def bindKw (params : List String) : List (String × Val) → List (String × Val) → Except Err (List (String × Val))
  | b, [] => .ok b
  | b, (k, v) :: kw => if k ∉ params then .error .type else if (b.lookup k).isSome then .error .type else bindKw params (b ++ [(k, v)]) kw

/-- the arguments of a call (base_models.py:24-32) -/
def bindArgs (params : List String) (pos : List Val) (kw : List (String × Val)) : Except Err (List (String × Val)) :=
  match bindPos params pos with
  | .error e => .error e
  | .ok b => bindKw params b kw

/-- the value of a parameter: what is bound, or the default (base_models.py:26-31) -/
def argOf (b : List (String × Val)) (k : String) (dflt : Val) : Val := (b.lookup k).getD dflt

/-- the attributes `BaseEstModel.__init__` sets (base_models.py:33-38) -/
structure Attrs where
  randomState : Val
  discreteTreatment : Val
  discreteOutcome : Val
  isFitted : Val
  categories : Val
  deriving DecidableEq

/-- the parameters of `BaseEstModel.__init__` (base_models.py:24-32) -/
def baseParams : List String := ["random_state", "is_discrete_treatment", "is_discrete_outcome", "_is_fitted", "categories"]

/-- `random_state if random_state is not None else 2022` (base_models.py:33) -/
def seedOf (v : Val) : Val := if v = .none then .int 2022 else v

/-- the body of `BaseEstModel.__init__` (base_models.py:33-38) -/
def baseBody (b : List (String × Val)) : Attrs :=
  ⟨seedOf (argOf b "random_state" (.int 2022)), argOf b "is_discrete_treatment" (.bool false), argOf b "is_discrete_outcome" (.bool false),
   argOf b "_is_fitted" (.bool false), argOf b "categories" (.str "auto")⟩

/-- `BaseEstModel.__init__(*pos, **kw)` (base_models.py:24-38) -/
def baseInit (pos : List Val) (kw : List (String × Val)) : Except Err Attrs :=
  match bindArgs baseParams pos kw with
  | .error e => .error e
  | .ok b => .ok (baseBody b)

/-- the settings a user passes to a constructor (iv.py:59-66) -/
structure Settings where
  randomState : Val
  discreteTreatment : Val
  discreteOutcome : Val
  categories : Val
  proba : Val

/-- the checks of the meta learners (meta_learner.py:119-126, 633-641, 1130-1141) and of `DoubleML` (double_ml.py:281-288) -/
def probaOk (s : Settings) : Bool := !s.proba.truthy || s.discreteOutcome.truthy

/-- the keyword arguments the meta learners, `DoubleML` and `DeepIV` pass on (meta_learner.py:133-140, 651-657, 1155-1161, double_ml.py:321-326, deepiv.py:661-667) -/
def kwAll (s : Settings) : List (String × Val) :=
  [("random_state", s.randomState), ("is_discrete_treatment", s.discreteTreatment), ("is_discrete_outcome", s.discreteOutcome), ("categories", s.categories)]

/-- `SLearner`, `TLearner`, `XLearner` (meta_learner.py:96-140, 610-657, 1107-1161); `pos` are further positional arguments (`SLearner` only), `kw` further
keyword arguments -/
def metaInit (s : Settings) (pos : List Val) (kw : List (String × Val)) : Except Err Attrs :=
  if s.discreteTreatment = .bool true then
    if probaOk s then baseInit pos (kwAll s ++ kw) else .error .assertion
  else .error .assertion

/-- a base model: whether it has a parameter `random_state`, and its value (double_ml.py:91-97) -/
structure BaseModel where
  seeded : Bool
  seed : Val
  deriving DecidableEq

/-- `_set_random_state(model, random_state)` (double_ml.py:91-97) -/
def setSeed (m : BaseModel) (rs : Val) : BaseModel := if m.seeded && decide (m.seed = .none) then { m with seed := rs } else m

/-- what `DoubleML.__init__` leaves behind (double_ml.py:281-326) -/
structure DmlObj where
  attrs : Attrs
  xModel : BaseModel
  yModel : BaseModel
  adjustmentTransformer : Val
  covariateTransformer : Val
  cfFold : Val
  deriving DecidableEq

/-- `DoubleML.__init__` (double_ml.py:238-326), also behind `CausalForest` (causal_forest.py:166-178) -/
def dmlInit (s : Settings) (x y : BaseModel) (cf adjT covT : Val) : Except Err DmlObj :=
  if probaOk s then
    match baseInit [] (kwAll s) with
    | .error e => .error e
    | .ok a => .ok ⟨a, setSeed x s.randomState, setSeed y s.randomState, adjT, covT, cf⟩
  else .error .assertion

/-- `RLoss.__init__` (effect_score.py:139-191): no discrete outcome, no `proba_output` -/
def rlossInit (s : Settings) (x y : BaseModel) (cf adjT covT : Val) : Except Err DmlObj :=
  dmlInit { s with discreteOutcome := .bool false, proba := .bool false } x y cf adjT covT

/-- `DeepIV.__init__` (deepiv.py:605-667) -/
def deepIVInit (s : Settings) : Except Err Attrs := baseInit [] (kwAll s)

/-- `DoublyRobust.__init__` and `CausalTree.__init__` (doubly_robust.py:200-204, causal_tree.py:332-336) -/
def drInit (s : Settings) : Except Err Attrs :=
  baseInit [] [("random_state", s.randomState), ("categories", s.categories), ("is_discrete_treatment", .bool true)]

/-- `ApproxBound.__init__` (approximation_bound.py:86-90): two arguments by position, one by name -/
def boundInit (s : Settings) : Except Err Attrs := baseInit [s.randomState, s.discreteTreatment] [("categories", s.categories)]

/-- `NP2SLS.__init__` (iv.py:88-90): four arguments by position -/
def np2slsInit (s : Settings) : Except Err Attrs := baseInit [s.randomState, s.discreteTreatment, s.discreteOutcome, s.categories] []

/-- `BaseCausalForest.__init__` (_base_forest.py:249-265): `BaseForest.__init__` stores the seed, `BaseEstModel.__init__` is called without it. `GRForest`,
`CTCausalForest` and `NaiveGrf` come here (_grf.py:32-63, causal_tree.py:1016-1044, _naive_forest/_grf.py:40-49). -/
def forestInit (s : Settings) : Except Err Attrs :=
  baseInit [] [("is_discrete_outcome", s.discreteOutcome), ("is_discrete_treatment", s.discreteTreatment), ("categories", s.categories)]

/-- `PermutedLearner.__init__` (_permuted.py:84-99) -/
def permutedInit (l : Attrs) : Except Err Attrs :=
  if l.discreteTreatment.truthy then
    if l.isFitted.truthy then .error .assertion
    else baseInit [] [("random_state", l.randomState), ("is_discrete_treatment", l.discreteTreatment), ("is_discrete_outcome", l.discreteOutcome),
      ("_is_fitted", .bool false), ("categories", l.categories)]
  else .error .assertion

/-- the parameters of `DoubleML.__init__` (double_ml.py:238-251) -/
def dmlParams : List String := ["x_model", "y_model", "yx_model", "cf_fold", "adjustment_transformer", "covariate_transformer", "random_state",
  "is_discrete_treatment", "categories", "is_discrete_outcome", "proba_output"]

/-- the settings and transformers `DoubleML` gets from a call (double_ml.py:238-251) -/
def dmlCall (x y : BaseModel) (pos : List Val) (kw : List (String × Val)) : Except Err DmlObj :=
  match bindArgs dmlParams pos kw with
  | .error e => .error e
  | .ok b => dmlInit ⟨argOf b "random_state" (.int 2022), argOf b "is_discrete_treatment" (.bool false), argOf b "is_discrete_outcome" (.bool false),
      argOf b "categories" (.str "auto"), argOf b "proba_output" (.bool false)⟩ x y (argOf b "cf_fold" (.int 1))
      (argOf b "adjustment_transformer" .none) (argOf b "covariate_transformer" .none)

/-- `NaiveCausalForest.__init__` (_naive_forest/causal_forest.py:12-43): seven arguments by position; `xm`, `ym` and `yx` are the models as values -/
def naiveInit (s : Settings) (x y : BaseModel) (xm ym yx cf : Val) : Except Err DmlObj :=
  dmlCall x y [xm, ym, yx, cf, s.randomState, s.discreteTreatment, s.categories] []

/-- the guard of the estimates (meta_learner.py:236-237, 821-822, 1276-1277, iv.py:236-237, causal_tree.py:420-421, approximation_bound.py:237-240,
_permuted.py:126): `if not self._is_fitted: raise` -/
def fittedGuard (a : Attrs) : Except Err Unit := if a.isFitted.truthy then .ok () else .error .exception

/-- the two `fit_transform` calls at the start of `DoubleML.fit` (double_ml.py:382-386); only objects have the method -/
def prepare (o : DmlObj) (hasW hasV : Bool) : Except Err Unit :=
  let bad : Val → Bool := fun v => match v with
    | .none => false
    | .obj _ => false
    | _ => true
  if hasW && bad o.adjustmentTransformer then .error .attr
  else if hasV && bad o.covariateTransformer then .error .attr
  else .ok ()

end YL.Init
