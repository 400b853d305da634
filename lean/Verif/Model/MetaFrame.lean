import Verif.Model.MetaLearner

/-!
# Model of the data frame layer of `SLearner`, `TLearner` and `XLearner`

`meta_learner.py` `fit` (142-233, 659-751, 1163-1256) and `_prepare4est` (235-251, 820-835, 1275-1296) with
`BaseEstModel.fit` (`base_models.py` 45-75), `convert2array` (`utils.py` 176-193) and `get_wv` (`utils.py` 72-73): which columns of
a data frame reach the numeric core of `Model/MetaLearner.lean`, which attributes of the object change in which order, and what is
left when a call raises. Simplifications: the columns of a frame have distinct names, so that a row is a function of the column name
(its values off the names of the frame are never read); one outcome column; `combined_treatment=True`; `categories="auto"`; the
state after an exception inside the numeric core is not modelled (`lost`).
-/

namespace YL.MetaFrame

open YL YL.Meta
open YL.Permuted (Arg)

variable {N C K : Type} [DecidableEq N] [LinearOrder C]

/-- a `pandas.DataFrame` with distinct column names: the names and the rows (the argument `data` of meta_learner.py:142-154) -/
structure Frame (N C : Type) where
  names : List N
  rows : List (N → C)

/-- a column argument: a single name or a list of names (the arguments `treatment`, `adjustment`, `covariate` of
meta_learner.py:142-154) -/
inductive Cols (N : Type) where
  | one (a : N)
  | many (l : List N)

/-- the columns of an argument in order; a single column is expanded to a matrix with one column (utils.py:181-183) -/
def Cols.list : Cols N → List N
  | .one a => [a]
  | .many l => l

/-- `data[cols].values` (utils.py:179-187): `KeyError` if a column is missing -/
def select (f : Frame N C) (cols : List N) : Except Err (List (List C)) :=
  if ∀ c ∈ cols, c ∈ f.names then .ok (f.rows.map (fun r => cols.map r)) else .error .key

/-- `_get_array` (utils.py:179-187): `None` for no columns -/
def getArray (f : Frame N C) (cols : Option (Cols N)) : Except Err (Option (List (List C))) :=
  match cols with
  | none => .ok none
  | some c => match select f c.list with
    | .error e => .error e
    | .ok a => .ok (some a)

/-- `get_wv` (utils.py:72-73): the given matrices side by side; `np.concatenate` of nothing raises `ValueError` -/
def getWv (w v : Option (List (List C))) : Except Err (List (List C)) :=
  match w, v with
  | none, none => .error .value
  | some w, none => .ok w
  | none, some v => .ok v
  | some w, some v => .ok (List.zipWith (· ++ ·) w v)

/-- the features of a frame: `w, v = convert2array(data, adjustment, covariate); wv = get_wv(w, v)`
(meta_learner.py:240-246, 824-829, 1279-1284) -/
def features (f : Frame N C) (adj cov : Option (Cols N)) : Except Err (List (List C)) :=
  match getArray f adj with
  | .error e => .error e
  | .ok w => match getArray f cov with
    | .error e => .error e
    | .ok v => getWv w v

/-- the numeric core of a learner: `fit` gets the number of treatment columns, the number of feature columns and the rows; the
state of an earlier fit is passed along. `estimate` maps a matrix of features to the effects and the new state
(`_fit_combined_treat` and `_prepare_combined_treat`: meta_learner.py:310-364, 451-492, 837-903, 1000-1005, 1334-1417, 1553-1561). -/
structure Core (C K : Type) where
  State : Type
  fit : Nat → Nat → List (Row C (List C) K) → Option (Arg C) → Option (Arg C) → Option State → Except Err State
  estimate : State → List (List C) → Except Err (List K) × State

/-- `TLearner`'s core (meta_learner.py:837-903, 1000-1005); a base model refuses data without feature columns and a prediction for
no rows with `ValueError` -/
def tCore [Sub K] (fitM : List (List C × K) → List C → K) (lit : Nat → C) : Core C K where
  State := T C (List C) K
  fit := fun d k rows treat control old =>
    if k = 0 then .error .value else tFit fitM lit d (old.bind (·.enc)) rows treat control
  estimate := fun s wvs => (if wvs.length = 0 then .error .value else .ok (wvs.map (tEstimate s)), s)

/-- `XLearner`'s core for the weight `rho` (meta_learner.py:1334-1417, 1553-1561) -/
def xCore [Ring K] (fitM fitK : List (List C × K) → List C → K) (lit : Nat → C) (rho : K) : Core C K where
  State := X C (List C) K
  fit := fun d k rows treat control old =>
    if k = 0 then .error .value else xFit fitM fitK lit d (old.bind (·.enc)) rows treat control
  estimate := fun s wvs => (if wvs.length = 0 then .error .value else .ok (wvs.map (xEstimate s rho)), s)

/-- the arms of an `SLearner` after a call of `estimate`: encoded values are stored back (meta_learner.py:453-466). A failure to encode
the treated arm leaves both, a failure to encode the control arm leaves the control arm. -/
def sArms (lit : Nat → C) (s : S C (List C) K) : S C (List C) K :=
  match getTrCtrl lit s.enc true s.treat with
  | .error _ => s
  | .ok t => match getTrCtrl lit s.enc false s.control with
    | .error _ => { s with treat := some (.one (lit t)) }
    | .ok c => { s with treat := some (.one (lit t)), control := some (.one (lit c)) }

/-- the effect of one row (meta_learner.py:468-492) -/
def sValue [Sub K] (lit : Nat → C) (s : S C (List C) K) (wv : List C) : Except Err K :=
  match sEstimate lit s wv with
  | .error e => .error e
  | .ok r => .ok r.1

/-- `SLearner`'s core (meta_learner.py:310-364, 451-492); the one-hot columns of the treatments are features too, so data without
adjustment and covariate columns is fine -/
def sCore [Sub K] (fitM : List ((List C × List Nat) × K) → (List C × List Nat → K)) (lit : Nat → C) : Core C K where
  State := S C (List C) K
  fit := fun d _ rows treat control old => sFit fitM lit d (old.map (·.enc)) rows treat control
  estimate := fun s wvs => (if wvs.length = 0 then .error .value else mapE (sValue lit s) wvs, sArms lit s)

/-- the attributes of the estimator object: `adjustment`, `covariate`, `_wv` and, once `_is_fitted`, the state of the core
(base_models.py:45-75, meta_learner.py:199-228) -/
structure Obj (N C K : Type) (M : Core C K) where
  adjustment : Option (Cols N)
  covariate : Option (Cols N)
  wv : List (List C)
  core : Option M.State

/-- a new estimator (base_models.py:15-43) -/
def Obj.new (N : Type) (M : Core C K) : Obj N C K M := ⟨none, none, [], none⟩

/-- how a call of `fit` ends (meta_learner.py:142-233): normally, with an exception and a known state, or with an exception inside the
core, after which the state is not modelled -/
inductive Ending (N C K : Type) (M : Core C K) where
  | done (o : Obj N C K M)
  | failed (e : Err) (o : Obj N C K M)
  | lost (e : Err)

/-- one row of the core (meta_learner.py:213-228) -/
def coreRow (num : C → K) (yx : C × List C) (w : List C) : Row C (List C) K := ⟨w, yx.2, num yx.1⟩

/-- the rows of the core: the outcome column and the matrices side by side (meta_learner.py:213-228) -/
def coreRows (num : C → K) (y : List C) (x wv : List (List C)) : List (Row C (List C) K) :=
  List.zipWith (coreRow num) (y.zip x) wv

/-- the outcome column (utils.py:179-187, one outcome) -/
def outcomeColumn (f : Frame N C) (y : N) : Except Err (List C) :=
  if y ∈ f.names then .ok (f.rows.map (fun r => r y)) else .error .key

/-- the number of feature columns (utils.py:72-73) -/
def featureCount (adj cov : Option (Cols N)) : Nat := ((adj.map Cols.list).getD []).length + ((cov.map Cols.list).getD []).length

/-- the arguments of a call of `fit` (meta_learner.py:142-154) -/
structure Call (N C : Type) where
  data : Frame N C
  outcome : N
  treatment : Cols N
  adjustment : Option (Cols N)
  covariate : Option (Cols N)
  treat : Option (Arg C)
  control : Option (Arg C)

/-- `fit` from `convert2array` on (meta_learner.py:212-233, 733-751, 1238-1256); `o` has the new column names already -/
def fitArrays {M : Core C K} (num : C → K) (o : Obj N C K M) (q : Call N C) : Ending N C K M :=
  match outcomeColumn q.data q.outcome with
  | .error e => .failed e o
  | .ok y => match select q.data q.treatment.list with
    | .error e => .failed e o
    | .ok x => match features q.data q.adjustment q.covariate with
      | .error e => .failed e o
      | .ok wv => match M.fit q.treatment.list.length (featureCount q.adjustment q.covariate) (coreRows num y x wv) q.treat q.control
            o.core with
        | .error e => .lost e
        | .ok s => .done { o with wv := wv, core := some s }

/-- `fit` (meta_learner.py:142-233, 659-751, 1163-1256; base_models.py:45-75): the assertion comes first, then the column names are
stored, then the treatment columns are read for `treats_`, then the arrays are built and the core is fitted -/
def fit {M : Core C K} (num : C → K) (o : Obj N C K M) (q : Call N C) : Ending N C K M :=
  if q.adjustment.isNone ∧ q.covariate.isNone then .failed .assertion o
  else if ∀ t ∈ q.treatment.list, t ∈ q.data.names then
    fitArrays num { o with adjustment := q.adjustment, covariate := q.covariate } q
  else .failed .key { o with adjustment := q.adjustment, covariate := q.covariate }

/-- `estimate(data)` without quantity (meta_learner.py:235-286, 820-835, 1275-1296): the effects and the new object -/
def estimate {M : Core C K} (o : Obj N C K M) (data : Option (Frame N C)) : Except Err (List K) × Obj N C K M :=
  match o.core with
  | none => (.error .exception, o)
  | some s => match data with
    | none => ((M.estimate s o.wv).1, { o with core := some (M.estimate s o.wv).2 })
    | some g => match features g o.adjustment o.covariate with
      | .error e => (.error e, o)
      | .ok wv => ((M.estimate s wv).1, { o with core := some (M.estimate s wv).2 })

end YL.MetaFrame
