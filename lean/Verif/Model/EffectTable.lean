import Verif.Model.MetaLearner

/-!
# Model of `effect_nji` and of discrete outcomes in `ylearn/estimator_model/meta_learner.py`

* numpy arrays as shapes with row-major data: `effect_nji` of `SLearner`, `TLearner` and `XLearner` reads the shape of the array of
  effects, after the separate-treatment paths have removed the dimensions of size one;
* `TLearner` and `XLearner` with `proba_output=True`: the base models are classifiers;
* `XLearner` with `combined_treatment=False`.

The same base model is used for both arms (meta_learner.py:645-650, 1146-1154).
-/

namespace YL.Table

open YL Meta
open YL.Permuted (Arg)

/-- a numpy array: its shape and its entries in row-major order (meta_learner.py:804, 1318) -/
structure Nd (K : Type) where
  shape : List Nat
  data : List K
  deriving DecidableEq

variable {V W O K : Type} [LinearOrder V] [LinearOrder O]

/-- `.squeeze()` (meta_learner.py:528, 1027, 1580) -/
def squeeze (a : Nd K) : Nd K := ⟨a.shape.filter (fun k => decide (k ≠ 1)), a.data⟩

/-- how `effect_nji` reads the shape (meta_learner.py:296-302, 806-812, 1320-1326): rows, outcomes, treatments. `y_nji.shape[0]` of an
array without dimensions raises `IndexError`. -/
def readShape : List Nat → Except Err (Nat × Nat × Nat)
  | [n, y, x] => .ok (n, y, x)
  | [n, y] => .ok (n, y, 1)
  | [] => .error .index
  | n :: _ => .ok (n, 1, 1)

/-- `np.concatenate((zeros_, y_nji), axis=2)` (meta_learner.py:305-306): a zero before every group of `x` entries -/
def addZeros [Zero K] : Nat → Nat → List K → List K
  | 0, _, _ => []
  | g + 1, x, l => 0 :: (l.take x ++ addZeros g x (l.drop x))

/-- `effect_nji` of the meta learners on the array of effects (meta_learner.py:293-308, 803-818, 1317-1332) -/
def effectNji [Zero K] (a : Nd K) : Except Err (Nd K) :=
  match readShape a.shape with
  | .error e => .error e
  | .ok (n, y, x) => if n * y * x = a.data.length then .ok ⟨[n, y, x + 1], addZeros (n * y) x a.data⟩ else .error .value

/-- the array of effects of the separate-treatment paths before and after `squeeze` (meta_learner.py:1020-1027, 1571-1582):
one block of `y` rows of `k` effects for every test row -/
def separateArray (n y k : Nat) (data : List K) : Nd K := squeeze ⟨[n, y, k], data⟩

/-- `effect_nji` of `DoubleML` for a discrete treatment, for one row and one outcome (double_ml.py:582-600): the fitted values of all
levels minus that of the control; `self.control` is never set by the class, the default control is level 0 (estimator_model/utils.py:76-78).
A level outside the columns raises `IndexError`. -/
def dmlTable [Sub K] (f : List K) (control : Option Nat) : Except Err (List K) :=
  match f[control.getD 0]? with
  | none => .error .index
  | some c => .ok (f.map (fun a => a - c))

/-- `effect_nji` of `DoublyRobust` for one row and one outcome (doubly_robust.py:430-439): the zero goes to the smaller level -/
def drTable [Zero K] (treat control : Nat) (effect : K) : List K := if control < treat then [0, effect] else [effect, 0]

/-! ### discrete outcomes -/

/-- a fitted classifier: `classes_` and `predict_proba` of one row (meta_learner.py:1001-1002) -/
structure Clf (W O K : Type) where
  classes : List O
  proba : W → List K

/-- `TLearner` with `proba_output=True` after `fit` (meta_learner.py:898-899) -/
structure TP (W O K : Type) where
  xt : Clf W O K
  x0 : Clf W O K

/-- `TLearner._fit_combined_treat` with classifiers (meta_learner.py:837-903), first fit -/
def tFitP (fitC : List (W × O) → Clf W O K) (lit : Nat → V) (d : Nat) (rows : List (Row V W O)) (treat control : Option (Arg V)) :
    Except Err (TP W O K) :=
  match useEncoder false d none rows with
  | .error e => .error e
  | .ok enc => match encodeRows lit enc rows, getTrCtrl lit enc true treat, getTrCtrl lit enc false control with
    | .error e, _, _ => .error e
    | _, .error e, _ => .error e
    | _, _, .error e => .error e
    | .ok xs, .ok t, .ok c => match fitBase fitC (groups t xs rows), fitBase fitC (groups c xs rows) with
      | .error e, _ => .error e
      | _, .error e => .error e
      | .ok xt, .ok x0 => .ok ⟨xt, x0⟩

/-- numpy subtraction of two rows of probabilities (meta_learner.py:1005, 1403): a row of one column is broadcast, other different
lengths raise `ValueError` -/
def rowSub [Sub K] (a b : List K) : Except Err (List K) :=
  if a.length = b.length then .ok (List.zipWith (· - ·) a b)
  else match a, b with
    | [u], b => .ok (b.map (fun v => u - v))
    | a, [v] => .ok (a.map (fun u => u - v))
    | _, _ => .error .value

/-- `check_classes` (estimator_model/utils.py:45-51): the column of the target outcome -/
def checkClasses (classes : List O) (target : O) : Except Err Nat :=
  if target ∈ classes then .ok (classes.findIdx (fun o => decide (o = target))) else .error .assertion

/-- `TLearner.estimate(target_outcome=...)` of one row with `proba_output=True` (meta_learner.py:753-801, 1000-1005): one column of the two
tables, or all of them. The classes are those of the treated arm's model. -/
def tEstimateP [Sub K] (s : TP W O K) (target : Option O) (wv : W) : Except Err (List K) :=
  match target with
  | none => rowSub (s.xt.proba wv) (s.x0.proba wv)
  | some o => match checkClasses s.xt.classes o with
    | .error e => .error e
    | .ok i => match (s.xt.proba wv)[i]?, (s.x0.proba wv)[i]? with
      | some a, some b => .ok [a - b]
      | _, _ => .error .index

/-- one-hot row of an outcome (meta_learner.py:1399-1401): `ValueError` for an unknown outcome -/
def oneHotRow [Zero K] [One K] (classes : List O) (o : O) : Except Err (List K) :=
  if o ∈ classes then .ok (classes.map (fun c => if c = o then 1 else 0)) else .error .value

/-- the fitted second stage of `XLearner` with `proba_output=True`: multi-output regressors (meta_learner.py:1409-1410) -/
structure XP (W O K : Type) where
  /-- the classes of the treated arm's model, `outcome_classes_` (meta_learner.py:1262-1265) -/
  classes : List O
  kt : W → List K
  k0 : W → List K

/-- the imputed effect of a treated row (meta_learner.py:1400, 1403-1405) -/
def imputeTreat [Sub K] [Zero K] [One K] (classes : List O) (f0 : Clf W O K) (p : W × O) : Except Err (W × List K) :=
  match oneHotRow classes p.2 with
  | .error e => .error e
  | .ok h => match rowSub h (f0.proba p.1) with
    | .error e => .error e
    | .ok r => .ok (p.1, r)

/-- the imputed effect of a control row (meta_learner.py:1401, 1406-1408) -/
def imputeControl [Sub K] [Zero K] [One K] (classes : List O) (ft : Clf W O K) (p : W × O) : Except Err (W × List K) :=
  match oneHotRow classes p.2 with
  | .error e => .error e
  | .ok h => match rowSub (ft.proba p.1) h with
    | .error e => .error e
    | .ok r => .ok (p.1, r)

/-- `XLearner._fit_combined_treat` with `proba_output=True` (meta_learner.py:1334-1417), first fit -/
def xFitP [Sub K] [Zero K] [One K] (fitC : List (W × O) → Clf W O K) (fitK : List (W × List K) → W → List K) (lit : Nat → V) (d : Nat)
    (rows : List (Row V W O)) (treat control : Option (Arg V)) : Except Err (XP W O K) :=
  match useEncoder false d none rows with
  | .error e => .error e
  | .ok enc => match encodeRows lit enc rows, getTrCtrl lit enc true treat, getTrCtrl lit enc false control with
    | .error e, _, _ => .error e
    | _, .error e, _ => .error e
    | _, _, .error e => .error e
    | .ok xs, .ok t, .ok c => match fitBase fitC (groups t xs rows), fitBase fitC (groups c xs rows) with
      | .error e, _ => .error e
      | _, .error e => .error e
      | .ok ft, .ok f0 => match mapE (imputeControl ft.classes ft) (groups c xs rows), mapE (imputeTreat ft.classes f0) (groups t xs rows) with
        | .error e, _ => .error e
        | _, .error e => .error e
        | .ok hc, .ok ht => .ok ⟨ft.classes, fitK ht, fitK hc⟩

/-- `XLearner.estimate(rho, target_outcome)` of one row (meta_learner.py:1298-1315, 1553-1561) -/
def xEstimateP [Mul K] [Add K] [Sub K] [One K] (s : XP W O K) (rho : K) (target : Option O) (wv : W) : Except Err (List K) :=
  let ce := List.zipWith (fun a b => rho * a + (1 - rho) * b) (s.kt wv) (s.k0 wv)
  match target with
  | none => .ok ce
  | some o => match checkClasses s.classes o with
    | .error e => .error e
    | .ok i => match ce[i]? with
      | some a => .ok [a]
      | none => .error .index

/-! ### XLearner, separate treatments -/

/-- the two second stage models of one treatment vector (meta_learner.py:1530-1548) -/
structure Pair (W K : Type) where
  kt : W → K
  k0 : W → K

/-- the rows with these ordinals: `get_groups(treat, x, False, wv, y)` (estimator_model/utils.py:160-173) -/
def ordGroup (rows : List (Row V W K)) (os : List (List Nat)) (l : List Nat) : List (W × K) :=
  ((rows.zip os).filter (fun p => decide (p.2 = l))).map (fun p => (p.1.wv, p.1.y))

/-- fitting the models of one treatment vector (meta_learner.py:1531-1544) -/
def fitPair [Sub K] (fitM fitK : List (W × K) → W → K) (f0 : W → K) (gc gt : List (W × K)) : Except Err (Pair W K) :=
  match fitBase fitM gt with
  | .error e => .error e
  | .ok ft => .ok ⟨fitK (gt.map (fun p => (p.1, p.2 - f0 p.1))), fitK (gc.map (fun p => (p.1, ft p.1 - p.2)))⟩

/-- `XLearner._fit_separate_treat` for a continuous outcome (meta_learner.py:1463-1551): the models of the treatment vectors after the
first one, which is the control -/
def xFitSeparate [Sub K] (fitM fitK : List (W × K) → W → K) (d : Nat) (rows : List (Row V W K)) : Except Err (List (Pair W K)) :=
  let cats := (List.range d).map (fun j => uniq (column rows j))
  match mapE (fun r : Row V W K => ordinals cats r.x) rows with
  | .error e => .error e
  | .ok os => match labels cats with
    | [] => .error .index
    | l0 :: ls => match fitBase fitM (ordGroup rows os l0) with
      | .error e => .error e
      | .ok f0 => mapE (fun l => fitPair fitM fitK f0 (ordGroup rows os l0) (ordGroup rows os l)) ls

/-- `_prepare_separate_treat` of one row for a continuous outcome (meta_learner.py:1563-1580) -/
def xSeparate [Mul K] [Add K] [Sub K] [One K] (ps : List (Pair W K)) (rho : K) (wv : W) : List K :=
  ps.map (fun p => rho * p.kt wv + (1 - rho) * p.k0 wv)

/-- `XLearner.outcome_classes_` (meta_learner.py:1259-1273): `none` for a continuous outcome; the classes of `ft_model` if it has been
fitted; otherwise the first entry of the list of fitted pairs is asked for `classes_`, but it is a tuple. -/
def xOutcomeClasses (discrete : Bool) (ft : Option (List O)) : Except Err (Option (List O)) :=
  if discrete then (match ft with
    | some c => .ok (some c)
    | none => .error .attr)
  else .ok none

/-- `XLearner.estimate` after `fit(combined_treatment=False)` (meta_learner.py:1298-1315): `ft_model` itself is never fitted there, only
clones of it; `outcome_classes_` is read first -/
def xEstimateSeparate [Mul K] [Add K] [Sub K] [One K] (O : Type) [LinearOrder O] (discrete : Bool) (ps : List (Pair W K)) (rho : K) (wv : W) :
    Except Err (List K) :=
  match xOutcomeClasses (O := O) discrete none with
  | .error e => .error e
  | .ok _ => .ok (xSeparate ps rho wv)

end YL.Table
