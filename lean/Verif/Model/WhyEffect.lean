import Mathlib.Algebra.Field.Defs
import Mathlib.Analysis.Real.Sqrt
import Verif.Model.Why
import Verif.Model.MetaLearner

/-!
# Model of the effect queries of `ylearn/api/_why.py` and of `cost_effect` (`ylearn/api/utils.py`)

A row of the test data is an index label, the values of the treatment columns and the rest `R` (the caller's row). Preprocessing works
row by row, so it is part of the estimators.

Discrete treatments: the fitted estimator of a treatment is an arbitrary function `est x row t c` of one row and two codes.
Continuous treatments: the estimator is `DoubleML` (the default of `Why`, _why.py:333-343) with one treatment column and one outcome,
whose slope at a row is `f` (the number `fij` of double_ml.py:602-662); numpy shapes are modelled because the answers depend on
them. Arithmetic is exact. Treatment names are distinct.
-/

namespace YL.WhyE

open YL Why

variable {C V I R K : Type} [DecidableEq C] [DecidableEq V] [DecidableEq I]

/-- one row of the test data: index label, values of the treatments, everything else (_why.py:807-810) -/
structure Row (C V I R : Type) where
  /-- the index label (_why.py:807) -/
  label : I
  /-- the values of the treatment columns (_why.py:810) -/
  value : C → V
  /-- the caller's row (_why.py:798) -/
  rest : R

/-- `test_data_preprocessed.loc[ri:ri]` (_why.py:808): the rows with this label. pandas finds a label of a non-unique index only if its
occurrences are adjacent; otherwise it raises `KeyError`. -/
def locRows (rows : List (Row C V I R)) (i : I) : Except Err (List (Row C V I R)) :=
  if ((rows.dropWhile (fun r => decide (r.label ≠ i))).takeWhile (fun r => decide (r.label = i))).length =
      (rows.filter (fun r => decide (r.label = i))).length
  then .ok (rows.filter (fun r => decide (r.label = i)))
  else .error .key

/-- the effect of one treatment for the rows found under one label (_why.py:809-824): the first row decides -/
def indivOne [Zero K] (est : C → R → Nat → Nat → K) (classes : C → List V) (rs : List (Row C V I R)) (x : C) (control : V) :
    Except Err (V × K) :=
  match rs with
  | [] => .error .index
  | r :: rs =>
    if r.value x = control then .ok (r.value x, 0)
    else match Meta.mapE (fun r : Row C V I R => code (classes x) (r.value x)) (r :: rs), code (classes x) (r.value x),
        code (classes x) control with
      | .error e, _, _ => .error e
      | _, .error e, _ => .error e
      | _, _, .error e => .error e
      | .ok _, .ok t, .ok c => .ok (r.value x, est x r.rest t c)

/-- the controls of `_individual_causal_effect_discrete` (_why.py:799-802, api/utils.py:133-150 with a list) -/
def controls (classes : C → List V) (treatment : List C) (control : Option (List V)) : Except Err (List V) :=
  match control with
  | some cs => if cs.length = treatment.length then .ok cs else .error .assertion
  | none => Meta.mapE (fun x => firstClass (classes x)) treatment

/-- one entry of the result (_why.py:825-827): the label of the row, the treatment, the two compared values and the effect -/
def entry [Zero K] (est : C → R → Nat → Nat → K) (classes : C → List V) (label : I) (rs : List (Row C V I R)) (p : C × V) :
    Except Err ((I × C × V × V) × K) :=
  match indivOne est classes rs p.1 p.2 with
  | .error e => .error e
  | .ok q => .ok ((label, p.1, q.1, p.2), q.2)

/-- the entries of one row (_why.py:807-827) -/
def rowEntries [Zero K] (est : C → R → Nat → Nat → K) (classes : C → List V) (arms : List (C × V)) (rows : List (Row C V I R))
    (r : Row C V I R) : Except Err (List ((I × C × V × V) × K)) :=
  match locRows rows r.label with
  | .error e => .error e
  | .ok rs => Meta.mapE (entry est classes r.label rs) arms

/-- `_individual_causal_effect_discrete(test_data, control)` (_why.py:797-828): the entries in order. `pd.concat` of nothing raises
`ValueError`. -/
def individual [Zero K] (est : C → R → Nat → Nat → K) (classes : C → List V) (treatment : List C) (control : Option (List V))
    (rows : List (Row C V I R)) : Except Err (List ((I × C × V × V) × K)) :=
  match controls classes treatment control with
  | .error e => .error e
  | .ok cs => match Meta.mapE (rowEntries est classes (treatment.zip cs) rows) rows with
    | .error e => .error e
    | .ok ls => if ls.flatten.isEmpty then .error .value else .ok ls.flatten

/-- `cost_effect(fn_cost, test_data, effect, effect_name)` (api/utils.py:100-123). The cost function sees the row of the test data (if
there is one) and the effect, and may raise. -/
def costEffect (cost : Option R → K → Except Err K) (data : Option (List R)) (effect : List K) : Except Err (List K) :=
  match data with
  | none => Meta.mapE (cost none) effect
  | some rs => if rs.length = effect.length then Meta.mapE (fun p : R × K => cost (some p.1) p.2) (rs.zip effect) else .error .assertion

/-- the effects of one comparison in `_map_effect` (_why.py:1173-1180). `given` says whether test data were passed; otherwise `rows` are
the training data and the cost function is not used. -/
def rowEffects (est : C → R → Nat → Nat → K) (cost : Option (Option R → K → Except Err K)) (given : Bool)
    (rows : List (Row C V I R)) (x : C) (t c : Nat) : Except Err (List K) :=
  match cost, given with
  | some f, true => costEffect f (some (rows.map Row.rest)) (rows.map (fun r : Row C V I R => est x r.rest t c))
  | _, _ => .ok (rows.map (fun r : Row C V I R => est x r.rest t c))

/-- one comparison of `_map_effect` with the handler `_to_ite` (_why.py:693-695, 1172-1180): the name of the column and the effects -/
def iteColumn (est : C → R → Nat → Nat → K) (classes : C → List V) (cost : Option (Option R → K → Except Err K)) (given : Bool)
    (rows : List (Row C V I R)) (x : C) (t c : Nat) : Except Err ((C × V × V) × List K) :=
  match uncode (classes x) t, uncode (classes x) c, rowEffects est cost given rows x t c with
  | .error e, _, _ => .error e
  | _, .error e, _ => .error e
  | _, _, .error e => .error e
  | .ok a, .ok b, .ok e => .ok ((x, a, b), e)

/-- `_causal_effect_discrete` with `quantity != 'ATE'`, uncombined (_why.py:630-709, 1150-1182): one named column of effects per
comparison -/
def causalEffect (est : C → R → Nat → Nat → K) (classes : C → List V) (cost : Option (Option R → K → Except Err K)) (given : Bool)
    (treatment : List C) (treat control : Option (List V)) (rows : List (Row C V I R)) : Except Err (List ((C × V × V) × List K)) :=
  match permuteSeq classes treat control treatment with
  | .error e => .error e
  | .ok arms => if arms.isEmpty then .error .value
    else Meta.mapE (fun a : C × Nat × Nat => iteColumn est classes cost given rows a.1 a.2.1 a.2.2) arms

/-- the four numbers of `quantity='ATE'` (_why.py:684-688, 741-745) -/
structure Summary where
  /-- `effect.mean()` (_why.py:684) -/
  mean : ℝ
  /-- `effect.min()` (_why.py:685) -/
  min : ℝ
  /-- `effect.max()` (_why.py:686) -/
  max : ℝ
  /-- `effect.std()` with `ddof=0` (_why.py:687) -/
  std : ℝ

/-- `effect.mean()` (_why.py:684) -/
noncomputable def mean (e : List ℝ) : ℝ := e.sum / e.length

/-- `_to_ate` (_why.py:682-691): `min` of an empty array raises `ValueError` -/
noncomputable def summary (e : List ℝ) : Except Err Summary :=
  match e with
  | [] => .error .value
  | a :: l => .ok ⟨mean (a :: l), l.foldl (fun x y => if y < x then y else x) a, l.foldl (fun x y => if x < y then y else x) a,
      Real.sqrt (mean ((a :: l).map (fun x => (x - mean (a :: l)) ^ 2)))⟩

/-! ### continuous treatments -/

/-- an arm as `DoubleML.estimate` gets it: a number, or a numpy array or pandas Series (0-d arrays are arrays of one number, because
they are reshaped to `(-1, 1)`) (double_ml.py:485-517) -/
inductive Num (K : Type) where
  /-- a Python number (double_ml.py:491-507) -/
  | scalar (k : K)
  /-- an array or Series (double_ml.py:485-489, 514-517) -/
  | array (l : List K)
  deriving DecidableEq

section
variable [CommRing K]

/-- `treat - control` for two arrays of shapes `(n, 1)` and `(m, 1)` (double_ml.py:518): numpy broadcasting -/
def bsub (t c : List K) : Except Err (List K) :=
  if t.length = c.length then .ok (List.zipWith (· - ·) t c)
  else match t, c with
    | [a], c => .ok (c.map (fun b => a - b))
    | t, [b] => .ok (t.map (fun a => a - b))
    | _, _ => .error .value

/-- `np.einsum("nji, ni->nji", fij, d)` with one outcome and one treatment (double_ml.py:518): dimensions of size one are broadcast -/
def einsum (f d : List K) : Except Err (List K) :=
  if f.length = d.length then .ok (List.zipWith (· * ·) f d)
  else match f, d with
    | [a], d => .ok (d.map (fun b => a * b))
    | f, [b] => .ok (f.map (fun a => a * b))
    | _, _ => .error .value

/-- `fij * (treat - control)` for an array `treat` of shape `(m, 1)` and a number `control` (double_ml.py:519-520), flattened: `fij` has
shape `(n, 1, 1)`, so the result has shape `(n, m, 1)` -/
def outer (f : List K) (t : List K) (c : K) : List K := f.flatMap (fun a => t.map (fun b => a * (b - c)))

/-- the difference to be estimated (double_ml.py:511-520) -/
def contrast (f : List K) (t c : Num K) : Except Err (List K) :=
  match t, c with
  | .scalar t, .scalar c => .ok (f.map (fun a => a * (t - c)))
  | .array t, .scalar c => .ok (outer f t c)
  | .scalar t, .array c => einsum f (c.map (fun b => t - b))
  | .array t, .array c => match bsub t c with
    | .error e => .error e
    | .ok d => einsum f d

/-- the treated value used (double_ml.py:478-498, estimator_model/utils.py:76-78): the argument, else the one of the last call, else 1 -/
def theTreat (stored treat : Option (Num K)) : Num K :=
  match treat, stored with
  | some t, _ => t
  | none, some t => t
  | none, none => .scalar 1

/-- `DoubleML.estimate(data, treat, control)` for one continuous treatment and one outcome, `quantity=None`, flattened
(double_ml.py:433-538), and the value of `self.treat` afterwards (set before the computation, also if it fails).
`self.control` is never set by the class. -/
def dmlEstimate (f : List K) (stored treat control : Option (Num K)) : Except Err (List K) × Option (Num K) :=
  (contrast f (theTreat stored treat) (control.getD (.scalar 0)), some (theTreat stored treat))

/-- `np.zeros_like` / `np.ones_like` of an arm (_why.py:733-736): an array, also for a number -/
def likeArm (k : K) : Num K → Num K
  | .scalar _ => .array [k]
  | .array l => .array (l.map (fun _ => k))

/-- the arms `_causal_effect_continuous` passes for one treatment (_why.py:727-736) -/
def contArms (treat control : Option (Num K)) : Option (Num K) × Option (Num K) :=
  match treat, control with
  | some t, none => (some t, some (likeArm 0 t))
  | none, some c => (some (likeArm 1 c), some c)
  | t, c => (t, c)

/-- with a cost function or without (_why.py:738-739, 914-915) -/
def withCost (cost : Option (Option R → K → Except Err K)) (data : Option (List R)) (e : Except Err (List K)) : Except Err (List K) :=
  match e, cost with
  | .error e, _ => .error e
  | .ok e, none => .ok e
  | .ok e, some f => costEffect f data e

/-- `_causal_effect_continuous` for one treatment, `quantity != 'ATE'` (_why.py:711-755): the column of effects and `self.treat` of the
treatment's estimator afterwards. `data` is the test data (if passed), `f` the slopes at its rows (or at the training rows). The
loop over treatments uses another estimator for each of them. -/
def effectCont (f : List K) (cost : Option (Option R → K → Except Err K)) (data : Option (List R)) (stored : Option (Num K))
    (treat control : Option (Num K)) : Except Err (List K) × Option (Num K) :=
  let a := contArms treat control
  let r := dmlEstimate f stored a.1 a.2
  (withCost cost data r.1, r.2)

/-- `_individual_causal_effect_continuous` for one treatment (_why.py:830-842): `xs` are the observed values of the treatment -/
def individualCont (f xs : List K) (stored control : Option (Num K)) : Except Err (List K) × Option (Num K) :=
  dmlEstimate f stored (some (.array xs)) control

/-- `_whatif_continuous` (_why.py:906-917) -/
def whatifCont (f xs ys : List K) (cost : Option (Option R → K → Except Err K)) (data : List R) (stored : Option (Num K)) (new : Num K) :
    Except Err (List K) × Option (Num K) :=
  let r := dmlEstimate f stored (some new) (some (.array xs))
  (match withCost cost (some data) r.1 with
    | .error e => .error e
    | .ok e => if e.length = ys.length then .ok (List.zipWith (· + ·) ys e) else .error .value, r.2)

/-- a call of the API on one fitted object with one continuous treatment; every call brings its own rows: slopes and observed values -/
inductive Call (K : Type) where
  /-- `causal_effect` (_why.py:711-755) -/
  | effect (f : List K) (treat control : Option (Num K))
  /-- `individual_causal_effect` (_why.py:830-842) -/
  | individual (f xs : List K) (control : Option (Num K))
  /-- `whatif` (_why.py:906-917) -/
  | whatif (f xs ys : List K) (new : Num K)

/-- the answer to one call without a cost function (_why.py:711-755, 830-842, 906-917) and the state afterwards -/
def answer (stored : Option (Num K)) : Call K → Except Err (List K) × Option (Num K)
  | .effect f t c => effectCont (R := Unit) f none none stored t c
  | .individual f xs c => individualCont f xs stored c
  | .whatif f xs ys new => whatifCont (R := Unit) f xs ys none [] stored new

/-- the answers to a sequence of calls (_why.py:711-755, 830-842, 906-917) -/
def answers : Option (Num K) → List (Call K) → List (Except Err (List K))
  | _, [] => []
  | st, q :: qs => (answer st q).1 :: answers (answer st q).2 qs

end

/-- the `treatment` argument of `causal_effect` with continuous treatments: it is iterated as it is (_why.py:717-726) -/
inductive TArg where
  /-- `None`: the fitted treatments (_why.py:717-718) -/
  | none
  /-- one name (_why.py:725: iterated over its characters) -/
  | name (s : String)
  /-- a list of names (_why.py:725) -/
  | names (l : List String)

/-- the keys looked up in `estimators_` (_why.py:717-726) -/
def contKeys (fitted : List String) (a : TArg) : Except Err (List String) :=
  let ks := match a with
    | .none => fitted
    | .name s => s.toList.map (fun c => String.singleton c)
    | .names l => l
  if ks.isEmpty then .error .value else Meta.mapE (fun x => if x ∈ fitted then .ok x else .error .key) ks

end YL.WhyE
