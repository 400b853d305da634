import Verif.Model.MetaLearner
import Verif.Model.Permuted
import Verif.Model.Why

/-!
# Model of the second half of `Why.fit` and of the estimates of the fitted object

ylearn/api/_why.py:266-319 (encode the treatments, preprocess, fit one estimator per treatment and per pair of treatments), `_get_estimator`
(321-326) and the estimates made by `_map_effect` (1150-1182), with the estimator `Why` chooses by itself for discrete treatments without
instruments: a `PermutedTLearner` (_why.py:333-343, estimator_model/_factory.py:173-193, _permuted.py).

Simplifications: continuous outcome, discrete treatments, no instruments. The columns `S` are adjustment and covariates together. The fitted
preprocessor works row by row: `pre` maps the raw values of these columns to the features the base models see. Base models are arbitrary functions of
their training rows. Pairs are fitted one after another (`n_jobs` does not matter: C36).
-/

namespace YL.WhyF

open YL Meta Permuted

variable {C V F K : Type} [DecidableEq C] [LinearOrder V]

/-- `LabelEncoder().fit(data[x]).classes_` (_why.py:270-272): the sorted distinct values of the column -/
def classesOf (L : List (C → V)) (x : C) : List V := uniq (L.map (fun u => u x))

/-- one row handed to the estimator of the treatments `xs` (_why.py:271, 281-283, 298-301) -/
def trainRow (classes : C → List V) (pre : List V → F) (out : V → K) (S : List C) (y : C) (xs : List C) (u : C → V) :
    Except Err (Meta.Row Nat F K) :=
  match mapE (fun x => Why.code (classes x) (u x)) xs with
  | .error e => .error e
  | .ok is => .ok ⟨pre (S.map u), is, out (u y)⟩

/-- a fitted `PermutedTLearner` (_permuted.py:99-101, 161-194): the values of every treatment column and the learners -/
structure Fitted (F K : Type) where
  treats : List (List Nat)
  learners : Dict (List Nat × List Nat) (T Nat F K)

/-- `_copy_and_fit` for one pair (_permuted.py:39-42) -/
def fitPair (fitM : List (F × K) → F → K) (d : Nat) (rows : List (Meta.Row Nat F K)) (p : List Nat × List Nat) :
    Except Err ((List Nat × List Nat) × T Nat F K) :=
  match tFit fitM id d none rows (some (.many p.1)) (some (.many p.2)) with
  | .error e => .error e
  | .ok s => .ok (p, s)

/-- the values of the treatment columns: `treats_` (base_models.py:45-75) -/
def treatsOf (d : Nat) (rows : List (Meta.Row Nat F K)) : List (List Nat) := (List.range d).map (fun j => uniq (column rows j))

/-- `PermutedTLearner.fit` (_permuted.py:161-194) -/
def fitPermuted (fitM : List (F × K) → F → K) (d : Nat) (rows : List (Meta.Row Nat F K)) : Except Err (Fitted F K) :=
  match mapE (fitPair fitM d rows) (pairs (product (treatsOf d rows))) with
  | .error e => .error e
  | .ok ls => .ok ⟨treatsOf d rows, ls⟩

/-- the estimator of the treatments `xs` (_why.py:289-302) -/
def fitKey (fitM : List (F × K) → F → K) (pre : List V → F) (out : V → K) (S : List C) (y : C) (L : List (C → V)) (xs : List C) :
    Except Err (List C × Fitted F K) :=
  match mapE (trainRow (classesOf L) pre out S y xs) L with
  | .error e => .error e
  | .ok rows => match fitPermuted fitM xs.length rows with
    | .error e => .error e
    | .ok f => .ok (xs, f)

/-- `estimator_keys` (_why.py:285-287): every treatment, and every ordered pair of two treatments if there are several -/
def keys (treatment : List C) : List (List C) :=
  treatment.map (fun x => [x]) ++
    (if 1 < treatment.length then (treatment.flatMap (fun a => treatment.map (fun b => (a, b)))).filterMap
      (fun p => if p.1 ≠ p.2 then some [p.1, p.2] else none)
     else [])

/-- `Why.fit` after identification (_why.py:264-319) -/
def fit (fitM : List (F × K) → F → K) (pre : List V → F) (out : V → K) (treatment S : List C) (y : C) (L : List (C → V)) :
    Except Err (Dict (List C) (Fitted F K)) :=
  if S = [] then .error .assertion
  else mapE (fitKey fitM pre out S y L) (keys treatment)

/-- `PermutedTLearner.estimate` of one row (_permuted.py:196-218) -/
def estPermuted [Ring K] (f : Fitted F K) (w : F) (t c : List Nat) : Except Err (List K) :=
  estimate (fun s => [tEstimate s w]) f.treats f.learners (some (.many t)) (some (.many c))

/-- `self._get_estimator(x).estimate(data=..., treat=t, control=c)` for one row with the raw values `r` (_why.py:321-326, 1172-1176) -/
def effect [Ring K] (pre : List V → F) (st : Dict (List C) (Fitted F K)) (xs : List C) (r : List V) (t c : List Nat) : Except Err (List K) :=
  match dget st xs with
  | none => .error .key
  | some f => estPermuted f (pre r) t c

end YL.WhyF
