import Verif.Model.DoubleML

/-!
# Model of `RLoss`

`ylearn/estimator_model/effect_score.py`: the scorer behind `Why.score(scorer='rloss')`.

Simplifications: as in `Verif.Model.DoubleML` (one outcome, no transformers, base models are arbitrary functions of
their training data); the estimator that is scored is an arbitrary object.
-/

namespace YL.RLoss
open YL YL.DML YL.Meta

variable {V W K N : Type} [LinearOrder V] [Field K]

/-- A fitted scorer (effect_score.py:250-299): whether the treatment is discrete, residuals of treatment and outcome,
covariates, adjustments if given. `combined_treatment` keeps its default `True`. -/
structure Scorer (K : Type) where
  discrete : Bool
  xRes : List (List K)
  yRes : List K
  vs : List (List K)
  ws : Option (List (List K))
deriving DecidableEq

/-- the residuals (effect_score.py:290-297) -/
def residuals (discrete : Bool) (vs : List (List K)) (ws : Option (List (List K))) (xs xh : List (List K))
    (ys yh : List K) : Scorer K :=
  ⟨discrete, List.zipWith (List.zipWith (· - ·)) xs xh, List.zipWith (· - ·) ys yh, vs, ws⟩

/-- `fit` for a continuous treatment with `xd` columns (effect_score.py:193-301); `cov`, `adjust` give covariates and
adjustments of a row -/
def fitCont (fitX : List (W × List K) → W → List K) (fitY : List (W × K) → W → K) (cov : W → List K)
    (adjust : Option (W → List K)) (cfFold xd : Nat) (rows : List (W × List K × K)) : Except Err (Scorer K) :=
  match CF.crossFit fitX cfFold (rows.map (fun r => (r.1, r.2.1))), CF.crossFit fitY cfFold (rows.map (fun r => (r.1, r.2.2))) with
  | .error e, _ => .error e
  | _, .error e => .error e
  | .ok px, .ok py => match collectX xd px, collectY py with
    | .error e, _ => .error e
    | _, .error e => .error e
    | .ok xh, .ok yh =>
      .ok (residuals false (rows.map (fun r => cov r.1)) (adjust.map (fun f => rows.map (fun r => f r.1)))
        (rows.map (·.2.1)) xh (rows.map (·.2.2)) yh)

/-- `fit` for a discrete treatment of a new scorer (effect_score.py:193-301): the treatment is one-hot encoded -/
def fitDisc (fitX : List (W × Nat) → W → List K) (fitY : List (W × K) → W → K) (cov : W → List K)
    (adjust : Option (W → List K)) (cfFold : Nat) (lit : Nat → V) (d : Nat) (rows : List (Row V W K)) :
    Except Err (Encoder V × Scorer K) :=
  match useEncoder true d none rows with
  | .error e => .error e
  | .ok enc => match encodeRows lit enc rows with
    | .error e => .error e
    | .ok xs =>
      match CF.crossFit fitX cfFold ((rows.zip xs).map (fun p => (p.1.wv, convert4onehot p.2))),
        CF.crossFit fitY cfFold (rows.map (fun r => (r.wv, r.y))) with
      | .error e, _ => .error e
      | _, .error e => .error e
      | .ok px, .ok py => match collectX (width enc) px, collectY py with
        | .error e, _ => .error e
        | _, .error e => .error e
        | .ok xh, .ok yh =>
          .ok (enc, residuals true (rows.map (fun r => cov r.wv)) (adjust.map (fun f => rows.map (fun r => f r.wv)))
            (xs.map (fun x => x.map (fun n : Nat => (n : K)))) xh (rows.map (·.y)) yh)

/-- The estimator that is scored (effect_score.py:338-379): names of its covariates and adjustments, its `estimate` for a
table (a list of named values per row) and its attribute `treat` afterwards. The effect of a row is a list: one entry per
treatment column. -/
structure TestEstimator (K N T : Type) where
  covariate : Option (List N)
  adjustment : Option (List N)
  estimate : List (List (N × K)) → Option T → Option T → Except Err (List (List K))
  treatAttr : Option T → Option Nat

/-- the columns of one row under the names of the scored estimator (effect_score.py:338-343); more names than columns
raise `IndexError` -/
def named (names : List N) (vals : List K) : Except Err (List (N × K)) :=
  if vals.length < names.length then .error .index else .ok (names.zip vals)

/-- `test_data` (effect_score.py:337-345); iterating over `None` raises `TypeError` -/
def testData (s : Scorer K) (cov adjust : Option (List N)) : Except Err (List (List (N × K))) :=
  match cov with
  | none => .error .type
  | some cs =>
    match mapE (named cs) s.vs with
    | .error e => .error e
    | .ok tv =>
      match s.ws with
      | none => .ok tv
      | some ws =>
        match adjust with
        | none => .error .type
        | some as =>
          match mapE (named as) ws with
          | .error e => .error e
          | .ok tw => .ok (List.zipWith (· ++ ·) tv tw)

/-- `x_prime[:, treat].reshape(-1, 1)` (effect_score.py:378) -/
def columnOf (x : List (List K)) (k : Nat) : Except Err (List (List K)) :=
  mapE (fun r : List K => match r[k]? with
    | some a => .ok [a]
    | none => .error .index) x

/-- `np.einsum("nij, nj->ni", test_effect, x_prime)` for one outcome (effect_score.py:381) -/
def predicted (effect x : List (List K)) : Except Err (List K) :=
  if effect.length = x.length ∧ (effect.zip x).all (fun p => decide (p.1.length = p.2.length)) then
    .ok ((effect.zip x).map (fun p => dot p.1 p.2))
  else .error .value

/-- `np.mean((y_prime - y_pred) ** 2, axis=0)` (effect_score.py:382) -/
def meanSquare (y p : List K) : K := (List.zipWith (fun a b => (a - b) * (a - b)) y p).sum / (y.length : K)

/-- `score` (effect_score.py:303-384). `comp_transformer` is no attribute of any estimator, so `treat` and `control` are
handed on unchanged. -/
def score {T : Type} (s : Scorer K) (E : TestEstimator K N T) (treat control : Option T) : Except Err K :=
  match testData s E.covariate E.adjustment with
  | .error e => .error e
  | .ok t =>
    match E.estimate t treat control with
    | .error e => .error e
    | .ok eff =>
      if s.discrete then
        match E.treatAttr treat with
        | none => .error .exception
        | some k =>
          match columnOf s.xRes k with
          | .error e => .error e
          | .ok x =>
            match predicted eff x with
            | .error e => .error e
            | .ok p => .ok (meanSquare s.yRes p)
      else
        match predicted eff s.xRes with
        | .error e => .error e
        | .ok p => .ok (meanSquare s.yRes p)

end YL.RLoss
