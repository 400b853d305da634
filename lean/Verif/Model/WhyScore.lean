import Verif.Model.RLoss
import Verif.Model.Why

/-!
# Model of `Why.score`

ylearn/api/_why.py: `score`, `_score_rloss`, `_create_scorers`; the scorers are those of Verif.Model.RLoss.

Simplifications: fitting the scorer of a treatment on the preprocessed test data is a given function of the treatment (`RLoss.fitCont`, `RLoss.fitDisc`), and so
is the uplift score (Verif.Model.WhyPolicy); the fitted estimators are arbitrary.
-/

namespace YL.Why
open YL YL.Meta

variable {C V K N S O : Type} [DecidableEq C] [DecidableEq V]

/-- what `score` uses of a fitted object (_why.py:919-1011): the treatments with the classes of their encoders and the roles of the columns -/
structure ScoreState (C V : Type) where
  treatment : List C
  discrete : Bool
  classes : C → List V
  adjustment : Option (List C)
  covariate : Option (List C)
  instrument : Option (List C)

/-- what is handed to an estimator as an arm: a code of a discrete treatment, or the value of a continuous one (_why.py:997-1003) -/
inductive ArmArg (V : Type) where
  | code (n : Nat)
  | raw (v : Item V)
deriving DecidableEq

/-- `xe.transform([treat[i]]).tolist()[0]` or `treat[i]` (_why.py:997-1003); a list is no label -/
def armArg (s : ScoreState C V) (x : C) (v : Item V) : Except Err (ArmArg V) :=
  if s.discrete then
    match v with
    | .atom a => match code (s.classes x) a with
      | .error e => .error e
      | .ok n => .ok (.code n)
    | .seq _ => .error .value
  else .ok (.raw v)

/-- the `i`-th arm, if arms are given (_why.py:999-1003) -/
def armAt (s : ScoreState C V) (x : C) (arms : Option (List (Item V))) (i : Nat) : Except Err (Option (ArmArg V)) :=
  match arms with
  | none => .ok none
  | some l => match l[i]? with
    | none => .error .index
    | some v => match armArg s x v with
      | .error e => .error e
      | .ok a => .ok (some a)

/-- `scorer.fit(test_data, self.outcome_, x, **fit_options)` (_why.py:1004 with effect_score.py:193-236): `RLoss.fit` has no parameter `instrument` and
requires covariates -/
def fitScorer (s : ScoreState C V) (fit : C → Except Err S) (x : C) : Except Err S :=
  if s.instrument.isSome then .error .type
  else if s.covariate.isNone then .error .assertion
  else fit x

/-- one round of the loop of `_score_rloss` (_why.py:995-1007) -/
def scoreOne [Field K] [DecidableEq K] (s : ScoreState C V) (fit : C → Except Err (RLoss.Scorer K)) (est : C → RLoss.TestEstimator K N (ArmArg V))
    (treat control : Option (List (Item V))) (p : C × Nat) : Except Err K :=
  match armAt s p.1 treat p.2 with
  | .error e => .error e
  | .ok t => match armAt s p.1 control p.2 with
    | .error e => .error e
    | .ok c => match fitScorer s fit p.1 with
      | .error e => .error e
      | .ok sc => RLoss.score sc (est p.1) t c

/-- `_score_rloss(test_data, treat, control)` (_why.py:988-1011) -/
def scoreRloss [Field K] [DecidableEq K] (s : ScoreState C V) (fit : C → Except Err (RLoss.Scorer K)) (est : C → RLoss.TestEstimator K N (ArmArg V))
    (treat control : TC V) : Except Err K :=
  match safeTC s.treatment.length treat with
  | .error e => .error e
  | .ok t => match safeTC s.treatment.length control with
    | .error e => .error e
    | .ok c => match mapE (scoreOne s fit est t c) s.treatment.zipIdx with
      | .error e => .error e
      | .ok sa => .ok (sa.sum / (sa.length : K))

/-- `score(test_data, treat, control, target_outcome, scorer)` (_why.py:919-954). `uplift` is the score by the uplift model (_why.py:956-986) with the kind of curve, the arms and a target
outcome: `score` does not hand on its own. -/
def score [Field K] [DecidableEq K] (s : ScoreState C V) (uplift : String → TC V → TC V → Option O → Except Err K)
    (fit : C → Except Err (RLoss.Scorer K)) (est : C → RLoss.TestEstimator K N (ArmArg V)) (given : Bool) (treat control : TC V) (target : Option O)
    (scorer : String) : Except Err K :=
  if given = false then .error .assertion
  else if scorer = "auuc" ∨ scorer = "qini" then uplift scorer treat control none
  else scoreRloss s fit est treat control

end YL.Why
