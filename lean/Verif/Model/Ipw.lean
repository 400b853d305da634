import Verif.Model.MetaLearner

/-!
# Model of `ylearn/estimator_model/propensity_score.py`

Numbers are elements of a field. A probabilistic classifier is a function of its training data; its answer for a row lists the
probabilities of the classes in increasing order (`predict_proba` of sklearn). Rows are `Meta.Row` with the numerical treatment as the
only entry of `x`. The class offers no `estimate`: the docstring (propensity_score.py:97-128) describes `estimate`, `estimate_ate`, ... but
neither the class nor `BaseEstModel` defines them, so calling them raises `AttributeError`; `_prepare4est` is what exists.
-/

namespace YL.Ipw

open YL YL.Meta

variable {W K : Type} [LinearOrder K] [Field K]

/-- the argument `ps_model` / `ml_model`: a name or a model (propensity_score.py:37-50, 131-136) -/
inductive PsArg (M : Type) where
  | none
  | name (s : String)
  | model (m : M)

/-- `PropensityScore.__init__` (propensity_score.py:37-50): the default is a logistic regression, known by its name; other names raise
`KeyError` -/
def psInit {M : Type} (logistic : M) : PsArg M → Except Err M
  | .none => .ok logistic
  | .name s => if s = "LogisticR" then .ok logistic else .error .key
  | .model m => .ok m

/-- `InversePbWeighting.__init__` (propensity_score.py:131-136): for a name `self.ml_model_dic` is read, which the object does not have -/
def ipwInit {M : Type} (logistic : M) : PsArg M → Except Err M
  | .name _ => .error .attr
  | a => psInit logistic a

/-- `PropensityScore.fit` and `predict_proba(data, adjustment, target=1)` for one row (propensity_score.py:52-64): the second class;
`IndexError` if there is only one. -/
def propensity (fitP : List (W × K) → W → List K) (rows : List (Row K W K)) (w : W) : Except Err K :=
  match (fitP (rows.map (fun r => (r.wv, r.x.headD 0))) w)[1]? with
  | some p => .ok p
  | none => .error .index

/-- the result for one row (propensity_score.py:145-147) -/
def score (eps p x y : K) : K := (x * y + eps) / (p + eps) - ((1 - x) * y + eps) / (1 - p + eps)

/-- `InversePbWeighting._prepare4est` (propensity_score.py:138-148); `eps` is `1e-7` in the code -/
def prepare (eps : K) (fitP : List (W × K) → W → List K) (rows : List (Row K W K)) : Except Err (List K) :=
  mapE (fun r : Row K W K => match propensity fitP rows r.wv with
    | .ok p => .ok (score eps p (r.x.headD 0) r.y)
    | .error e => .error e) rows

end YL.Ipw
