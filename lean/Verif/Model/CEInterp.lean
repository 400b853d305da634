import Verif.Model.Policy
import Verif.Model.Nx

/-!
# Model of `CEInterpreter`

`ylearn/effect_interpreter/ce_interpreter.py`. The tree is sklearn's `DecisionTreeRegressor`, whose `fit` is an arbitrary function
(theorems state what they need of it); its `apply`, `decision_path` and `predict` are those of `Verif.Model.Tree` and
`Verif.Model.Policy` (the cloned code of sklearn). `float32` rounding is not modelled.
-/

namespace YL.CEInterp

open YL YL.Tree

variable {C K : Type} [DecidableEq C] [Field K] [LinearOrder K] {d : Nat}

/-- A data frame: its columns, and for every row the value of a column (ce_interpreter.py:135-155). -/
structure Frame (C K : Type) where
  cols : List C
  rows : List (C → K)

/-- `data[cov].values` (estimator_model/utils.py:176-190): the named columns, `KeyError` when one is missing -/
def selectCols (fr : Frame C K) (cov : List C) : Except Err (List (List K)) :=
  if cov.all (fun c => decide (c ∈ fr.cols)) then .ok (fr.rows.map (fun r => cov.map r)) else .error .key

/-- the whole frame as a matrix, in the order of its own columns (ce_interpreter.py:277-279) -/
def allCols (fr : Frame C K) : List (List K) := fr.rows.map (fun r => fr.cols.map r)

/-- What `CEInterpreter` uses of an estimator model: `_is_fitted`, `covariate`, `covariate_transformer` (`none`: not there or
`None`) and `estimate(data, quantity=None)` (ce_interpreter.py:155-170, 266-272). A transformer maps every row. -/
structure EstModel (C K : Type) (d : Nat) where
  fitted : Bool
  covariate : Option (List C)
  transformer : Option (List K → List K)
  estimate : Frame C K → Except Err (List (Fin d → K))

/-- `_transform_data` (ce_interpreter.py:260-265) -/
def transform (tr : Option (List K → List K)) (v : List (List K)) : List (List K) :=
  match tr with
  | some f => v.map f
  | none => v

/-- a row of a matrix as the tree reads it (ce_interpreter.py:172, 217) -/
def cells (l : List K) : Nat → K := fun i => l.getD i 0

/-- What a fitted tree is: the number of features it was trained with and its nodes (ce_interpreter.py:172, 240). -/
structure SkTree (K : Type) (d : Nat) where
  nFeatures : Nat
  nodes : List (Node K (Fin d → K))

/-- `np.mean(cate_node, axis=0)` (ce_interpreter.py:180) -/
def meanOf (es : List (Fin d → K)) : Fin d → K := fun k => (es.map (fun e => e k)).sum / (es.length : K)

/-- `np.std(cate_node, axis=0)` (ce_interpreter.py:180); `sqrt` is the square root of the number type -/
def stdOf (sqrt : K → K) (es : List (Fin d → K)) : Fin d → K :=
  fun k => sqrt ((es.map (fun e => (e k - meanOf es k) ^ 2)).sum / (es.length : K))

/-- `causal_effect[mask]` where the mask says which rows have the node on their path (ce_interpreter.py:174-179) -/
def effectsAt (nodes : List (Node K (Fin d → K))) (v : List (List K)) (es : List (Fin d → K)) (i : Nat) : List (Fin d → K) :=
  ((v.zip es).filter (fun p => decide (i ∈ decisionPath nodes (cells p.1)))).map (fun p => p.2)

/-- A fitted interpreter: `covariate`, the estimator's transformer, `_v`, the tree and `node_dict_` (ce_interpreter.py:157-184). -/
structure Interp (C K : Type) (d : Nat) where
  covariate : List C
  transformer : Option (List K → List K)
  v : List (List K)
  tree : SkTree K d
  nodeDict : List ((Fin d → K) × (Fin d → K))

/-- `CEInterpreter.fit(data, est_model)` (ce_interpreter.py:135-184). An effect array whose length is not the number of rows cannot be
reshaped (ce_interpreter.py:172). -/
def fit (sqrt : K → K) (grow : List (List K) → List (Fin d → K) → Except Err (SkTree K d)) (fr : Frame C K)
    (m : EstModel C K d) : Except Err (Interp C K d) :=
  if m.fitted = false then .error .assertion
  else match m.covariate with
    | none => .error .assertion
    | some cov => match selectCols fr cov with
      | .error e => .error e
      | .ok raw =>
        match m.estimate fr with
        | .error e => .error e
        | .ok es =>
          if es.length ≠ raw.length then .error .value
          else match grow (transform m.transformer raw) es with
            | .error e => .error e
            | .ok t => .ok ⟨cov, m.transformer, transform m.transformer raw, t,
                (List.range t.nodes.length).map (fun i =>
                  (meanOf (effectsAt t.nodes (transform m.transformer raw) es i),
                    stdOf sqrt (effectsAt t.nodes (transform m.transformer raw) es i)))⟩

/-- all rows have the width the tree was trained with (ce_interpreter.py:240, 253) -/
def widthOk (t : SkTree K d) (v : List (List K)) : Bool := v.all (fun r => decide (r.length = t.nFeatures))

/-- `_check_features(v, data)` (ce_interpreter.py:235-258): `v` as it is, else the covariates of `data`, else the training rows -/
def checkFeatures (s : Interp C K d) (v : Option (List (List K))) (data : Option (Frame C K)) : Except Err (List (List K)) :=
  match v with
  | some v => if widthOk s.tree v then .ok v else .error .assertion
  | none => match data with
    | none => .ok s.v
    | some fr => match selectCols fr s.covariate with
      | .error e => .error e
      | .ok raw => if widthOk s.tree (transform s.transformer raw) then .ok (transform s.transformer raw)
        else .error .assertion

/-- `interpret(v, data)` (ce_interpreter.py:186-233): for every row the lines of its text -/
def interpret (s : Interp C K d) (v : Option (List (List K))) (data : Option (Frame C K)) :
    Except Err (List (List (Line K))) :=
  match checkFeatures s v data with
  | .error e => .error e
  | .ok rows => .ok (rows.map (fun r => explain s.tree.nodes (cells r)))

/-- `predict(data)` and `decide(data)` (ce_interpreter.py:274-279): the whole frame is transformed and given to the tree; a wrong
number of columns is a `ValueError` of sklearn -/
def predict (s : Interp C K d) (fr : Frame C K) : Except Err (List (Option (Fin d → K))) :=
  if widthOk s.tree (transform s.transformer (allCols fr)) then
    .ok ((transform s.transformer (allCols fr)).map (fun r => Tree.predict s.tree.nodes (cells r)))
  else .error .value

end YL.CEInterp
