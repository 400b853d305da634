/-
`get_params` and `set_params` of every estimator (ylearn/estimator_model/base_models.py:80-147; the copy in
ylearn/estimator_model/_naive_forest/_grf_tree.py:268-337 is the same code).

Estimators refer to each other (`DoubleML.x_model`, ...), so a state is a heap: object number ↦ object. The values of
parameters are objects that have `get_params`/`set_params` of this class, or anything else (`plain`).
Simplifications: the nested objects are instances of `BaseEstModel` (a scikit-learn estimator has the same two methods);
an attribute is found in the instance only; the iteration bound `fuel` is Python's recursion limit.
-/
namespace YL.Params

/-- names of parameters: texts, as their characters -/
abbrev Name := List Char

/-- what the exceptions of the two methods are -/
inductive Err where
  | attribute | value | recursion
deriving DecidableEq, Repr

variable {P : Type}

/-- the value of an attribute: an estimator, or anything without `get_params` (base_models.py:103) -/
inductive Val (P : Type) where
  | plain (p : P)
  | obj (i : Nat)
deriving DecidableEq

/-- a dictionary in insertion order -/
abbrev Dict (P : Type) := List (Name × Val P)

/-- an estimator: the sorted names of its constructor's arguments (`_get_param_names`, base_models.py:81-96) and the
attributes of the instance -/
structure Obj (P : Type) where
  names : List Name
  attrs : Dict P

/-- all estimators, by number -/
abbrev Heap (P : Type) := Nat → Obj P

/-- `d[k] = v`: an old key keeps its place, a new one goes to the end -/
def put {V : Type} (k : Name) (v : V) : List (Name × V) → List (Name × V)
  | [] => [(k, v)]
  | (k', v') :: d => if k' = k then (k', v) :: d else (k', v') :: put k v d

/-- `d.get(k)` -/
def find {V : Type} (k : Name) : List (Name × V) → Option V
  | [] => none
  | (k', v) :: d => if k' = k then some v else find k d

/-- `d.update(e)` -/
def update {V : Type} (d e : List (Name × V)) : List (Name × V) := e.foldl (fun d kv => put kv.1 kv.2 d) d

/-- `key + "__" + k` (base_models.py:105) -/
def join (key k : Name) : Name := key ++ '_' :: '_' :: k

/-- `key.partition("__")` (base_models.py:132): the part before the first `__`, and the part after it, if there is one -/
def partition : Name → Name × Option Name
  | [] => ([], none)
  | [c] => ([c], none)
  | a :: b :: l =>
    if a = '_' ∧ b = '_' then ([], some l)
    else (a :: (partition (b :: l)).1, (partition (b :: l)).2)

/-- the body of the loop of `get_params` (base_models.py:101-106); `nested` is the call `value.get_params()` -/
def collect (nested : Nat → Except Err (Dict P)) (deep : Bool) (o : Obj P) : List Name → Dict P → Except Err (Dict P)
  | [], out => .ok out
  | key :: keys, out =>
    match find key o.attrs with
    | none => .error .attribute
    | some (.plain p) => collect nested deep o keys (put key (.plain p) out)
    | some (.obj j) =>
      if deep then
        match nested j with
        | .error e => .error e
        | .ok d => collect nested deep o keys (put key (.obj j) (update out (d.map fun kv => (join key kv.1, kv.2))))
      else collect nested deep o keys (put key (.obj j) out)

/-- `get_params(deep)` (base_models.py:98-107); the nested calls are always deep (line 104) -/
def getParams (h : Heap P) : Nat → Bool → Nat → Except Err (Dict P)
  | 0, _, _ => .error .recursion
  | fuel + 1, deep, i => collect (getParams h fuel true) deep (h i) (h i).names []

/-- `setattr(obj, key, value)` -/
def setAttr (h : Heap P) (i : Nat) (k : Name) (v : Val P) : Heap P :=
  fun j => if j = i then { h i with attrs := put k v (h i).attrs } else h j

/-- `nested_params[key][sub_key] = value` (base_models.py:141), a `defaultdict(dict)` -/
def putNested (key sub : Name) (v : Val P) (n : List (Name × Dict P)) : List (Name × Dict P) :=
  put key (put sub v ((find key n).getD [])) n

/-- the state of the first loop of `set_params`: the heap, `valid_params`, `nested_params` -/
structure Loop (P : Type) where
  heap : Heap P
  valid : Dict P
  nested : List (Name × Dict P)

/-- the first loop of `set_params` (base_models.py:131-144); an exception keeps what was set before -/
def assign (i : Nat) : Dict P → Loop P → Loop P × Option Err
  | [], s => (s, none)
  | (k, v) :: params, s =>
    match find (partition k).1 s.valid with
    | none => (s, some .value)
    | some _ =>
      match (partition k).2 with
      | some sub => assign i params { s with nested := putNested (partition k).1 sub v s.nested }
      | none => assign i params { s with heap := setAttr s.heap i (partition k).1 v, valid := put (partition k).1 v s.valid }

/-- the second loop of `set_params` (base_models.py:146-147); `set` is the call `valid_params[key].set_params(**sub)` -/
def assignNested (set : Heap P → Nat → Dict P → Heap P × Option Err) (valid : Dict P) :
    List (Name × Dict P) → Heap P → Heap P × Option Err
  | [], h => (h, none)
  | (key, sub) :: n, h =>
    match find key valid with
    | some (.obj j) =>
      match set h j sub with
      | (h', none) => assignNested set valid n h'
      | (h', some e) => (h', some e)
    | _ => (h, some .attribute)

/-- `set_params(**params)` on object `i` (base_models.py:109-149): the heap afterwards and the exception, if any -/
def setParams : Nat → Heap P → Nat → Dict P → Heap P × Option Err
  | 0, h, _, _ => (h, some .recursion)
  | _ + 1, h, _, [] => (h, none)
  | fuel + 1, h, i, p :: params =>
    match getParams h (fuel + 1) true i with
    | .error e => (h, some e)
    | .ok valid =>
      match assign i (p :: params) ⟨h, valid, []⟩ with
      | (s, some e) => (s.heap, some e)
      | (s, none) => assignNested (setParams fuel) s.valid s.nested s.heap

/-- `_get_param_names` of `SLearner` (meta_learner.py:96-106): `*args` and `**kwargs` are among the names -/
def sLearnerNames : List Name :=
  ["args", "categories", "is_discrete_outcome", "is_discrete_treatment", "kwargs", "model", "proba_output",
    "random_state"].map String.toList

/-- the attributes an `SLearner` has after its constructor (meta_learner.py:126-140, base_models.py:33-43) -/
def sLearnerAttrs : List Name :=
  ["proba_output", "pred_func", "model", "_is_fitted", "random_state", "is_discrete_treatment", "is_discrete_outcome",
    "categories", "treatment", "outcome", "treats_"].map String.toList

/-- `_get_param_names` of `CausalForest` (causal_forest.py:17-45) -/
def causalForestNames : List Name :=
  ["adjustment_transformer", "categories", "ccp_alpha", "cf_fold", "covariate_transformer", "honest_subsample_num",
    "is_discrete_outcome", "is_discrete_treatment", "max_depth", "max_features", "max_leaf_nodes",
    "min_impurity_decrease", "min_samples_leaf", "min_samples_split", "min_weight_fraction_leaf", "n_estimators", "n_jobs",
    "proba_output", "random_state", "sub_sample_num", "verbose", "warm_start", "x_model", "y_model"].map String.toList

/-- the attributes a `CausalForest` has after its constructor: those of `DoubleML` (causal_forest.py:166-178,
double_ml.py:289-322, base_models.py:33-43) -/
def causalForestAttrs : List Name :=
  ["proba_output", "y_pred_func", "x_pred_func", "cf_fold", "x_model", "y_model", "yx_model", "adjustment_transformer",
    "covariate_transformer", "x_hat_dict", "y_hat_dict", "random_state", "is_discrete_treatment", "is_discrete_outcome",
    "categories", "_is_fitted", "treatment", "outcome", "treats_"].map String.toList

/-- `key == "random_state" or key.endswith("__random_state")` (_generalized_forest/_base_forest.py:77) -/
def isSeed (key : Name) : Bool :=
  key == "random_state".toList || "__random_state".toList.isSuffixOf key

/-- `to_set` of `_make_estimator` (_base_forest.py:75-78): one draw for every seed; `draw n` is the `n`-th draw. The names
come from the sorted keys of `get_params`; here in the order of the dictionary, which only changes which draw goes where -/
def seeds (draw : Nat → Val P) : List Name → Nat → Dict P
  | [], _ => []
  | k :: keys, n => if isSeed k then (k, draw n) :: seeds draw keys (n + 1) else seeds draw keys n

/-- the second half of `_make_estimator` (_base_forest.py:72-81), on the copied estimator `i` -/
def reseed (fuel : Nat) (h : Heap P) (i : Nat) (draw : Nat → Val P) : Heap P × Option Err :=
  match getParams h fuel true i with
  | .error e => (h, some e)
  | .ok d => setParams fuel h i (seeds draw (d.map Prod.fst) 0)

end YL.Params
