import Verif.Model.Backdoor
import Verif.Model.Frontdoor
import Verif.Model.Id

/-!
# Model of `identify`, `estimate` and `identify_estimate` of `CausalModel`

`ylearn/causal_model/model.py:104-123, 245-522`. The object is a value that is passed from call to call. The object
keeps the caller's own `treatment` and `outcome` (no copy is made), so a call that empties the caller's set empties
the attribute as well.

Simplifications: the estimator model is an arbitrary object of which only the calls are recorded; a data frame is the
list of its columns.
-/

namespace YL.CMod

variable {α : Type} [DecidableEq α] [LatentNames α] [CharNames α]

/-- A `treatment`, `outcome`, `adjustment` or `covariate` argument: a string, a set or a list (model.py:257-261,
357-369). -/
inductive Arg (α : Type) where
  | name (x : α)
  | set (l : List α)
  | list (l : List α)
  deriving DecidableEq

/-- `set(arg)` (model.py:166, 409-411): a string is split into its characters -/
def Arg.asSet : Arg α → List α
  | .name x => CharNames.chars x
  | .set l => l
  | .list l => l

/-- `set(arg)` or `{arg}` for a string (model.py:610-611, 560-561; utils.py:93, _common.py:37) -/
def Arg.wrapped : Arg α → List α
  | .name x => [x]
  | .set l => l
  | .list l => l

/-- the truth value of an argument (model.py:289) -/
def Arg.truthy : Arg α → Bool
  | .name x => !(CharNames.chars x).isEmpty
  | .set l => !l.isEmpty
  | .list l => !l.isEmpty

/-- One entry of the dictionary `identify` returns (model.py:299-304, 315, 332). -/
inductive Item (α : Type) where
  | id (p : Prob α)
  | backdoor (r : Option (BackdoorList α × Prob α))
  | frontdoor (r : BackdoorList α × Prob α)

/-- The argument `identify_method` (model.py:263-282). -/
inductive Method where
  | auto
  | general
  | backdoor (a : Adjust)
  | frontdoor (a : Adjust)
  | other
  deriving DecidableEq

/-- The attributes of a `CausalModel` (model.py:113-121). -/
structure CM (α : Type) where
  graph : CG α
  treatment : Option (Arg α)
  outcome : Option (Arg α)
  adjustmentSet : Option (List (List α))
  cached : List ((Arg α × Arg α) × List (Item α))

/-- `CausalModel(causal_graph)` (model.py:113-121) -/
def CM.new (g : CG α) : CM α := ⟨g, none, none, none, []⟩

/-- `get_backdoor_set(treatment, outcome, adjust)` as a method: it remembers the list of sets (model.py:576-692) -/
def backdoor (ord : List α → List α) (m : CM α) (T Y : Arg α) (a : Adjust) :
    Except Err (Option (BackdoorList α × Prob α)) × CM α :=
  let r := getBackdoorSet ord m.graph T.wrapped Y.wrapped a
  match r with
  | .ok (some (.sets l, _)) => (r, { m with adjustmentSet := some l })
  | _ => (r, m)

/-- `get_frontdoor_set(treatment, outcome, adjust)` (model.py:835-909) and the caller's arguments afterwards. A list or a
set as the source is not hashable, so networkx does not find it in the graph (`all_simple_paths`, model.py:865); as the
target networkx accepts it, and `{outcome}` raises a TypeError (model.py:869). -/
def frontdoor (ord : List α → List α) (m : CM α) (T Y : Arg α) (a : Adjust) :
    Except Err (BackdoorList α × Prob α) × Arg α × Arg α :=
  match T, Y with
  | .name t, .name y => ((getFrontdoorSet ord m.graph (.name t) (.name y) a).1, T, Y)
  | .set t, .set y =>
    match getFrontdoorSet ord m.graph (.set t) (.set y) a with
    | (r, .set t', .set y') => (r, .set t', .set y')
    | (r, _, _) => (r, T, Y)
  | _, _ =>
    match checkNodes m.graph.causation.keys (T.asSet ++ Y.asSet) with
    | .error e => (.error e, T, Y)
    | .ok _ =>
      match T with
      | .name t => if t ∈ m.graph.observedDag.nodes then (.error .type, T, Y) else (.error .nodeNotFound, T, Y)
      | _ => (.error .nodeNotFound, T, Y)

/-- `self.cached_result[f"Treatment: {treatment}, Outcome: {outcome}"].append(entry)` (model.py:305-331) -/
def CM.cache (m : CM α) (T Y : Arg α) (l : List (Item α)) : CM α := { m with cached := m.cached ++ [((T, Y), l)] }

/-- `identify(treatment, outcome, identify_method)` (model.py:245-332): the answer and the object. The attributes
`treatment` and `outcome` are the caller's objects, so they are also the caller's arguments after the call. -/
def identify (ord : List α → List α) (m : CM α) (T Y : Arg α) (method : Method) : Except Err (List (Item α)) × CM α :=
  if T.truthy && Y.truthy then
    match checkNodes m.graph.causation.keys (T.wrapped ++ Y.wrapped) with
    | .error e => (.error e, m)
    | .ok _ =>
      let m1 := { m with treatment := some T, outcome := some Y }
      match method with
      | .auto =>
        match m.graph.id Y.asSet T.asSet with
        | .error e => (.error e, m1)
        | .ok p =>
          match backdoor ord m1 T Y .simple with
          | (.error e, m2) => (.error e, m2)
          | (.ok b, m2) =>
            match frontdoor ord m2 T Y .simple with
            | (.error e, T', Y') => (.error e, { m2 with treatment := some T', outcome := some Y' })
            | (.ok f, T', Y') =>
              (.ok [.id p, .backdoor b, .frontdoor f],
                { m2 with treatment := some T', outcome := some Y' }.cache T' Y' [.id p, .backdoor b, .frontdoor f])
      | .general =>
        match m.graph.id Y.asSet T.asSet with
        | .error e => (.error e, m1)
        | .ok p => (.ok [.id p], m1.cache T Y [.id p])
      | .backdoor a =>
        match backdoor ord m1 T Y a with
        | (.error e, m2) => (.error e, m2)
        | (.ok b, m2) => (.ok [.backdoor b], m2.cache T Y [.backdoor b])
      | .frontdoor a =>
        match frontdoor ord m1 T Y a with
        | (.error e, T', Y') => (.error e, { m1 with treatment := some T', outcome := some Y' })
        | (.ok f, T', Y') =>
          (.ok [.frontdoor f], { m1 with treatment := some T', outcome := some Y' }.cache T' Y' [.frontdoor f])
      | .other => (.error .identification, m1)
  else (.error .assertion, m)

/-- The arguments an estimator model is fitted with (model.py:420-427). -/
structure FitArgs (α : Type) where
  treatment : Option (Arg α)
  outcome : Option (Arg α)
  adjustment : Option (Arg α)
  covariate : Option (Arg α)
  deriving DecidableEq

/-- the elements an optional argument contributes to a check (`filter(None, S)`, utils.py:90-94, _common.py:32-41) -/
def optNames : Option (Arg α) → List α
  | none => []
  | some a => if a.truthy then a.wrapped else []

/-- `check_cols` (_common.py:32-41) -/
def checkCols (cols : List α) (names : List α) : Except Err Unit :=
  if names.all (· ∈ cols) then .ok () else .error .assertion

/-- `temp_set` (model.py:408-412) -/
def tempSet (adjustment covariate : Option (Arg α)) : List α :=
  match adjustment, covariate with
  | some a, some c => a.asSet ++ c.asSet
  | some a, none => a.asSet
  | none, some c => c.asSet
  | none, none => []

/-- the adjustment used when neither an adjustment set nor covariates are given (model.py:398-405) -/
def defaultAdjustment (ord : List α → List α) (m : CM α) : Except Err (Arg α) :=
  match m.adjustmentSet with
  | some (s :: _) => .ok (.set s)
  | some [] => .error .index
  | none =>
    match m.treatment, m.outcome with
    | some T, some Y =>
      match (backdoor ord m T Y .simple).1 with
      | .error e => .error e
      | .ok (some (.names l, _)) => .ok (.list l)
      | .ok (some (.sets _, _)) => .error .type
      | .ok none => .error .type
    | _, _ => .error .type

/-- `estimate(estimator_model, data, treatment, outcome, adjustment, covariate)` (model.py:334-431) for data with the
columns `cols`: the arguments of `estimator_model.fit` (`none`: not called, as the estimator is fitted already), after
which `estimator_model.estimate` is called -/
def estimate (ord : List α → List α) (m : CM α) (cols : List α) (fitted : Bool)
    (treatment outcome adjustment covariate : Option (Arg α)) : Except Err (Option (FitArgs α)) :=
  match checkCols cols (optNames treatment ++ optNames outcome ++ optNames adjustment ++ optNames covariate) with
  | .error e => .error e
  | .ok _ =>
    match checkNodes m.graph.causation.keys (optNames adjustment ++ optNames covariate) with
    | .error e => .error e
    | .ok _ =>
      let Y := if outcome = none then m.outcome else outcome
      let T := if treatment = none then m.treatment else treatment
      if adjustment = none ∧ covariate = none then
        match defaultAdjustment ord m with
        | .error e => .error e
        | .ok a => .ok (if fitted then none else some ⟨T, Y, some a, none⟩)
      else
        match m.treatment, m.outcome with
        | some T0, some Y0 =>
          match isValidBackdoorSet m.graph (tempSet adjustment covariate) T0.wrapped Y0.wrapped with
          | .error e => .error e
          | .ok false => .error .assertion
          | .ok true => .ok (if fitted then none else some ⟨T, Y, adjustment, covariate⟩)
        | _, _ => .error .type

/-- What `identify_estimate` hands to `fit` as covariates (model.py:502-514): the loop runs over the pair that
`get_backdoor_set` returns. -/
inductive Cov (α : Type) where
  | answer (l : BackdoorList α)
  | prob (p : Prob α)

/-- An estimator model for data sets of type `D`: `fit(data, outcome, treatment, covariate)` and `estimate(data)` may
raise; its state is any `F` (`none`: not fitted) (estimator_model/base_models.py:15-60, model.py:507-520). -/
structure Estimator (α F R : Type) where
  fit : Arg α → Arg α → Cov α → Except Err F
  estimate : Option F → Except Err R

/-- the loop of `identify_estimate` (model.py:504-520): every copy is fitted, the original is asked -/
def estLoop {F R : Type} (E : Estimator α F R) (original : Option F) (T Y : Arg α) :
    List (Cov α) → Except Err (List (F × R))
  | [] => .ok []
  | c :: cs =>
    match E.fit T Y c with
    | .error e => .error e
    | .ok f =>
      match E.estimate original with
      | .error e => .error e
      | .ok r =>
        match estLoop E original T Y cs with
        | .error e => .error e
        | .ok l => .ok ((f, r) :: l)

/-- `identify_estimate(data, outcome, treatment, estimator_model, identify_method)` (model.py:433-522). `adjust` is the
style handed on; the default "auto" is an unknown style. -/
def identifyEstimate {F R : Type} (ord : List α → List α) (m : CM α) (cols : List α) (E : Estimator α F R)
    (original : Option F) (T Y : Arg α) (adjust : Adjust) : Except Err (List (F × R)) :=
  match checkCols cols (T.wrapped ++ Y.wrapped) with
  | .error e => .error e
  | .ok _ =>
    match checkNodes m.graph.causation.keys (T.wrapped ++ Y.wrapped) with
    | .error e => .error e
    | .ok _ =>
      match (backdoor ord m T Y adjust).1 with
      | .error e => .error e
      | .ok none => .error .type
      | .ok (some (l, p)) => estLoop E original T Y [.answer l, .prob p]

end YL.CMod
