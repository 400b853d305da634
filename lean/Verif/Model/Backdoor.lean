import Verif.Model.CausalGraph
import Verif.Model.Prob

/-!
# Model of the back-door part of `ylearn/causal_model/model.py`

`treatment` and `outcome` are Python sets built by `set(...)`; here they are lists whose order and repeats do
not matter for the results proved. The iteration order of the set `initial_set` is unknown: it is given by
the parameter `ord`, about which only "a permutation" is ever assumed.
-/

namespace YL

variable {α : Type} [DecidableEq α] [LatentNames α]

/-- The argument `adjust` (model.py:576). -/
inductive Adjust where
  | simple | minimal | all | other
  deriving DecidableEq

/-- The first component of the answer: a list of names for `simple`, a list of tuples otherwise.
(model.py:641-681). -/
inductive BackdoorList (α : Type) where
  | names (l : List α)
  | sets (l : List (List α))
  deriving DecidableEq

/-- `is_valid_backdoor_set` (model.py:538-574). -/
def isValidBackdoorSet (g : CG α) (set_ treatment outcome : List α) : Except Err Bool :=
  match checkNodes g.causation.keys (treatment ++ outcome ++ set_) with
  | .error e => .error e
  | .ok _ =>
    match g.removeOutgoing treatment with
    | .error e => .error e
    | .ok gm => gm.explicitDag.dSeparated treatment outcome set_

/-- the loop with `break` (model.py:651-654) -/
def firstSep (sep : List α → Except Err Bool) : List (List α) → Except Err (List (List α))
  | [] => .ok []
  | i :: is => match sep i with
    | .error e => .error e
    | .ok true => .ok [i]
    | .ok false => firstSep sep is

/-- the list comprehension (model.py:656-660) -/
def allSep (sep : List α → Except Err Bool) : List (List α) → Except Err (List (List α))
  | [] => .ok []
  | i :: is => match sep i with
    | .error e => .error e
    | .ok b => match allSep sep is with
      | .error e => .error e
      | .ok l => .ok (if b then i :: l else l)

/-- the loop over `treatment` collecting `nx.descendants` (model.py:645-646) -/
def desSet (d : MDG α) : List α → Except Err (List α)
  | [] => .ok []
  | t :: ts => match d.descendants t with
    | .error e => .error e
    | .ok l => match desSet d ts with
      | .error e => .error e
      | .ok l' => .ok (l ++ l')

/-- the estimand (model.py:684-688) -/
def backdoorProb (treatment outcome adset : List α) : Prob α :=
  .mk [] [] adset [.mk outcome (treatment ++ adset) [] [], .mk adset [] [] []]

/-- The search part for `minimal`, `all` and unknown styles (model.py:641-681). -/
def backdoorSearch (ord : List α → List α) (g : CG α) (d : MDG α) (treatment outcome : List α)
    (adjust : Adjust) : Except Err (BackdoorList α × Prob α) :=
  match desSet g.observedDag treatment with
  | .error e => .error e
  | .ok des =>
    let initial := ord (g.causation.keys.filter (fun v => v ∉ treatment ∧ v ∉ outcome ∧ v ∉ des))
    let sep := fun i => d.dSeparated treatment outcome i
    let found := if adjust = .minimal then firstSep sep (powerset initial) else allSep sep (powerset initial)
    match found with
    | .error e => .error e
    | .ok sets =>
      let check : Except Err Unit := if sets.isEmpty then
          match sep [] with
          | .error e => .error e
          | .ok true => .ok ()
          | .ok false => .error .identification
        else .ok ()
      match check with
      | .error e => .error e
      | .ok _ =>
        let sets' := if sets.isEmpty then [[]] else sets
        let adset := sets'.headD []
        if adjust = .all ∨ adjust = .minimal then .ok (.sets sets', backdoorProb treatment outcome adset)
        else .error .identification

/-- `get_backdoor_set(treatment, outcome, adjust)` (model.py:576-692); `none` is the Python `None`. -/
def getBackdoorSet (ord : List α → List α) (g : CG α) (treatment outcome : List α) (adjust : Adjust) :
    Except Err (Option (BackdoorList α × Prob α)) :=
  match checkNodes g.causation.keys (outcome ++ treatment) with
  | .error e => .error e
  | .ok _ =>
    match g.removeOutgoing treatment with
    | .error e => .error e
    | .ok gm =>
      let d := gm.explicitDag
      let determine := if treatment.all (fun t => g.causation.get t = []) then
          d.dSeparated treatment outcome [] else .ok true
      match determine with
      | .error e => .error e
      | .ok false => .ok none
      | .ok true =>
        if adjust = .simple then
          let parents := treatment.flatMap (fun t => g.causation.get t)
          .ok (some (.names parents, backdoorProb treatment outcome parents))
        else match backdoorSearch ord g d treatment outcome adjust with
          | .error e => .error e
          | .ok r => .ok (some r)

end YL
