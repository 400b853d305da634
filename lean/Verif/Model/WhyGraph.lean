import Verif.Model.Why
import Verif.Model.IV
import Verif.Model.CausalModel

/-!
# Model of the graph side of `Why`: `causal_graph` and the discovery identifier with a causal model

`ylearn/api/_why.py: causal_graph` and `ylearn/api/_identifier.py: IdentifierWithDiscovery._identify_ci_with_causal_model`.
The order of Python sets is not modelled: the results are lists of which only membership is ever stated.
-/

namespace YL.WhyGraph

open YL

/-! ### `Why.causal_graph` -/

/-- the node labels `Outcome(...)`, `Treatments(...)`, `Adjustments(...)`, `Covariates(...)`, `Instruments(...)` (_why.py:544-556). They
differ in their first word; the formatted names behind it are left out. -/
inductive Label where
  | outcome | treatments | adjustments | covariates | instruments
  deriving DecidableEq

variable {C : Type}

/-- `x is not None and len(x) > 0` (_why.py:548, 551, 554) -/
def present : Option (List C) → Bool
  | none => false
  | some l => decide (0 < l.length)

/-- the dictionary `m` of the branch without a causal matrix (_why.py:542-556) -/
def roleDict (adj cov ins : Option (List C)) : Causation Label :=
  (if present adj then [(Label.adjustments, [Label.treatments, Label.outcome])] else []) ++
  (if present cov then [(Label.covariates, [Label.treatments, Label.outcome])] else []) ++
  (if present ins then [(Label.instruments, [Label.treatments])] else [])

/-- `Why.causal_graph()` (_why.py:527-559). `matrix`: the identifier is a discovery identifier that has computed a causal matrix; then
`matrix2dict` is called with the keyword `threshold`, which it does not have (causal_discovery/_base.py:42): `TypeError`. -/
def causalGraph (matrix : Bool) (adj cov ins : Option (List C)) : Except Err (CG Label) :=
  if matrix then .error .type else .ok (CG.init (roleDict adj cov ins))

/-! ### `_identify_ci_with_causal_model` -/

variable {α : Type} [DecidableEq α] [LatentNames α] [CharNames α] {K : Type} [AddCommGroup K] [LinearOrder K] {n : Nat}

/-- `[c for c in l if c != outcome and c not in treatment]` (_identifier.py:147, 156, 164) -/
def others (y : α) (ts l : List α) : List α := l.filter (fun c => decide (c ≠ y ∧ c ∉ ts))

/-- the loop over the further treatments (_identifier.py:148-157); `none` is the Python `None` -/
def restIV (g : CG α) (y : α) (ts : List α) : List α → Option (List α) → Except Err (Option (List α))
  | [], ins => .ok ins
  | x :: xs, ins =>
    if Why.isEmpty ins then .ok ins
    else match getIV g x y with
      | .error e => .error e
      | .ok iv => if Why.isEmpty iv then .ok none
        else restIV g y ts xs (some ((ins.getD []).filter (fun c => decide (c ∈ others y ts (iv.getD [])))))

/-- the `try` block (_identifier.py:144-157); `treatment[0]` of an empty list raises `IndexError` -/
def tryIV (g : CG α) (y : α) (ts : List α) : Except Err (Option (List α)) :=
  match ts with
  | [] => .error .index
  | t :: rest => match getIV g t y with
    | .error e => .error e
    | .ok iv => restIV g y ts rest (iv.map (others y ts))

/-- the instruments (_identifier.py:144-160): every exception gives the empty list -/
def modelIV (g : CG α) (y : α) (ts : List α) : Option (List α) :=
  match tryIV g y ts with
  | .error _ => some []
  | .ok r => r

/-- an element of the list of covariates: a name or a tuple of names (_identifier.py:163) -/
inductive Cov (α : Type) where
  | name (c : α)
  | tuple (l : List α)
  deriving DecidableEq

/-- `ids['backdoor'][0]` (_identifier.py:163): `KeyError` without that entry, `TypeError` for `None` -/
def backdoorEntry : List (CMod.Item α) → Except Err (BackdoorList α)
  | [] => .error .key
  | .backdoor (some r) :: _ => .ok r.1
  | .backdoor none :: _ => .error .type
  | _ :: l => backdoorEntry l

/-- the covariates (_identifier.py:163-166); `set` drops repetitions; tuples are neither the outcome nor treatments nor instruments -/
def covOf (y : α) (ts : List α) (ins : Option (List α)) : BackdoorList α → List (Cov α)
  | .names l => ((others y ts l.dedup).filter (fun c => decide (c ∉ ins.getD []))).map Cov.name
  | .sets l => l.map Cov.tuple

/-- `_identify_ci_with_causal_model(causal_matrix, data, outcome, treatment, method)` (_identifier.py:135-168). The graph is made from
`matrix2dict`, which lists for every variable all its direct and indirect causes (_base.py:59-64). -/
def ciModel (ord : List α → List α) (W : Mat n K) (names : Fin n → α) (y : α) (ts : List α) (method : CMod.Method) :
    Except Err (List (Cov α) × Option (List α)) :=
  let g := CG.init (Discovery.matrix2dict W names)
  let ins := modelIV g y ts
  match (CMod.identify ord (CMod.CM.new g) (.list ts) (.name y) method).1 with
  | .error e => .error e
  | .ok ids => match backdoorEntry ids with
    | .error e => .error e
    | .ok r => .ok (covOf y ts ins r, ins)

end YL.WhyGraph
