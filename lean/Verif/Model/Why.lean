import Mathlib.Data.List.Basic
import Mathlib.Algebra.Group.Int.Defs
import Mathlib.Algebra.Order.Ring.Int
import Verif.Model.Discovery
import Verif.Model.SkEx
import Verif.Model.Utils

/-!
# Model of `ylearn/api/utils.py`, `ylearn/api/_identifier.py` and of parts of `ylearn/api/_why.py`

Column names have type `C`, values of treatments type `V` with a lawful equality (NaN is excluded).
-/

namespace YL.Why

variable {C V K : Type} [DecidableEq C] [DecidableEq V]

/-! ### api/utils.py -/

/-- `safe_remove(alist, value)` for a list of values (api/utils.py:17-31): the first occurrence of each value is removed -/
def safeRemove (l vs : List C) : List C := vs.foldl (fun l v => l.erase v) l

/-- the kinds of numpy arrays that `infer_task_type` distinguishes (utils/_common.py:183-222) -/
inductive Kind where
  | float
  | int
  | other
  deriving DecidableEq

/-- the answers of `infer_task_type` (utils/_common.py:183-222) -/
inductive Task where
  | binary
  | multiclass
  | regression
  deriving DecidableEq

/-- `infer_task_type(y)` for one column of `n` rows with `u` distinct values (_common.py:183-222); `exceeds u n` is
`u > n ** 0.382` -/
def inferTask (exceeds : Nat → Nat → Bool) (k : Kind) (n u : Nat) : Except Err Task :=
  if u = 0 then .error .value
  else if u = 1 then .error .value
  else if u = 2 then .ok .binary
  else match k with
    | .float => .ok .regression
    | .int => if exceeds u n then .ok .regression else .ok .multiclass
    | .other => .ok .multiclass

/-- `is_discrete(y)` (api/utils.py:59-60) -/
def isDiscrete (exceeds : Nat → Nat → Bool) (k : Kind) (n u : Nat) : Except Err Bool :=
  match inferTask exceeds k n u with
  | .error e => .error e
  | .ok t => .ok (decide (t ≠ .regression))

/-- the loop of `align_task_to_first` and `select_by_task` (api/utils.py:69-74, 91-96); `disc` is `is_discrete` of a column -/
def takeTask (disc : C → Except Err Bool) (b : Bool) (limit : Nat) : List C → List C → Except Err (List C)
  | sel, [] => .ok sel
  | sel, x :: xs => match disc x with
    | .error e => .error e
    | .ok d => if d = b then
        (if limit ≤ sel.length + 1 then .ok (sel ++ [x]) else takeTask disc b limit (sel ++ [x]) xs)
      else takeTask disc b limit sel xs

/-- `align_task_to_first(data, columns, count_limit)` (api/utils.py:63-76) -/
def alignTask (disc : C → Except Err Bool) (columns : List C) (limit : Nat) : Except Err (List C) :=
  match columns with
  | [] => .error .index
  | c :: cs => match disc c with
    | .error e => .error e
    | .ok b => takeTask disc b limit [c] cs

/-- `select_by_task(data, columns, count_limit, discrete)` (api/utils.py:85-97) -/
def selectTask (disc : C → Except Err Bool) (columns : List C) (limit : Nat) (b : Bool) : Except Err (List C) :=
  takeTask disc b limit [] columns

/-- an item of a treat/control argument: a single value or a list/tuple of values
(api/utils.py:153-181). -/
inductive Item (V : Type) where
  | atom (v : V)
  | seq (l : List V)
  deriving DecidableEq

/-- a treat/control argument: `None`, a single value, or a list/tuple (api/utils.py:133-181) -/
inductive TC (V : Type) where
  | none
  | atom (v : V)
  | seq (l : List (Item V))
  deriving DecidableEq

/-- `safe_treat_control(treatment, t_or_c, name)` (api/utils.py:133-150); `nt` is the number of treatments -/
def safeTC (nt : Nat) (a : TC V) : Except Err (Option (List (Item V))) :=
  match a with
  | .none => .ok none
  | .seq l => if l.length = nt then .ok (some l) else .error .assertion
  | .atom v => if nt = 1 then .ok (some [.atom v]) else .error .assertion

/-- `len(e)` of an item; `slen` is the length of a value that has one (a string)
(api/utils.py:153-181). -/
def itemLen (slen : V → Option Nat) : Item V → Except Err Nat
  | .seq l => .ok l.length
  | .atom v => match slen v with
    | some k => .ok k
    | none => .error .type

/-- `all(len(e) == len(treatment) for e in t_or_c)`, stopping at the first difference
(api/utils.py:153-181). -/
def allLen (slen : V → Option Nat) (nt : Nat) : List (Item V) → Except Err Bool
  | [] => .ok true
  | e :: es => match itemLen slen e with
    | .error er => .error er
    | .ok k => if k = nt then allLen slen nt es else .ok false

/-- `safe_treat_control_list(treatment, t_or_c, name)` (api/utils.py:153-181): the rows of the nested list -/
def safeTCList (slen : V → Option Nat) (nt : Nat) (a : TC V) : Except Err (Option (List (List (Item V) ⊕ V))) :=
  match a with
  | .none => .ok none
  | .seq [] => .error .index
  | .seq (.seq l :: rest) => match allLen slen nt (.seq l :: rest) with
    | .error e => .error e
    | .ok false => .error .assertion
    | .ok true => .ok (some ((.seq l :: rest).map (fun e => match e with
      | .seq l => Sum.inl (l.map Item.atom)
      | .atom v => Sum.inr v)))
  | .seq (.atom v :: rest) =>
    if 1 < nt then
      (if (Item.atom v :: rest).length = nt then .ok (some [Sum.inl (Item.atom v :: rest)]) else .error .value)
    else .ok (some ((Item.atom v :: rest).map (fun e => Sum.inl [e])))
  | .atom v => if nt = 1 then .ok (some [Sum.inl [.atom v]]) else .error .assertion

/-- a row of a data frame: column values (api/utils.py:184-200) -/
abbrev Frame (C V : Type) := List (C → V)

/-- `all(row[f] == t for f, t in zip(treatment, values))` (api/utils.py:184-200) -/
def matches_ (treatment : List C) (values : List V) (r : C → V) : Bool := (treatment.zip values).all (fun p => decide (r p.1 = p.2))

/-- `select_by_treat_control(df, treatment, treat, control)` (api/utils.py:184-200); with nothing to compare the masks are `None`
and `None | ...` raises `TypeError` -/
def selectTC (df : Frame C V) (treatment : List C) (treat control : List V) : Except Err (Frame C V) :=
  if (treatment.zip treat).isEmpty ∨ (treatment.zip control).isEmpty then .error .type
  else .ok (df.filter (fun r => matches_ treatment treat r || matches_ treatment control r))

/-- `encode_treat_control(df, treatment, treat, control, treat_value, control_value)` (api/utils.py:213-223); NaN is `none` -/
def encodeTC {T : Type} (df : Frame C V) (treatment : List C) (treat control : List V) (tv cv : T) : List (Option T) :=
  df.map (fun r => if matches_ treatment treat r then some tv else if matches_ treatment control r then some cv else none)

/-- the position of a value in `classes_` (sklearn's `LabelEncoder.transform`); unseen values raise `ValueError`
(called at api/utils.py:203-223). -/
def code (classes : List V) (v : V) : Except Err Nat :=
  match classes.findIdx? (fun u => decide (u = v)) with
  | some i => .ok i
  | none => .error .value

/-- `LabelEncoder.inverse_transform` (called at api/utils.py:203-210) -/
def uncode (classes : List V) (i : Nat) : Except Err V :=
  match classes[i]? with
  | some v => .ok v
  | none => .error .value

/-- `transform_treat_control(encoders, treat, control)` (api/utils.py:203-210) -/
def transformTC : List (List V) → List V → List V → Except Err (List Nat × List Nat)
  | e :: es, t :: ts, c :: cs => match code e t, code e c, transformTC es ts cs with
    | .error er, _, _ => .error er
    | _, .error er, _ => .error er
    | _, _, .error er => .error er
    | .ok a, .ok b, .ok (as, bs) => .ok (a :: as, b :: bs)
  | _, _, _ => .ok ([], [])

/-! ### _identifier.py -/

/-- `DefaultIdentifier.identify_treatment` (_identifier.py:25-42): `columns` are the columns of the preprocessed data in their
order, `imp` their importances -/
def defaultTreatment (argsort : List Rat → List Nat) (argsortN : List Nat → List Nat) (disc : C → Except Err Bool) (columns : List C)
    (imp : List Rat) (discrete : Option Bool) (limit : Nat) : Except Err (List C) :=
  match SkEx.select argsort argsortN imp (some .number) none none (some (.count columns.length)) with
  | .error e => .error e
  | .ok idx =>
    let selected := idx.filterMap (fun i => columns[i]?)
    match discrete with
    | none => alignTask disc selected limit
    | some b => selectTask disc selected limit b

/-- `DefaultIdentifier.identify_aci` (_identifier.py:44-49): the covariates; adjustment and instrument are `None` -/
def defaultCovariates (columns : List C) (outcome : C) (treatment : List C) : List C :=
  columns.filter (fun c => decide (c ≠ outcome) && decide (c ∉ treatment))

/-- the candidates of `IdentifierWithDiscovery.identify_treatment` (_identifier.py:84-87): `sorted` are the columns in the
order of decreasing absolute weight towards the outcome -/
def discoveryCandidates [AddCommGroup K] [LinearOrder K] (weight : C → K) (sorted : List C) (outcome : C) (excludes : Option (List C)) : List C :=
  let l := sorted.filter (fun c => decide (0 < |weight c|) && decide (c ≠ outcome))
  match excludes with
  | none => l
  | some ex => l.filter (fun c => decide (c ∉ ex))

/-- `IdentifierWithDiscovery.identify_treatment` (_identifier.py:80-100); `fallback` is the default identifier -/
def discoveryTreatment [AddCommGroup K] [LinearOrder K] (disc : C → Except Err Bool) (weight : C → K) (sorted : List C) (outcome : C)
    (excludes : Option (List C)) (discrete : Option Bool) (limit : Nat) (fallback : Except Err (List C)) : Except Err (List C) :=
  match discoveryCandidates weight sorted outcome excludes with
  | [] => fallback
  | l => match discrete with
    | none => alignTask disc l limit
    | some b => selectTask disc l limit b

section
variable {n : Nat} [AddCommGroup K] [LinearOrder K]

/-- `np.where(causal_matrix.values > 0, 1, 0)` (_identifier.py:208) -/
def posEntries (W : Mat n K) : Mat n Int := fun i j => if 0 < W i j then 1 else 0

/-- `names.index(c)` (_identifier.py:200-224) -/
def indexOf (names : Fin n → C) (c : C) : Except Err (Fin n) :=
  match (List.finRange n).find? (fun i => decide (names i = c)) with
  | some i => .ok i
  | none => .error .value

/-- the positions of a list of names (_identifier.py:200-224) -/
def indicesOf (names : Fin n → C) : List C → Except Err (List (Fin n))
  | [] => .ok []
  | c :: cs => match indexOf names c, indicesOf names cs with
    | .error e, _ => .error e
    | _, .error e => .error e
    | .ok i, .ok is => .ok (i :: is)

/-- `_identify_ci_dfs(causal_matrix, data, outcome, treatment)` (_identifier.py:200-224): covariates and instruments -/
def ciDfs (W : Mat n K) (names : Fin n → C) (outcome : C) (treatment : List C) : Except Err (List C × List C) :=
  match indexOf names outcome, indicesOf names treatment with
  | .error e, _ => .error e
  | _, .error e => .error e
  | .ok yi, .ok tis =>
    let cov := Discovery.dfsTargets (posEntries W) none yi
    let ins := tis.flatMap (fun ti => (Discovery.dfsTargets (posEntries W) none ti).filter (fun c => decide (c ∉ cov)))
    let targets := treatment ++ [outcome]
    .ok (((List.finRange n).filter (fun i => decide (i ∈ cov) && decide (names i ∉ targets))).map names,
      ((List.finRange n).filter (fun i => decide (i ∈ ins) && decide (names i ∉ targets))).map names)

/-- the entries of `matrix2dict(causal_matrix)` as positions (_identifier.py:170-176) -/
def closure0 (W : Mat n K) (k : Fin n) : List (Fin n) := (List.finRange n).filter (fun j => decide (j ∈ Discovery.dfsTargets W none k))

/-- `m0[k] += list(set(m0[ki]).difference(set(m0[k])))` (_identifier.py:180-183); the order of the set is irrelevant -/
def expandOne (m : Fin n → List (Fin n)) (k ki : Fin n) : Fin n → List (Fin n) :=
  fun i => if i = k then m k ++ (m ki).filter (fun j => decide (j ∉ m k)) else m i

/-- one pass over the dictionary (_identifier.py:178-183) -/
def expandPass (d : Fin n → List (Fin n)) (m : Fin n → List (Fin n)) : Fin n → List (Fin n) :=
  (List.finRange n).foldl (fun m k => (d k).foldl (fun m ki => expandOne m k ki) m) m

/-- the loop over the passes (_identifier.py:176-185). It stops early when a pass changes nothing; further passes would not
change anything either, so they are simply done. -/
def expand (d : Fin n → List (Fin n)) : Nat → (Fin n → List (Fin n)) → Fin n → List (Fin n)
  | 0, m => m
  | f + 1, m => expand d f (expandPass d m)

/-- `_identify_ci_straight_forward(causal_matrix, data, outcome, treatment)` (_identifier.py:170-197) for distinct names; `data`
has the columns of the matrix -/
def ciStraight (W : Mat n K) (names : Fin n → C) (outcome : C) (treatment : List C) : List C × List C :=
  let m0 := expand (closure0 W) (n + 1) (closure0 W)
  let xy := treatment ++ [outcome]
  let varX := (List.finRange n).filter (fun k => treatment.any (fun t => decide (t ∈ (m0 k).map names) && decide (names k ∉ xy)))
  let varY := (List.finRange n).filter (fun k => decide (outcome ∈ (m0 k).map names) && decide (names k ∉ xy))
  let ins := (varX.map names).filter (fun c => decide (c ∉ varY.map names) && decide (c ∉ xy))
  ((varY.map names).filter (fun c => decide (c ∉ ins) && decide (c ∉ xy)), ins)

/-- `is_empty(v)` (api/utils.py:9-10) -/
def isEmpty : Option (List C) → Bool
  | none => true
  | some l => l.isEmpty

/-- the end of `IdentifierWithDiscovery.identify_aci` (_identifier.py:120-133) -/
def finishAci (columns : List C) (outcome : C) (treatment : List C) (covins : List C × List C) :
    Option (List C) × Option (List C) × Option (List C) :=
  let cov := if covins.1.isEmpty then
      columns.filter (fun c => decide (c ≠ outcome) && decide (c ∉ treatment) && (covins.2.isEmpty || decide (c ∉ covins.2)))
    else covins.1
  (none, some cov, if covins.2.isEmpty then none else some covins.2)

end

/-! ### _why.py -/

/-- a role argument after `to_list`: `None`, a list, or a tuple (_why.py:345-416) -/
inductive Role (C : Type) where
  | none
  | list (l : List C)
  | tuple (l : List C)
  deriving DecidableEq

/-- `safe_remove` on a role (api/utils.py:18): tuples fail the assertion -/
def removeRole (r : Role C) (t : List C) : Except Err (Option (List C)) :=
  match r with
  | .none => .ok none
  | .list l => .ok (some (safeRemove l t))
  | .tuple _ => .error .assertion

/-- `Why.identify` (_why.py:345-416): treatment, adjustment, covariate, instrument. `autoT` is the answer of
`identifier.identify_treatment`, `aci` the function `identifier.identify_aci`. A treatment given as a tuple stays a tuple; here
both are lists. The columns of the treatments are looked at with `is_discrete`. -/
def identify (disc : C → Except Err Bool) (autoT : Except Err (List C))
    (aci : List C → Except Err (Option (List C) × Option (List C) × Option (List C)))
    (treatment adjustment covariate instrument : Role C) :
    Except Err (List C × Option (List C) × Option (List C) × Option (List C)) :=
  let t := match treatment with
    | .none => autoT
    | .list [] => autoT
    | .tuple [] => autoT
    | .list l => match Meta.mapE disc l with
      | .error e => .error e
      | .ok _ => .ok l
    | .tuple l => match Meta.mapE disc l with
      | .error e => .error e
      | .ok _ => .ok l
  match t with
  | .error e => .error e
  | .ok t => match removeRole adjustment t, removeRole covariate t, removeRole instrument t with
    | .error e, _, _ => .error e
    | _, .error e, _ => .error e
    | _, _, .error e => .error e
    | .ok a, .ok c, .ok i =>
      if isEmpty a && isEmpty c && isEmpty i then
        match aci t with
        | .error e => .error e
        | .ok (a, c, i) => .ok (t, a, c, i)
      else .ok (t, a, c, i)

/-- `_get_default_treatment_count_limit` (_why.py:328-331): `min(ceil(0.1 * columns), 5)` -/
def defaultLimit (ncols : Nat) : Nat := min ((ncols + 9) / 10) 5

/-- `estimator_keys` (_why.py:286-288): single treatments, and for several discrete treatments all ordered pairs of different
ones -/
def estimatorKeys (discrete : Bool) (treatment : List C) : List (List C) :=
  treatment.map (fun t => [t]) ++
    (if discrete ∧ 1 < treatment.length then
      (treatment.flatMap (fun a => (treatment.filter (fun b => decide (a ≠ b))).map (fun b => [a, b])))
    else [])

/-- `_get_estimator(treatment)` (_why.py:321-326): the key that is looked up -/
def getKey (discrete : Bool) (fitted : List C) (treatment : List C) : Except Err (List C) :=
  if treatment ∈ estimatorKeys discrete fitted then .ok treatment else .error .key

/-- the codes of the treated values of one treatment (_why.py:1239-1254) -/
def seqOne (classes : List V) (treats : Option (List V)) (control : V) : Except Err (List (Nat × Nat)) :=
  if control ∈ classes then
    Meta.mapE (fun t => match code classes t, code classes control with
      | .error e, _ => .error e
      | _, .error e => .error e
      | .ok a, .ok b => .ok (a, b)) (treats.getD (classes.filter (fun v => decide (v ≠ control))))
  else .error .assertion

/-- `_permute_treat_control_sequential(treatment, treats, control, encode=True)` (_why.py:1224-1256), called with a treat value per
treatment or `None`. The encoders are given by `classes`. -/
def permuteSeq (classes : C → List V) (treat control : Option (List V)) : List C → Except Err (List (C × Nat × Nat))
  | [] => .ok []
  | x :: xs =>
    let c := match control with
      | some (v :: _) => some v
      | some [] => none
      | none => (classes x).head?
    let t := match treat with
      | some (v :: _) => some [v]
      | _ => none
    match c with
    | none => .error .index
    | some cv => match seqOne (classes x) t cv, permuteSeq classes (treat.map List.tail) (control.map List.tail) xs with
      | .error e, _ => .error e
      | _, .error e => .error e
      | .ok l, .ok r => .ok (l.map (fun p => (x, p.1, p.2)) ++ r)

/-- `_encode` (_why.py:1196-1199) -/
def encodeAll : List (List V) → List V → Except Err (List Nat)
  | e :: es, v :: vs => match code e v, encodeAll es vs with
    | .error er, _ => .error er
    | _, .error er => .error er
    | .ok a, .ok r => .ok (a :: r)
  | [], [] => .ok []
  | _, _ => .error .assertion

/-- `itertools.product(*classes)` (_why.py:1209) -/
def prod : List (List V) → List (List V)
  | [] => [[]]
  | c :: cs => c.flatMap (fun v => (prod cs).map (fun r => v :: r))

/-- `classes_.tolist()[0]` (_why.py:802, 1202, 1238) -/
def firstClass (l : List V) : Except Err V :=
  match l with
  | [] => .error .index
  | v :: _ => .ok v

/-- `_permute_treat_control_combined(treatment, treats, control, encode=True)` (_why.py:1184-1222): pairs of encoded arms -/
def permuteCombined (classes : List (List V)) (treat control : Option (List V)) : Except Err (List (List Nat × List Nat)) :=
  if classes = [] then .error .assertion
  else
    let c := match control with
      | some c => Except.ok c
      | none => Meta.mapE firstClass classes
    match c with
    | .error e => .error e
    | .ok c => match encodeAll classes c, Meta.mapE (encodeAll classes) (match treat with
        | some t => [t]
        | none => prod classes) with
      | .error e, _ => .error e
      | _, .error e => .error e
      | .ok ce, .ok ts => .ok ((ts.filter (fun t => decide (t ≠ ce))).map (fun t => (t, ce)))

/-- `target_outcome` in `causal_effect` (_why.py:1168-1170): encoded; default the last class (_why.py:620-621) -/
def targetEffect (classes : List V) (target : Option V) : Except Err (Option Nat) :=
  match target with
  | some v => match code classes v with
    | .error e => .error e
    | .ok i => .ok (some i)
  | none => match classes.getLast? with
    | none => .error .index
    | some v => match code classes v with
      | .error e => .error e
      | .ok i => .ok (some i)

/-- `_inverse_transform_outcome(target_outcome)` (_why.py:521-525) as used by `individual_causal_effect`, `uplift_model` and
`policy_interpreter`: the value is taken for a code. The estimator is then asked for this value as a code. `num` reads a value as
a number. -/
def targetIndividual (num : V → Option Nat) (classes : List V) (target : Option V) : Except Err (Option V) :=
  match target with
  | none => .ok none
  | some v => match num v with
    | none => .error .value
    | some i => match uncode classes i with
      | .error e => .error e
      | .ok w => .ok (some w)

/-! ### whatif -/

section
variable [AddCommGroup K] {I R : Type} [DecidableEq I]

/-- the effect of one group of rows with the same pair of values (_why.py:889-900); `est` works row by row, `cost` is
`cost_effect` on the whole test data -/
def groupEffect (est : R → Nat → Nat → K) (classes : List V) (cost : Option (K → K)) (ntest : Nat) (t c : V) (rows : List (I × R)) :
    Except Err (List (I × K)) :=
  let eff : Except Err (List K) :=
    if t = c then .ok (rows.map (fun _ => 0))
    else match code classes t, code classes c with
      | .error e, _ => .error e
      | _, .error e => .error e
      | .ok a, .ok b => .ok (rows.map (fun r => est r.2 a b))
  match eff with
  | .error e => .error e
  | .ok eff => match cost with
    | none => .ok ((rows.map (·.1)).zip eff)
    | some f => if ntest = rows.length then .ok ((rows.map (·.1)).zip (eff.map f)) else .error .assertion

/-- `df['tc'].unique()`: the pairs in the order of their first occurrence (_why.py:886) -/
def pairs (rows : List ((V × V) × (I × R))) : List (V × V) := (rows.map (·.1)).eraseDups

/-- the loop over the pairs (_why.py:888-901) -/
def groups (est : R → Nat → Nat → K) (classes : List V) (cost : Option (K → K)) (rows : List ((V × V) × (I × R))) :
    List (V × V) → Except Err (List (I × K))
  | [] => .ok []
  | p :: ps => match groupEffect est classes cost rows.length p.1 p.2 ((rows.filter (fun r => decide (r.1 = p))).map (·.2)),
      groups est classes cost rows ps with
    | .error e, _ => .error e
    | _, .error e => .error e
    | .ok l, .ok r => .ok (l ++ r)

/-- a value looked up by index label (_why.py:888-901) -/
def atIndex (i : I) : List (I × K) → Option K
  | [] => none
  | (j, k) :: l => if j = i then some k else atIndex i l

/-- `_whatif_discrete` (_why.py:877-904): rows with new value, old value, index label, covariates and observed outcome. The
effects are put back by index label; labels are assumed to be distinct (otherwise pandas raises). -/
def whatif (est : R → Nat → Nat → K) (classes : List V) (cost : Option (K → K)) (rows : List ((V × V) × (I × R))) (y : R → K) :
    Except Err (List K) :=
  match groups est classes cost rows (pairs rows) with
  | .error e => .error e
  | .ok eff => if eff.length = rows.length then
      .ok (rows.map (fun r => y r.2.2 + (atIndex r.2.1 eff).getD 0))
    else .error .assertion

end

/-! ### fit, its inferred settings and its state -/

/-- the part of a `Why` object that `fit` and the queries use: the settings (which `fit` overwrites) and the fitted roles
(_why.py:139-184, 245-248). -/
structure State (C : Type) where
  discreteOutcome : Option Bool
  discreteTreatment : Option Bool
  fittedTag : Utils.Tag
  treatment : Option (List C)
  deriving DecidableEq

/-- `Why(discrete_outcome, discrete_treatment)` (_why.py:139-184): the tag is the one-element tuple `(False,)` -/
def new (discreteOutcome discreteTreatment : Option Bool) : State C := ⟨discreteOutcome, discreteTreatment, .obj true, none⟩

/-- the settings that `fit(data, outcome, treatment)` uses and keeps (_why.py:245-248, 393-396); `discY`, `discX` are
`is_discrete` of the outcome and of the first treatment. `rest` is the remaining work, which may fail. -/
def fit (s : State C) (discY discX : Except Err Bool) (treatment : List C) (rest : Bool → Bool → Except Err Unit) : State C × Except Err Unit :=
  match (match s.discreteOutcome with
    | some b => Except.ok b
    | none => discY) with
  | .error e => (s, .error e)
  | .ok dy =>
    let s := { s with discreteOutcome := some dy }
    match (match s.discreteTreatment with
      | some b => Except.ok b
      | none => discX) with
    | .error e => (s, .error e)
    | .ok dx =>
      let s := { s with discreteTreatment := some dx }
      match rest dy dx with
      | .error e => (s, .error e)
      | .ok () => ({ s with fittedTag := .bool true, treatment := some treatment }, .ok ())

end YL.Why
