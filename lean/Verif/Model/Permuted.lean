import Mathlib.Algebra.Ring.Defs
import Mathlib.Data.List.Basic
import Verif.Model.Nx

/-!
# Model of `ylearn/estimator_model/_permuted.py`

A treatment value (one value per treatment variable) is a `List V`; with a single treatment variable the bare value `v`
of the code is the list `[v]`. A learner is an object of an arbitrary type `L`; fitting, estimating and `effect_nji` of the
wrapped learner are arbitrary functions. Numeric arrays are flattened to lists.
-/

namespace YL.Permuted

variable {V L K : Type} [DecidableEq V]

/-- `itertools.product(*lists)` (lexicographic) (called at _permuted.py:115, 237) -/
def product : List (List V) → List (List V)
  | [] => [[]]
  | l :: ls => l.flatMap (fun v => (product ls).map (v :: ·))

/-- `_permute_treats` (_permuted.py:103-124): the pairs `(P[t], P[c])` for `t = 1..n-1`, `c = 0..t-1`, where `P` lists all
values (for one treatment variable its values themselves). -/
def pairs {κ : Type} (P : List κ) : List (κ × κ) :=
  (List.range' 1 (P.length - 1)).flatMap (fun t => (List.range t).filterMap (fun c =>
    match P[t]?, P[c]? with
    | some a, some b => some (a, b)
    | _, _ => none))

/-- a Python dict built by assignments, in order (_permuted.py:176-190) -/
abbrev Dict (κ L : Type) := List (κ × L)

/-- `d[k]`: the last assignment to `k` (_permuted.py:126-159) -/
def dget {κ : Type} [DecidableEq κ] (d : Dict κ L) (k : κ) : Option L := (d.reverse.find? (fun e => e.1 = k)).map (·.2)

/-- `_copy_and_fit` (_permuted.py:39-42): a deep copy of the prototype is fitted for one pair, the prototype is unchanged -/
def copyAndFit {κ : Type} (fit : L → κ → κ → L) (proto : L) (treat control : κ) : L := fit proto treat control

/-- sequential fitting (_permuted.py:176-181) -/
def fitSeq {κ : Type} (fit : L → κ → κ → L) (proto : L) (P : List κ) : Dict (κ × κ) L :=
  (pairs P).foldl (fun d p => d ++ [(p, copyAndFit fit proto p.1 p.2)]) []

/-- one job finishes: its result goes into its own slot (one job of _permuted.py:186) -/
def finish (jobs : List (Unit → L)) (slots : List (Option L)) (i : Nat) : List (Option L) :=
  match jobs[i]? with
  | some job => slots.set i (some (job ()))
  | none => slots

/-- `joblib.Parallel`: job `i` writes its result into slot `i` whenever it finishes; `order` is the order in which the
jobs finish. (called at _permuted.py:186, 248.) -/
def runJobs (jobs : List (Unit → L)) (order : List Nat) : List (Option L) :=
  order.foldl (finish jobs) (jobs.map (fun _ => none))

/-- parallel fitting (_permuted.py:182-190) -/
def fitPar {κ : Type} (fit : L → κ → κ → L) (proto : L) (P : List κ) (order : List Nat) : Dict (κ × κ) L :=
  let tc := pairs P
  let ls := runJobs (tc.map (fun p => fun _ => copyAndFit fit proto p.1 p.2)) order
  (tc.zip (ls.filterMap id)).foldl (fun d e => d ++ [e]) []

/-- a `treat`/`control` argument: a bare value or a list/tuple of values (_permuted.py:126-149) -/
inductive Arg (V : Type) where
  | one (v : V)
  | many (l : List V)

/-- `_get_learner` (_permuted.py:126-159) on normalised values: the learner and the sign -/
def getLearner (d : Dict (List V × List V) L) (treat control : List V) : Option (L × Bool) :=
  match dget d (treat, control) with
  | some l => some (l, true)
  | none => match dget d (control, treat) with
    | some l => some (l, false)
    | none => none

/-- Defaults and normalisation of a `treat`/`control` argument in `estimate` (_permuted.py:197-205) and `_get_learner`
(_permuted.py:136-149). `treats` lists the values of each treatment variable; `last` selects the default. A bare value
given for several treatment variables is a key that no dict contains, represented by the list `[v]`. -/
def resolve (treats : List (List V)) (last : Bool) (a : Option (Arg V)) : Except Err (List V) :=
  match a with
  | none => match treats.mapM (fun l => if last then l.getLast? else l.head?) with
    | some v => .ok v
    | none => .error .index
  | some (.one v) => .ok [v]
  | some (.many l) => if treats.length = 1 then
      match l with
      | v :: _ => .ok [v]
      | [] => .error .index
    else .ok l

/-- `estimate` (_permuted.py:196-218), `est` being the estimate of a fitted learner -/
def estimate [Mul K] [Neg K] [One K] (est : L → List K) (treats : List (List V)) (d : Dict (List V × List V) L)
    (treat control : Option (Arg V)) : Except Err (List K) :=
  match resolve treats true treat, resolve treats false control with
  | .error e, _ => .error e
  | _, .error e => .error e
  | .ok t, .ok c => match getLearner d t c with
    | none => .error .value
    | some (l, true) => .ok (est l)
    | some (l, false) => .ok ((est l).map (· * (-1)))

/-- `_effect_nji` (_permuted.py:45-79) for one treatment value: a list of columns of the last axis. `nji l` is the pair
of columns of `learner.effect_nji(data)` (after the selection of the target outcome), `n = len(data)`. -/
def effectOne [Mul K] [Neg K] [One K] [Zero K] [DecidableEq K] (nji : L → List K × List K) (n yCount : Nat)
    (d : Dict (List V × List V) L) (treat control : List V) : Except Err (List (List K)) :=
  if treat = control then .ok (List.replicate yCount (List.replicate (n * yCount) 0))
  else match getLearner d treat control with
    | none => .error .assertion
    | some (l, pos) =>
      let col := if (nji l).2.all (· = 0) then (nji l).1 else (nji l).2
      .ok [if pos then col else col.map (· * (-1))]

/-- `np.concatenate(effects, axis=2)` (called at _permuted.py:253) -/
def concatAll : List (Except Err (List (List K))) → Except Err (List (List K))
  | [] => .ok []
  | e :: es => match e, concatAll es with
    | .error x, _ => .error x
    | _, .error x => .error x
    | .ok a, .ok b => .ok (a ++ b)

/-- `effect_nji` (_permuted.py:220-252); `n` is `none` when `data` is None (`len(None)` raises `TypeError`) -/
def effectNji [Mul K] [Neg K] [One K] [Zero K] [DecidableEq K] (nji : L → List K × List K) (n : Option Nat) (yCount : Nat)
    (treats : List (List V)) (d : Dict (List V × List V) L) (control : Option (Arg V)) : Except Err (List (List K)) :=
  match resolve treats false control, n with
  | .error e, _ => .error e
  | .ok _, none => .error .type
  | .ok c, some n => concatAll ((product treats).map (fun t => effectOne nji n yCount d t c))

end YL.Permuted
