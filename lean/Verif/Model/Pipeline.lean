import Mathlib.Logic.Function.Basic

/-!
# Pipelines of transformers

Model of `TransformerPipeline` and `_call_fit`
(`/repo/ylearn/sklearn_ex/_dataframe_mapper.py:19-112`) and of `Pipeline.transform`, which it
inherits.

A transformer object belongs to a class with any `fit`, `fit_transform` and `transform`;
what it has learned is in a heap, because one object may be used in several steps.
Simplified: `transform` of a fitted object does not raise; the heap after an exception is not
described; `transform` of an object that was not fitted raises `NotFittedError`.
-/
set_option linter.unusedSectionVars false

namespace YL.Pipe

/-- Exceptions; `own` are a transformer's own. -/
inductive Err | value | type | key | attr | notFitted | own (n : Nat)
  deriving DecidableEq, Repr

abbrev Name := List Char

/-- Keyword arguments. -/
abbrev Kw (V : Type) := List (Name × V)

/-- A method that learns.  Its second argument says how it was called: `none` with `X` alone,
`some y` with `X` and `y` (which may be `None`).  A method that accepts only `X` raises
`TypeError` when it is given two. -/
abbrev Learn (X Y V B : Type) := X → Option (Option Y) → Kw V → Except Err B

/-- A class of transformers. -/
structure Cls (X Y V M : Type) where
  fit : Option (Learn X Y V M)
  fitTransform : Option (Learn X Y V (M × X))
  transform : Option (M → X → X)

variable {X Y V M B : Type}

/-- `_call_fit` (`_dataframe_mapper.py:19-40`). -/
def callFit (f : Learn X Y V B) (x : X) (y : Option Y) (kw : Kw V) : Except Err B :=
  match f x (some y) kw with
  | .error .type => f x none kw
  | r => r

/-- The objects' learned states. -/
abbrev Heap (M : Type) := Nat → Option M

/-- A pipeline: names and objects of the steps. -/
abbrev Steps := List (Name × Nat)

/-- `TransformerPipeline.__init__` (`_dataframe_mapper.py:57-77`); `zip(*[])` cannot be
unpacked. -/
def construct (cls : Nat → Cls X Y V M) (steps : Steps) : Except Err Unit :=
  match steps.getLast? with
  | none => .error .value
  | some last =>
    if ¬ (steps.map Prod.fst).Nodup then .error .value
    else if steps.any (fun s =>
        !((cls s.2).fit.isSome || (cls s.2).fitTransform.isSome) || !(cls s.2).transform.isSome)
      then .error .type
    else if !(cls last.2).fit.isSome then .error .type
    else .ok ()

/-- `pname.split('__', 1)`, when it has two parts. -/
def splitName : Name → Option (Name × Name)
  | '_' :: '_' :: rest => some ([], rest)
  | c :: rest => (splitName rest).map (fun p => (c :: p.1, p.2))
  | [] => none

/-- The parameters of each step (`_dataframe_mapper.py:80-83`). -/
def route (names : List Name) : Kw V → (Name → Kw V) → Except Err (Name → Kw V)
  | [], acc => .ok acc
  | (p, v) :: rest, acc =>
    match splitName p with
    | none => .error .value
    | some (s, q) =>
      if s ∈ names then route names rest (Function.update acc s (acc s ++ [(q, v)]))
      else .error .key

/-- One round of the loop (`_dataframe_mapper.py:85-91`). -/
def preStep (cls : Nat → Cls X Y V M) (h : Heap M) (o : Nat) (x : X) (y : Option Y) (kw : Kw V) :
    Except Err (Heap M × X) :=
  match (cls o).fitTransform with
  | some f =>
    match callFit f x y kw with
    | .error e => .error e
    | .ok (m, x') => .ok (Function.update h o (some m), x')
  | none =>
    match (cls o).fit with
    | none => .error .attr
    | some f =>
      match callFit f x y kw with
      | .error e => .error e
      | .ok m =>
        match (cls o).transform with
        | none => .error .attr
        | some t => .ok (Function.update h o (some m), t m x)

/-- The last step of `fit` (`_dataframe_mapper.py:94-97`). -/
def lastFit (cls : Nat → Cls X Y V M) (h : Heap M) (o : Nat) (x : X) (y : Option Y) (kw : Kw V) :
    Except Err (Heap M) :=
  match (cls o).fit with
  | none => .error .attr
  | some f =>
    match callFit f x y kw with
    | .error e => .error e
    | .ok m => .ok (Function.update h o (some m))

/-- The steps of `fit`: all but the last transform the data (`_dataframe_mapper.py:79-97`). -/
def fitSteps (cls : Nat → Cls X Y V M) (y : Option Y) (kw : Name → Kw V) :
    Steps → Heap M → X → Except Err (Heap M)
  | [], _, _ => .error .value
  | [s], h, x => lastFit cls h s.2 x y (kw s.1)
  | s :: s' :: rest, h, x =>
    match preStep cls h s.2 x y (kw s.1) with
    | .error e => .error e
    | .ok (h', x') => fitSteps cls y kw (s' :: rest) h' x'

/-- `fit` (`_dataframe_mapper.py:94-97`). -/
def fit (cls : Nat → Cls X Y V M) (steps : Steps) (h : Heap M) (x : X) (y : Option Y)
    (params : Kw V) : Except Err (Heap M) :=
  match route (steps.map Prod.fst) params (fun _ => []) with
  | .error e => .error e
  | .ok kw => fitSteps cls y kw steps h x

/-- The steps of `fit_transform` (`_dataframe_mapper.py:79-92, 99-106`): the last one is
treated like the others. -/
def ftSteps (cls : Nat → Cls X Y V M) (y : Option Y) (kw : Name → Kw V) :
    Steps → Heap M → X → Except Err (Heap M × X)
  | [], h, x => .ok (h, x)
  | s :: rest, h, x =>
    match preStep cls h s.2 x y (kw s.1) with
    | .error e => .error e
    | .ok (h', x') => ftSteps cls y kw rest h' x'

/-- `fit_transform` (`_dataframe_mapper.py:99-106`). -/
def fitTransform (cls : Nat → Cls X Y V M) (steps : Steps) (h : Heap M) (x : X) (y : Option Y)
    (params : Kw V) : Except Err (Heap M × X) :=
  match route (steps.map Prod.fst) params (fun _ => []) with
  | .error e => .error e
  | .ok kw => ftSteps cls y kw steps h x

/-- `Pipeline.transform` of scikit-learn. -/
def transform (cls : Nat → Cls X Y V M) : Steps → Heap M → X → Except Err X
  | [], _, x => .ok x
  | s :: rest, h, x =>
    match (cls s.2).transform, h s.2 with
    | some t, some m => transform cls rest h (t m x)
    | none, _ => .error .attr
    | _, none => .error .notFitted

end YL.Pipe
