import Verif.Model.Logging
import Mathlib.Algebra.Field.Rat

/-!
# `ylearn.utils._tic_tok`

Model of the timing decorator (`/repo/ylearn/utils/_tic_tok.py`): `tic_toc`, `tit`, the
decorated call, `_format_value`, and `report`.

Not modelled: keyword arguments (they are bound like positional ones), the text of the log
line, `load_cfg`, `report_as_dataframe`.
-/
set_option linter.unusedSectionVars false

namespace YL.TicToc

/-- Exceptions: `TypeError`, `ValueError`, and whatever the timed function raises. -/
inductive Err | type | value | own (n : Nat)
  deriving DecidableEq, Repr

/-- Values passed to a timed function, as far as `_format_value` tells them apart.
`iter c` is a one-shot iterator (`map`, `zip`, `iter(…)`, an open file; not a generator: it has
a `__name__`, so it is an `obj` here) whose remaining elements are in cell `c`; `seq` any collection that can be iterated again; `dict ok items` a `dict`
or an instance of a subclass, `ok` says whether `type(v)()` works; `obj` anything with a
`shape` or a `__name__`, or without `__iter__`. -/
inductive Val
  | lit (i : Int)
  | str (s : List Char)
  | seq (ty : String) (elems : List Val)
  | iter (c : Nat)
  | dict (ok : Bool) (items : List (Val × Val))
  | obj (ty : String)

/-- The remaining elements of the iterators. -/
abbrev Heap := Nat → List Val

/-- A formatted element (`expand_collection=False`). -/
inductive Flat | raw (i : Int) | text (s : List Char) | cut (s : List Char) (len : Nat)
  | sized (ty : String) (len : Nat) | named (ty : String)
  deriving DecidableEq, Repr

/-- A formatted argument; `more` says whether `'...'` was appended. -/
inductive Fmt | flat (f : Flat) | coll (l : List Flat) (more : Bool)
  | dict (l : List (Flat × Flat)) (more : Bool)
  deriving DecidableEq, Repr

/-- `_format_value(v, expand_collection=False)` (`_tic_tok.py:83-121`). -/
def fmtFlat : Val → Flat
  | .lit i => .raw i
  | .str s => if s.length > 10 then .cut (s.take 10) s.length else .text s
  | .seq ty l => .sized ty l.length
  | .iter _ => .named "iterator"
  | .dict _ l => .sized "dict" l.length
  | .obj ty => .named ty

/-- `r[k] = v` on an ordered dict. -/
def assign (r : List (Flat × Flat)) (k v : Flat) : List (Flat × Flat) :=
  if r.any (fun p => p.1 == k) then r.map (fun p => if p.1 = k then (k, v) else p)
  else r ++ [(k, v)]

/-- The loop over a dict's items (`_tic_tok.py:102-106`). -/
def fmtItems : List (Val × Val) → List (Flat × Flat) → Fmt
  | [], r => .dict r false
  | (k, v) :: rest, r =>
    let r := assign r (fmtFlat k) (fmtFlat v)
    if r.length ≥ 5 then .dict r true else fmtItems rest r

/-- The loop over a collection (`_tic_tok.py:108-113`): the formatted elements, and how
many elements were taken. -/
def fmtElems : List Val → List Flat → Fmt × Nat
  | [], r => (.coll r false, r.length)
  | e :: rest, r =>
    let r := r ++ [fmtFlat e]
    if r.length ≥ 5 then (.coll r true, r.length) else fmtElems rest r

/-- `_format_value(v)` (`_tic_tok.py:83-121`): iterating over an iterator takes its
elements away. -/
def format (h : Heap) : Val → Except Err (Fmt × Heap)
  | .dict ok items => if ok then .ok (fmtItems items [], h) else .error .type
  | .seq _ l => .ok ((fmtElems l []).1, h)
  | .iter c =>
    .ok ((fmtElems (h c) []).1, Function.update h c ((h c).drop (fmtElems (h c) []).2))
  | v => .ok (.flat (fmtFlat v), h)

/-- Formatting the arguments one after another (`_tic_tok.py:68-70`). -/
def formatAll (h : Heap) : List Val → Except Err (List Fmt × Heap)
  | [] => .ok ([], h)
  | v :: vs =>
    match format h v with
    | .error e => .error e
    | .ok (f, h1) =>
      match formatAll h1 vs with
      | .error e => .error e
      | .ok (fs, h2) => .ok (f :: fs, h2)

/-- The body of a function: result or exception, and the new state of the iterators. -/
abbrev Body := List Val → Heap → Except Err Val × Heap

/-- A function object: a plain one (`body`; the module and qualified name, if it has
them; `__name__`; whether `inspect.signature` works; which argument lists bind), or one
returned by the decorator. -/
inductive Fn
  | plain (body : Body) (qual : Option (List Char)) (name : List Char) (sig : Bool)
      (binds : List Val → Bool)
  | timed (level : Int) (details : Bool) (logger : List Char) (inner : Fn)

def pfx : List Char := "[tic-toc]".toList
def sfx : List Char := "@".toList

/-- `_tic_toc_decorate` (`_tic_tok.py:34-80`); `cur` is the level in force, `level` is
already a number (`tic_toc` and `tit` call `to_level` first, `_tic_tok.py:23-31`).
The name of the logger is `name` or made from the function's (`_tic_tok.py:43-49`). -/
def decorate (cur level : Int) (name : Option (List Char)) (details : Bool) (f : Fn) :
    Except Err Fn :=
  if level < cur then .ok f else
  match f with
  | .timed _ _ _ _ => .ok f
  | .plain _ qual nm sig _ =>
    let logger := match name with
      | some n => n
      | none => match qual with
        | some q => pfx ++ q ++ sfx
        | none => pfx ++ nm ++ sfx
    if details && !sig then .error .value else .ok (.timed level details logger f)

/-- What a call does: result, iterators, the log lines (logger, details), and the loggers
whose counters went up, innermost first. -/
structure Outcome where
  res : Except Err Val
  heap : Heap
  lines : List (List Char × List Fmt)
  counted : List (List Char)

/-- `fn_sig.bind` for a function object. -/
def bindsTo : Fn → List Val → Bool
  | .plain _ _ _ _ b, args => b args
  | .timed _ _ _ f, args => bindsTo f args

/-- Calling a function object (`tic_toc_call`, `_tic_tok.py:56-76`); `cur` is the level in
force at the time of the call.  An exception in the `finally` block replaces the result. -/
def call (cur : Int) : Fn → List Val → Heap → Outcome
  | .plain body _ _ _ _, args, h => ⟨(body args h).1, (body args h).2, [], []⟩
  | .timed level details logger f, args, h =>
    let o := call cur f args h
    if level ≥ cur then
      if details && !args.isEmpty then
        if !bindsTo f args then { o with res := .error .type }
        else
          match formatAll o.heap args with
          | .error e => { o with res := .error e }
          | .ok (fs, h') =>
            ⟨o.res, h', o.lines ++ [(logger, fs)], o.counted ++ [logger]⟩
      else { o with lines := o.lines ++ [(logger, [])], counted := o.counted ++ [logger] }
    else { o with counted := o.counted ++ [logger] }

/-- The counters (`_tic_tok.py:17-18`), ordered dicts with the same keys: number of calls
and seconds. -/
abbrev Stats := List (List Char × (Nat × ℚ))

/-- `_stat_call_counter[logger_name] += 1; _stat_second_counter[logger_name] += elapsed`
(`_tic_tok.py:75-76`). -/
def count (s : Stats) (logger : List Char) (elapsed : ℚ) : Stats :=
  match s with
  | [] => [(logger, (1, elapsed))]
  | (k, v) :: rest =>
    if k = logger then (k, (v.1 + 1, v.2 + elapsed)) :: rest
    else (k, v) :: count rest logger elapsed

/-- `k[len(prefix):-len(suffix)]` (`_tic_tok.py:160`). -/
def cutName (k : List Char) : List Char := (k.take (k.length - sfx.length)).drop pfx.length

/-- `r[name] = …` on an ordered dict. -/
def put (r : List (List Char × (Nat × ℚ × ℚ))) (k : List Char) (v : Nat × ℚ × ℚ) :
    List (List Char × (Nat × ℚ × ℚ)) :=
  match r with
  | [] => [(k, v)]
  | (k', v') :: rest => if k' = k then (k', v) :: rest else (k', v') :: put rest k v

/-- `report` (`_tic_tok.py:155-163`): calls, seconds, average by name. -/
def report (s : Stats) : List (List Char × (Nat × ℚ × ℚ)) :=
  s.foldl (fun r kv => put r (cutName kv.1) (kv.2.1, kv.2.2, kv.2.2 / kv.2.1)) []

end YL.TicToc
