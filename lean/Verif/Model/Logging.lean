import Mathlib.Logic.Function.Basic

/-!
# `ylearn.utils.logging`

Model of the logging utilities (`/repo/ylearn/utils/logging.py`): levels, the two
handlers, `log`, the named methods, `log_every_n` and `log_first_n` with the table of
counters, and the search for the caller's frame.

Not modelled: message formatting, `disabled`, `logging.disable`, handlers added by the
user, `get_logger` on a name that already belongs to a logger of another class.
-/
set_option linter.unusedSectionVars false

namespace YL.Log

/-- What the calls can raise. -/
inductive Err | assertion | value | zeroDivision | type
  deriving DecidableEq, Repr

/-- The levels imported from the standard library (`logging.py:17-21`). -/
def FATAL : Int := 50
def ERROR : Int := 40
def WARN : Int := 30
def INFO : Int := 20
def DEBUG : Int := 10

/-- `_name2level` (`logging.py:23-40`). -/
def name2level : List (String × Int) :=
  [("FATAL", FATAL), ("F", FATAL),
   ("ERROR", ERROR), ("ERR", ERROR), ("E", ERROR),
   ("WARNING", WARN), ("WARN", WARN), ("W", WARN),
   ("INFO", INFO), ("I", INFO),
   ("DEBUG", DEBUG), ("D", DEBUG)]

/-- The argument of `to_level` and `set_level`. -/
inductive LevelArg | none | int (i : Int) | str (s : List Char)
  deriving DecidableEq, Repr

/-- `v.upper()`.  Simplified: ASCII letters. -/
def upper (s : List Char) : List Char := s.map Char.toUpper

/-- `re.match(r'^\d$', v)` followed by `int(v)` (`logging.py:263-264`).  Simplified: ASCII
digits.  `$` also matches before a final newline, and `int` strips it. -/
def oneDigit : List Char → Option Int
  | [c] => if c.isDigit then some (c.toNat - '0'.toNat : Nat) else Option.none
  | [c, d] => if c.isDigit && d == '\n' then some (c.toNat - '0'.toNat : Nat) else Option.none
  | _ => Option.none

/-- `to_level` (`logging.py:255-268`); `cur` is the global `_log_level`. -/
def toLevel (cur : Int) : LevelArg → Except Err Int
  | .none => .ok cur
  | .int i => .ok i
  | .str s =>
    match name2level.find? (fun p => p.1.toList == upper s) with
    | some p => .ok p.2
    | Option.none =>
      match oneDigit s with
      | some i => .ok i
      | Option.none => .error .value

/-- A frame of the interpreter's stack: file and line. -/
structure Frame where
  file : String
  line : Nat
  deriving DecidableEq, Repr

/-- `_get_caller` (`logging.py:271-285`): `stack` is the whole stack, innermost first (its
first element is the frame of `_get_caller` itself).  It starts at the frame `offset` and
returns the first frame further out whose file is another one. -/
def getCaller (offset : Nat) (stack : List Frame) : Option Frame :=
  match stack.drop offset with
  | [] => Option.none
  | f :: rest => rest.find? (fun g => g.file != f.file)

/-- The files of this module and of the standard library's `logging`. -/
def ownFile : String := "ylearn/utils/logging.py"
def stdFile : String := "logging/__init__.py"

/-- `_get_file_and_line` (`logging.py:339-344`) called from `log_every_n` or
`log_first_n` (`logging.py:191`, `205`), which was called with the stack `user`: the frames
above the user's are `_get_caller`, `_get_file_and_line` and the method.  The default
offset is 3 (`logging.py:271`).  Line numbers of the library's frames do not matter. -/
def fileAndLine (user : List Frame) : String × Nat :=
  match getCaller 3 (⟨ownFile, 272⟩ :: ⟨ownFile, 342⟩ :: ⟨ownFile, 196⟩ :: user) with
  | some f => (f.file, f.line)
  | Option.none => ("<unknown>", 0)

/-- `_logger_find_caller` (`logging.py:288-300`), offset 4, called from
`CustomizedLogger.log` (`logging.py:149-150`) through `Logger.log` and `Logger._log`.
`inner` are the further frames of this module between the user and `log`
(`info` …, `log_if`, `log_every_n`). -/
def findCaller (inner user : List Frame) : String × Nat :=
  match getCaller 4 (⟨ownFile, 272⟩ :: ⟨ownFile, 289⟩ :: ⟨stdFile, 0⟩ :: ⟨stdFile, 0⟩ ::
      ⟨ownFile, 152⟩ :: (inner ++ user)) with
  | some f => (f.file, f.line)
  | Option.none => ("(unknown file)", 0)

inductive Stream | stdout | stderr
  deriving DecidableEq, Repr

/-- A line of output: stream, level, message, file and line of the record. -/
structure Rec where
  stream : Stream
  level : Int
  msg : String
  site : String × Nat
  deriving DecidableEq, Repr

/-- The module's global state, and the level each logger was given with `setLevel`. -/
structure St where
  level : Int
  counts : String × Nat → Option Int
  own : String → Option Int
  out : List Rec

/-- `isEnabledFor` with `getEffectiveLevel` (`logging.py:146-147`, `220-224`). -/
def isEnabledFor (st : St) (level : Int) : Bool := decide (st.level ≤ level)

/-- The two handlers with their filters (`logging.py:136-144`).  The standard library
offers a record to a handler when `levelno >= handler.level`, and the handlers' level
is `NOTSET` = 0. -/
def handle (lvl : Int) (msg : String) (site : String × Nat) : List Rec :=
  (if lvl < WARN ∧ 0 ≤ lvl then [⟨.stdout, lvl, msg, site⟩] else []) ++
  (if WARN ≤ lvl ∧ 0 ≤ lvl then [⟨.stderr, lvl, msg, site⟩] else [])

/-- `log` (`logging.py:149-150`). -/
def logRec (st : St) (lvl : Int) (msg : String) (site : String × Nat) : St :=
  if isEnabledFor st lvl then { st with out := st.out ++ handle lvl msg site } else st

/-- `log_if` (`logging.py:171-177`) with a condition that is not a function. -/
def logIf (st : St) (lvl : Int) (msg : String) (cond : Bool) (site : String × Nat) : St :=
  if cond then logRec st lvl msg site else st

/-- `_get_next_log_count_per_token` (`logging.py:324-336`). -/
def nextCount (st : St) (t : String × Nat) : Int × St :=
  let c := 1 + (st.counts t).getD (-1)
  (c, { st with counts := Function.update st.counts t (some c) })

/-- The named methods. -/
inductive Method | error | warning | warn | info | debug
  deriving DecidableEq, Repr

/-- The level of each (`logging.py:156-169`). -/
def Method.level : Method → Int
  | .error => ERROR
  | .warning => WARN
  | .warn => WARN
  | .info => INFO
  | .debug => DEBUG

/-- A call of the API.  `user` is the stack at the call, innermost first. -/
inductive Op
  | setLevel (v : LevelArg)
  | loggerSetLevel (logger : String) (l : Int)
  | log (logger : String) (lvl : Int) (msg : String) (user : List Frame)
  | named (logger : String) (m : Method) (msg : String) (user : List Frame)
  | fatal (logger : String) (msg : String) (user : List Frame)
  | everyN (logger : String) (lvl : Int) (msg : String) (n : Int) (user : List Frame)
  | firstN (logger : String) (lvl : Int) (msg : String) (n : Int) (user : List Frame)
  deriving DecidableEq, Repr

/-- One call: the new state and what it raised.
`set_level` `logging.py:246-252`; `Logger.setLevel` of the standard library; `log`
`149-150`; the named methods `156-169`; `fatal` `152-154` (it calls `self.exception()`,
whose `msg` is required); `log_every_n` `179-192`; `log_first_n` `194-206`. -/
def step (st : St) : Op → St × Option Err
  | .setLevel v =>
    match v with
    | .none => (st, some .assertion)
    | v =>
      match toLevel st.level v with
      | .ok l => ({ st with level := l }, Option.none)
      | .error e => (st, some e)
  | .loggerSetLevel lg l => ({ st with own := Function.update st.own lg (some l) }, Option.none)
  | .log _ lvl msg user => (logRec st lvl msg (findCaller [] user), Option.none)
  | .named _ m msg user =>
    (logRec st m.level msg (findCaller [⟨ownFile, 159⟩] user), Option.none)
  | .fatal _ msg user =>
    (logRec st FATAL msg (findCaller [⟨ownFile, 155⟩] user), some .type)
  | .everyN _ lvl msg n user =>
    let r := nextCount st (fileAndLine user)
    if n = 0 then (r.2, some .zeroDivision)
    else (logIf r.2 lvl msg (decide (r.1 % n = 0))
      (findCaller [⟨ownFile, 181⟩, ⟨ownFile, 197⟩] user), Option.none)
  | .firstN _ lvl msg n user =>
    let r := nextCount st (fileAndLine user)
    (logIf r.2 lvl msg (decide (r.1 < n))
      (findCaller [⟨ownFile, 181⟩, ⟨ownFile, 211⟩] user), Option.none)

/-- The state before any call; `l0` is what `_init_log_level` found. -/
def init (l0 : Int) : St := ⟨l0, fun _ => Option.none, fun _ => Option.none, []⟩

/-- A history of calls. -/
def run (st : St) : List Op → St
  | [] => st
  | o :: os => run (step st o).1 os

/-- `_init_log_level` (`logging.py:43-58`): `environ` in the order of the mapping's items,
`dev` whether the module lies outside `site-packages`. -/
def initLevel (dev : Bool) : List (List Char × List Char) → Int
  | [] => if dev then INFO else WARN
  | (k, v) :: rest =>
    if upper k = "YLEARN_LOG_LEVEL".toList then
      match name2level.find? (fun p => p.1.toList == upper v) with
      | some p => p.2
      | Option.none =>
        match oneDigit v with
        | some i => i
        | Option.none => initLevel dev rest
    else initLevel dev rest

end YL.Log
