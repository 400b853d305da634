import Verif.Model.Nx

/-!
# Model of `ylearn/utils/_common.py`

`to_list`, `join_list`, `to_snake_case`, `to_camel_case`, `check_fitted`. A `str` is a list of characters. The character
classes of Python (`str.isspace`, `str.isupper`, `str.lower`, `str.title`) are parameters.
-/

namespace YL.Utils

/-- An argument as `to_list` and `join_list` see it: `None`, a list or tuple, a string, anything else
(utils/_common.py:60-84). -/
inductive PArg (S : Type) where
  | none
  | list (l : List S)
  | tuple (l : List S)
  | str (s : List Char)
  | other
  deriving DecidableEq

/-- `s.split(c)` for a one character separator (called at utils/_common.py:64) -/
def splitOn (c : Char) : List Char → List (List Char)
  | [] => [[]]
  | a :: s => if a = c then [] :: splitOn c s
    else match splitOn c s with
      | [] => [[a]]
      | w :: ws => (a :: w) :: ws

/-- `s.strip()`; `ws` is `str.isspace` (called at utils/_common.py:64) -/
def strip (ws : Char → Bool) (s : List Char) : List Char := ((s.dropWhile ws).reverse.dropWhile ws).reverse

/-- the two comprehensions of `to_list` for a string (_common.py:64-65) -/
def parseNames (ws : Char → Bool) (s : List Char) : List (List Char) :=
  ((splitOn ',' s).map (strip ws)).filter (fun w => decide (0 < w.length))

/-- `to_list(v)` (_common.py:60-70) for values whose items are strings -/
def toList (ws : Char → Bool) (v : PArg (List Char)) : Except Err (PArg (List Char)) :=
  match v with
  | .none => .ok .none
  | .list l => .ok (.list l)
  | .tuple l => .ok (.tuple l)
  | .str s => .ok (.list (parseNames ws s))
  | .other => .error .value

/-- `join_list(*args)` (_common.py:73-84) -/
def joinList (ws : Char → Bool) : List (PArg (List Char)) → Except Err (List (List Char))
  | [] => .ok []
  | a :: as => match joinList ws as with
    | .error e => .error e
    | .ok r => match a with
      | .none => .ok r
      | .list l => .ok (l ++ r)
      | .tuple l => .ok (l ++ r)
      | .str s => .ok (parseNames ws s ++ r)
      | .other => .error .value

/-- the loop of `to_snake_case` (_common.py:275-283); `last` is `last_isupper`, `lower c` is `c.lower()`, which may have
several characters -/
def snakeLoop (up : Char → Bool) (lower : Char → List Char) : Option Bool → List Char → List Char
  | _, [] => []
  | last, c :: s =>
    (if up c then (if last = some false then ['_'] else []) ++ lower c else [c]) ++ snakeLoop up lower (some (up c)) s

/-- `to_snake_case(s)` (_common.py:272-287) -/
def snake (up : Char → Bool) (lower : Char → List Char) (s : List Char) : List Char :=
  (snakeLoop up lower none s).dropWhile (fun c => decide (c = '_'))

/-- `x.title()` of a word: the first cased character after an uncased one is capitalised, the others are lowered. `cased`
are the cased characters. (called at utils/_common.py:292.) -/
def titleLoop (cased : Char → Bool) (title lower : Char → List Char) : Bool → List Char → List Char
  | _, [] => []
  | prev, c :: s => (if cased c then (if prev then lower c else title c) else [c]) ++ titleLoop cased title lower (cased c) s

/-- `to_camel_case(s)` (_common.py:290-292) -/
def camel (cased : Char → Bool) (title lower : Char → List Char) (s : List Char) : List Char :=
  ((splitOn '_' s).map (titleLoop cased title lower false)).flatten

/-! ### check_fitted -/

/-- the value of the attribute that holds the fitted tag: absent, a bool or some other object (truthy or not)
(utils/_common.py:317-341). -/
inductive Tag where
  | absent
  | bool (b : Bool)
  | obj (truthy : Bool)
  deriving DecidableEq

/-- `bool(value)` of the tag (utils/_common.py:317-341) -/
def Tag.truthy : Tag → Bool
  | .absent => false
  | .bool b => b
  | .obj t => t

/-- `check_fitted(fn)` with the default arguments (_common.py:317-341): the wrapped function -/
def checkFitted {σ ι ο : Type} (tag : σ → Tag) (fn : σ → ι → Except Err ο) : σ → ι → Except Err ο :=
  fun s i => if (tag s).truthy then fn s i else .error .value

/-! ### UpliftModel (uplift/_model.py) -/

section
variable {D R : Type}

/-- the attributes of an `UpliftModel` (uplift/_model.py:10-20); the tag is absent until the first successful `fit` -/
structure UpliftObj (R : Type) where
  cumlift : Option R
  gain : Option R
  qini : Option R
  tag : Tag

/-- `UpliftModel.fit` (uplift/_model.py:22-52): the attributes are assigned one after the other; the exception of a step leaves
the earlier assignments -/
def upliftFit (fc fg fq fs : D → Except Err R) (o : UpliftObj R) (d : D) : UpliftObj R × Except Err Unit :=
  match fc d with
  | .error e => (o, .error e)
  | .ok c => match fg d with
    | .error e => ({ o with cumlift := some c }, .error e)
    | .ok g => match fq d with
      | .error e => ({ o with cumlift := some c, gain := some g }, .error e)
      | .ok q => match fs d with
        | .error e => ({ o with cumlift := some c, gain := some g, qini := some q }, .error e)
        | .ok _ => (⟨some c, some g, some q, .bool true⟩, .ok ())

/-- `get_cumlift()`, `get_gain()`, `get_qini()` with their decorator (uplift/_model.py:54-76) -/
def upliftGet (field : UpliftObj R → Option R) : UpliftObj R → Unit → Except Err R :=
  checkFitted UpliftObj.tag (fun o _ => match field o with
    | some r => .ok r
    | none => .error .type)

/-- the object after a history of calls of `fit` (repeated calls of uplift/_model.py:22-52) -/
def upliftAfter (fc fg fq fs : D → Except Err R) (ds : List D) : UpliftObj R :=
  ds.foldl (fun o d => (upliftFit fc fg fq fs o d).1) ⟨none, none, none, .absent⟩

end

end YL.Utils
