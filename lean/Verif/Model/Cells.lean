import Mathlib.Algebra.Order.Floor.Defs
import Mathlib.Data.Rat.Floor

/-!
# Model of what `DataCleaner` does to the cells of a column

ylearn/sklearn_ex/_data_cleaner.py: `correct_object_dtype`, the conversions of `clean_data` and `reduce_mem_usage`. Which columns and rows stay is
modelled in Model/SkFrame.lean.

Simplifications:
* the types of columns are signed integers (8 to 64 bits), floats and `object`; cells are integers, numbers, texts and NaN; infinities and other Python
  objects are left out;
* a number is a rational; rounding an integer to `float64` and a number to `float32` are functions given by the environment;
* what Python's `float(text)`, `int(text)` and `str(cell)` give are given by the environment as well;
* the conversion of a number outside the range of an integer type, undefined in C, is taken to wrap like that of an integer.
-/

namespace YL.Cells

/-- a cell -/
inductive Cell where
  | int (n : Int)
  | num (q : Rat)
  | text (s : String)
  | nan
deriving DecidableEq

/-- the type of a column: `int8` ... `int64`, `float32`, `float64`, `object` -/
inductive DType where
  | int (w : Nat)
  | float32
  | float64
  | object
deriving DecidableEq

/-- a column -/
structure Col where
  dtype : DType
  cells : List Cell
deriving DecidableEq

/-- Python and numpy conversions -/
structure Py where
  /-- `float(text)`, a number or NaN -/
  float : String → Option Cell
  /-- `int(text)` -/
  int : String → Option Int
  /-- `str(cell)` -/
  str : Cell → String
  /-- rounding an integer to double precision -/
  dbl : Int → Rat
  /-- rounding a number to single precision -/
  rnd : Rat → Rat
  /-- the largest number of single precision -/
  max32 : Rat

/-- the options that matter here (_data_cleaner.py:136-150): `correct_object_dtype`, `int_convert_to == 'float'` (otherwise `None`), `reduce_mem_usage` -/
structure Opts where
  correct : Bool
  intToFloat : Bool
  reduce : Bool

/-- two's complement: the number with `w` bits that is congruent to `n` -/
def wrap (w : Nat) (n : Int) : Int := (n + 2 ^ (w - 1)) % 2 ^ w - 2 ^ (w - 1)

/-- truncation towards zero -/
def trunc (q : Rat) : Int := if 0 ≤ q then ⌊q⌋ else ⌈q⌉

/-- a cell as a double -/
def toFloat (py : Py) : Cell → Option Cell
  | .int n => some (.num (py.dbl n))
  | .num q => some (.num q)
  | .nan => some .nan
  | .text s => py.float s

/-- a number rounded to single precision -/
def single (py : Py) : Cell → Cell
  | .num q => .num (py.rnd q)
  | c => c

/-- a cell of a column of type `d` in single precision: only columns of integers are converted without a detour through doubles -/
def toSingle (py : Py) (d : DType) (c : Cell) : Option Cell :=
  match d, c with
  | .int _, .int n => some (.num (py.rnd n))
  | _, c => (toFloat py c).map (single py)

/-- a cell as an integer of `w` bits -/
def toInt (py : Py) (w : Nat) : Cell → Option Cell
  | .int n => some (.int (wrap w n))
  | .num q => some (.int (wrap w (trunc q)))
  | .nan => none
  | .text s => (py.int s).map (fun n => .int (wrap w n))

/-- all cells, if none fails -/
def mapAll (f : Cell → Option Cell) : List Cell → Option (List Cell)
  | [] => some []
  | c :: l => match f c, mapAll f l with
    | some d, some m => some (d :: m)
    | _, _ => none

/-- `X[col].astype(dtype)`: `none` if it raises -/
def astype (py : Py) (d : DType) (c : Col) : Option Col :=
  match d with
  | .object => some ⟨.object, c.cells⟩
  | .float64 => (mapAll (toFloat py) c.cells).map (fun l => ⟨.float64, l⟩)
  | .float32 => (mapAll (toSingle py c.dtype) c.cells).map (fun l => ⟨.float32, l⟩)
  | .int w => (mapAll (toInt py w) c.cells).map (fun l => ⟨.int w, l⟩)

/-- `_correct_object_dtype_as` for one column (_data_cleaner.py:75-92): nothing for the type it has, a failure is ignored -/
def correctAs (py : Py) (d : DType) (c : Col) : Col := if c.dtype = d then c else (astype py d c).getD c

/-- `correct_object_dtype` without meta data (_data_cleaner.py:63-73): object columns that are not reserved become floats, if that works -/
def correctNew (py : Py) (reserved : Bool) (c : Col) : Col :=
  if c.dtype = .object ∧ reserved = false then correctAs py .float64 c else c

/-- is the column one of integers? (`column_int`, _data_cleaner.py:20-22) -/
def DType.isInt : DType → Bool
  | .int _ => true
  | _ => false

/-- `int_convert_to` (_data_cleaner.py:248-254) -/
def intStep (py : Py) (o : Opts) (reserved : Bool) (c : Col) : Col :=
  if o.intToFloat = true ∧ reserved = false ∧ c.dtype.isInt = true then (astype py .float64 c).getD c else c

/-- remaining object columns become text (_data_cleaner.py:256-261); the type of a column of texts is `object` -/
def strStep (py : Py) (reserved : Bool) (c : Col) : Col :=
  if reserved = false ∧ c.dtype = .object then ⟨.object, c.cells.map (fun x => .text (py.str x))⟩ else c

/-- the integers of a column -/
def ints : List Cell → List Int
  | [] => []
  | .int n :: l => n :: ints l
  | _ :: l => ints l

/-- `c_min > iinfo.min and c_max < iinfo.max` (_data_cleaner.py:39-45); minimum and maximum of an empty column are NaN and compare as false -/
def fits (w : Nat) (l : List Int) : Bool := !l.isEmpty && l.all (fun n => decide (-(2 ^ (w - 1)) < n ∧ n < 2 ^ (w - 1) - 1))

/-- `reduce_mem_usage` for an integer column (_data_cleaner.py:38-46): `int8` columns are not in the list `numerics` and stay -/
def narrow (py : Py) (w : Nat) (c : Col) : Col :=
  if w = 8 then c
  else if fits 8 (ints c.cells) then (astype py (.int 8) c).getD c
  else if fits 16 (ints c.cells) then (astype py (.int 16) c).getD c
  else if fits 32 (ints c.cells) then (astype py (.int 32) c).getD c
  else if fits 64 (ints c.cells) then (astype py (.int 64) c).getD c
  else c

/-- the numbers of a column of floats -/
def nums : List Cell → List Rat
  | [] => []
  | .num q :: l => q :: nums l
  | _ :: l => nums l

/-- `c_min > finfo.min and c_max < finfo.max` (_data_cleaner.py:48); minimum and maximum skip NaN, those of a column of NaN compare as false -/
def fits32 (py : Py) (l : List Rat) : Bool := !l.isEmpty && l.all (fun q => decide (-py.max32 < q ∧ q < py.max32))

/-- `reduce_mem_usage` (_data_cleaner.py:26-52) -/
def reduceStep (py : Py) (reserved : Bool) (c : Col) : Col :=
  if reserved then c
  else match c.dtype with
    | .object => c
    | .int w => narrow py w c
    | _ => if fits32 py (nums c.cells) then (astype py .float32 c).getD c else (astype py .float64 c).getD c

/-- the conversions of `clean_data` without meta data, as `fit_transform` calls it (_data_cleaner.py:239-265, 284-302) -/
def fitCol (py : Py) (o : Opts) (reserved : Bool) (c : Col) : Col :=
  let c1 := if o.correct then correctNew py reserved c else c
  let c3 := strStep py reserved (intStep py o reserved c1)
  if o.reduce then reduceStep py reserved c3 else c3

/-- the conversions of `clean_data` with the type the column had at the end of the fit, as `transform` calls it (_data_cleaner.py:239-261, 304-328): the
meta data also change reserved columns -/
def transformCol (py : Py) (o : Opts) (reserved : Bool) (d : DType) (c : Col) : Col :=
  let c1 := if o.correct then correctAs py d c else c
  strStep py reserved (intStep py o reserved c1)

end YL.Cells
