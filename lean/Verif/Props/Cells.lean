import Verif.Model.Cells
import Mathlib.Tactic.Common
import Mathlib.Tactic.Linarith
import Mathlib.Tactic.NormNum
import Mathlib.Algebra.Order.Ring.Rat
import Mathlib.Algebra.Order.Floor.Ring
/-!
C145: what `DataCleaner` does to the cells.
-/
set_option linter.unusedSectionVars false
set_option linter.unusedSimpArgs false
set_option linter.unusedVariables false
namespace YL.Props
open YL.Cells

/-! ### Specification -/

/-- the number a cell stands for -/
def cellValue : Cell → Option ℚ
  | .int n => some n
  | .num q => some q
  | _ => none

/-- the cells are those of the type of the column -/
def WellTyped (py : Py) (c : Col) : Prop :=
  match c.dtype with
  | .int w => (w = 8 ∨ w = 16 ∨ w = 32 ∨ w = 64) ∧ ∀ x ∈ c.cells, ∃ n : Int, x = .int n ∧ -(2 ^ (w - 1)) ≤ n ∧ n < 2 ^ (w - 1)
  | .float32 => ∀ x ∈ c.cells, x = .nan ∨ ∃ q, x = .num q ∧ py.rnd q = q
  | .float64 => ∀ x ∈ c.cells, x = .nan ∨ ∃ q, x = .num q
  | .object => True

/-- a column of numbers -/
def NumericType : DType → Prop
  | .object => False
  | _ => True

/-- the same numbers, and missing values, in the same rows -/
def SameNumbers (c c' : Col) : Prop := c'.cells.map cellValue = c.cells.map cellValue

/-- what is used of Python: texts convert to numbers or NaN, rounding twice is rounding once -/
structure GoodPy (py : Py) : Prop where
  float : ∀ s x, py.float s = some x → x = .nan ∨ ∃ q, x = .num q
  round : ∀ q, py.rnd (py.rnd q) = py.rnd q

/-- every text of the column reads as a number -/
def Readable (py : Py) (c : Col) : Prop := ∀ s, Cell.text s ∈ c.cells → (py.float s).isSome

/-! ### Lemmas -/

theorem wrap_id {w : Nat} (hw : 0 < w) {n : Int} (h1 : -(2 ^ (w - 1)) ≤ n) (h2 : n < 2 ^ (w - 1)) : wrap w n = n := by
  have e : (2 : Int) ^ w = 2 * 2 ^ (w - 1) := by
    obtain ⟨k, rfl⟩ : ∃ k, w = k + 1 := ⟨w - 1, by omega⟩
    simp [pow_succ, mul_comm]
  unfold wrap
  rw [e, Int.emod_eq_of_lt (by linarith) (by linarith)]
  ring

theorem mapAll_some {f : Cell → Option Cell} : ∀ {l m : List Cell}, mapAll f l = some m ↔ List.Forall₂ (fun x y => f x = some y) l m
  | [], m => by
    simp only [mapAll, Option.some.injEq]
    constructor
    · rintro rfl; exact .nil
    · intro h; cases h; rfl
  | x :: l, m => by
    constructor
    · intro h
      simp only [mapAll] at h
      split at h
      · rename_i d m' hd hm
        cases h
        exact .cons hd (mapAll_some.mp hm)
      · exact absurd h (by simp)
    · intro h
      cases h with
      | cons h1 h2 => simp only [mapAll, h1, mapAll_some.mpr h2]

theorem mapAll_isSome {f : Cell → Option Cell} : ∀ {l : List Cell}, (mapAll f l).isSome ↔ ∀ x ∈ l, (f x).isSome
  | [] => by simp [mapAll]
  | x :: l => by
    have ih := mapAll_isSome (f := f) (l := l)
    simp only [mapAll, List.forall_mem_cons]
    rw [← ih]
    cases f x <;> cases mapAll f l <;> simp

theorem mapAll_total {f : Cell → Option Cell} {g : Cell → Cell} {l : List Cell} (h : ∀ x ∈ l, f x = some (g x)) :
    mapAll f l = some (l.map g) := by
  rw [mapAll_some]
  induction l with
  | nil => exact .nil
  | cons x l ih => exact .cons (h x (by simp)) (ih (fun y hy => h y (by simp [hy])))

theorem mapAll_id {f : Cell → Option Cell} {l : List Cell} (h : ∀ x ∈ l, f x = some x) : mapAll f l = some l := by
  have := mapAll_total (g := id) h
  simpa using this

theorem mem_ints : ∀ {l : List Cell} {n : Int}, n ∈ ints l ↔ Cell.int n ∈ l
  | [], n => by simp [ints]
  | .int m :: l, n => by simp [ints, mem_ints (l := l)]
  | .num q :: l, n => by simp [ints, mem_ints (l := l)]
  | .text s :: l, n => by simp [ints, mem_ints (l := l)]
  | .nan :: l, n => by simp [ints, mem_ints (l := l)]

/-- an integer column in an integer type that holds its numbers keeps its cells -/
theorem astype_int_id (py : Py) {w : Nat} (hw : 0 < w) {c : Col}
    (h : ∀ x ∈ c.cells, ∃ n : Int, x = .int n ∧ -(2 ^ (w - 1)) ≤ n ∧ n < 2 ^ (w - 1)) : astype py (.int w) c = some ⟨.int w, c.cells⟩ := by
  have : mapAll (toInt py w) c.cells = some c.cells := mapAll_id (by
    intro x hx
    obtain ⟨n, rfl, h1, h2⟩ := h x hx
    simp [toInt, wrap_id hw h1 h2])
  simp [astype, this]

theorem fits_range {w : Nat} {c : Col} (hc : ∀ x ∈ c.cells, ∃ n : Int, x = .int n) (h : fits w (ints c.cells) = true) :
    ∀ x ∈ c.cells, ∃ n : Int, x = .int n ∧ -(2 ^ (w - 1)) ≤ n ∧ n < 2 ^ (w - 1) := by
  intro x hx
  obtain ⟨n, rfl⟩ := hc x hx
  simp only [fits, Bool.and_eq_true, List.all_eq_true, decide_eq_true_eq] at h
  have := h.2 n (mem_ints.mpr hx)
  exact ⟨n, rfl, by linarith [this.1], by linarith [this.2]⟩

/-- narrowing gives an integer column with the same cells, again of its type -/
theorem narrow_spec (py : Py) {w : Nat} {c : Col} (hd : c.dtype = .int w) (hc : WellTyped py c) :
    ∃ w', narrow py w c = ⟨.int w', c.cells⟩ ∧ WellTyped py ⟨.int w', c.cells⟩ := by
  have hc' := hc
  simp only [WellTyped, hd] at hc'
  obtain ⟨hw, hcells⟩ := hc'
  have hints : ∀ x ∈ c.cells, ∃ n : Int, x = .int n := fun x hx => by
    obtain ⟨n, e, _⟩ := hcells x hx; exact ⟨n, e⟩
  have same : c = ⟨.int w, c.cells⟩ := by rw [← hd]
  have wt : ∀ {v : Nat}, (v = 8 ∨ v = 16 ∨ v = 32 ∨ v = 64) → fits v (ints c.cells) = true →
      (astype py (.int v) c).getD c = ⟨.int v, c.cells⟩ ∧ WellTyped py ⟨.int v, c.cells⟩ := by
    intro v hv hf
    have hr := fits_range hints hf
    rw [astype_int_id py (by omega) hr]
    exact ⟨rfl, by simpa [WellTyped] using ⟨hv, hr⟩⟩
  have keep : WellTyped py ⟨.int w, c.cells⟩ := same ▸ hc
  unfold narrow
  split
  · exact ⟨w, same, keep⟩
  split
  · exact ⟨8, wt (by simp) ‹_›⟩
  split
  · exact ⟨16, wt (by simp) ‹_›⟩
  split
  · exact ⟨32, wt (by simp) ‹_›⟩
  split
  · exact ⟨64, wt (by simp) ‹_›⟩
  · exact ⟨w, same, keep⟩


/-- a cell in double precision -/
def asDouble (py : Py) : Cell → Cell
  | .int n => .num (py.dbl n)
  | x => x

/-- a cell that is not text converts -/
theorem toFloat_number (py : Py) {x : Cell} (h : ∀ s, x ≠ .text s) : toFloat py x = some (asDouble py x) := by
  cases x <;> simp_all [toFloat, asDouble]

theorem no_text {py : Py} {c : Col} (hc : WellTyped py c) (hn : NumericType c.dtype) : ∀ x ∈ c.cells, ∀ s, x ≠ .text s := by
  intro x hx s e
  subst e
  unfold WellTyped at hc
  revert hc hn
  cases c.dtype with
  | int w =>
    intro hc _
    obtain ⟨n, e, _⟩ := hc.2 _ hx
    cases e
  | float32 =>
    intro hc _
    rcases hc _ hx with e | ⟨q, e, _⟩ <;> cases e
  | float64 =>
    intro hc _
    rcases hc _ hx with e | ⟨q, e⟩ <;> cases e
  | object => intro _ h; exact h.elim

theorem astype_float64_number {py : Py} {c : Col} (h : ∀ x ∈ c.cells, ∀ s, x ≠ .text s) :
    astype py .float64 c = some ⟨.float64, c.cells.map (asDouble py)⟩ := by
  simp [astype, mapAll_total (fun x hx => toFloat_number py (h x hx))]

theorem wellTyped_double {py : Py} {c : Col} (h : ∀ x ∈ c.cells, ∀ s, x ≠ .text s) : WellTyped py ⟨.float64, c.cells.map (asDouble py)⟩ := by
  intro y hy
  obtain ⟨x, hx, rfl⟩ := List.mem_map.mp hy
  have := h x hx
  cases x with
  | int n => exact Or.inr ⟨_, rfl⟩
  | num q => exact Or.inr ⟨_, rfl⟩
  | text s => exact absurd rfl (this s)
  | nan => exact Or.inl rfl

theorem asDouble_float {py : Py} {x : Cell} (h : x = .nan ∨ ∃ q, x = .num q) : asDouble py x = x := by
  rcases h with rfl | ⟨q, rfl⟩ <;> rfl

theorem toSingle_float {py : Py} {d : DType} {x : Cell} (h : x = .nan ∨ ∃ q, x = .num q) : toSingle py d x = some (single py x) := by
  rcases h with rfl | ⟨q, rfl⟩ <;> cases d <;> rfl

/-- the cells of a column of floats -/
theorem float_cells {py : Py} {c : Col} (hc : WellTyped py c) (hd : c.dtype = .float32 ∨ c.dtype = .float64) :
    ∀ x ∈ c.cells, x = .nan ∨ ∃ q, x = .num q := by
  intro x hx
  rcases hd with hd | hd
  · simp only [WellTyped, hd] at hc
    rcases hc x hx with h | ⟨q, h, _⟩
    · exact Or.inl h
    · exact Or.inr ⟨q, h⟩
  · simp only [WellTyped, hd] at hc
    exact hc x hx

/-- what `reduce_mem_usage` does to a column of floats -/
theorem reduce_float {py : Py} {c : Col} (hd : c.dtype = .float32 ∨ c.dtype = .float64) (hx : ∀ x ∈ c.cells, x = .nan ∨ ∃ q, x = .num q) :
    reduceStep py false c = if fits32 py (nums c.cells) then ⟨.float32, c.cells.map (single py)⟩ else ⟨.float64, c.cells⟩ := by
  have e1 : astype py .float32 c = some ⟨.float32, c.cells.map (single py)⟩ := by
    simp [astype, mapAll_total (fun x h => toSingle_float (py := py) (d := c.dtype) (hx x h))]
  have e2 : astype py .float64 c = some ⟨.float64, c.cells⟩ := by
    have : mapAll (toFloat py) c.cells = some c.cells := mapAll_id (fun x h => by
      rcases hx x h with rfl | ⟨q, rfl⟩ <;> rfl)
    simp [astype, this]
  unfold reduceStep
  rcases hd with hd | hd <;> simp [hd, e1, e2]

theorem wellTyped_single {py : Py} (hp : GoodPy py) {l : List Cell} (hx : ∀ x ∈ l, x = .nan ∨ ∃ q, x = .num q) :
    WellTyped py ⟨.float32, l.map (single py)⟩ := by
  intro y hy
  obtain ⟨x, h, rfl⟩ := List.mem_map.mp hy
  rcases hx x h with rfl | ⟨q, rfl⟩
  · exact Or.inl rfl
  · exact Or.inr ⟨_, rfl, hp.round q⟩

/-- what a fit does to a column of numbers that is not reserved -/
theorem fit_numeric {py : Py} {o : Opts} {c : Col} (hc : WellTyped py c) (hn : NumericType c.dtype) :
    fitCol py o false c =
      (let c2 : Col := if o.intToFloat = true ∧ c.dtype.isInt = true then ⟨.float64, c.cells.map (asDouble py)⟩ else c
       if o.reduce then reduceStep py false c2 else c2) := by
  have h0 : c.dtype ≠ .object := by intro e; simp [NumericType, e] at hn
  have h1 : (if o.correct then correctNew py false c else c) = c := by simp [correctNew, h0]
  have h2 : intStep py o false c = if o.intToFloat = true ∧ c.dtype.isInt = true then ⟨.float64, c.cells.map (asDouble py)⟩ else c := by
    simp [intStep, astype_float64_number (no_text hc hn)]
  have h3 : strStep py false (intStep py o false c) = intStep py o false c := by
    rw [h2]
    by_cases h : o.intToFloat = true ∧ c.dtype.isInt = true
    · rw [if_pos h]; simp [strStep]
    · rw [if_neg h]; simp [strStep, h0]
  rw [h2] at h3
  simp only [fitCol, h1, h2, h3]

/-- a reserved column is not changed by a fit -/
theorem fit_reserved (py : Py) (o : Opts) (c : Col) : fitCol py o true c = c := by
  simp [fitCol, correctNew, intStep, strStep, reduceStep]


theorem value_double {py : Py} {c : Col} (h : ∀ n, Cell.int n ∈ c.cells → py.dbl n = n) :
    (c.cells.map (asDouble py)).map cellValue = c.cells.map cellValue := by
  rw [List.map_map]
  apply List.map_congr_left
  intro x hx
  cases x <;> simp_all [asDouble, cellValue]

theorem value_single {py : Py} {l : List Cell} (h : ∀ x ∈ l, ∀ q, cellValue x = some q → py.rnd q = q) :
    (l.map (single py)).map cellValue = l.map cellValue := by
  rw [List.map_map]
  apply List.map_congr_left
  intro x hx
  have := h x hx
  cases x <;> simp_all [single, cellValue]

/-- **C145.** `fit_transform` keeps the numbers of a column of numbers, and what was missing, row by row, and the column stays one of numbers: without
`reduce_mem_usage` if its integers are exact in double precision (all up to `2 ^ 53` are), with it if its numbers are exact in single precision as well,
and integers that are not converted to floats without any condition. -/
theorem C145_fit_numbers {py : Py} (hp : GoodPy py) {o : Opts} {reserved : Bool} {c : Col} (hc : WellTyped py c) (hn : NumericType c.dtype)
    (hdbl : o.intToFloat = true → ∀ n, Cell.int n ∈ c.cells → py.dbl n = n)
    (hrnd : o.reduce = true → (c.dtype.isInt = false ∨ o.intToFloat = true) → ∀ x ∈ c.cells, ∀ q, cellValue x = some q → py.rnd q = q) :
    SameNumbers c (fitCol py o reserved c) ∧ NumericType (fitCol py o reserved c).dtype ∧ WellTyped py (fitCol py o reserved c) := by
  cases reserved with
  | true => rw [fit_reserved]; exact ⟨rfl, hn, hc⟩
  | false =>
    rw [fit_numeric hc hn]
    dsimp only
    by_cases hi : o.intToFloat = true ∧ c.dtype.isInt = true
    · rw [if_pos hi]
      have hv := value_double (hdbl hi.1)
      have hw := wellTyped_double (py := py) (no_text hc hn)
      by_cases hr : o.reduce = true
      · rw [if_pos hr, reduce_float (Or.inr rfl) (by exact hw)]
        split
        · refine ⟨?_, trivial, wellTyped_single hp hw⟩
          unfold SameNumbers
          refine Eq.trans (value_single ?_) hv
          intro y hy q hq
          obtain ⟨x, hx, rfl⟩ := List.mem_map.mp hy
          refine hrnd hr (Or.inr hi.1) x hx q ?_
          cases x with
          | int n => simpa [asDouble, cellValue, hdbl hi.1 n hx] using hq
          | num r => exact hq
          | text s => exact hq
          | nan => exact hq
        · exact ⟨hv, trivial, hw⟩
      · rw [if_neg hr]
        exact ⟨hv, trivial, hw⟩
    · rw [if_neg hi]
      by_cases hr : o.reduce = true
      · rw [if_pos hr]
        cases hd : c.dtype with
        | object => simp [NumericType, hd] at hn
        | int w =>
          obtain ⟨w', e, hw⟩ := narrow_spec py hd hc
          have : reduceStep py false c = ⟨.int w', c.cells⟩ := by simp [reduceStep, hd, e]
          rw [this]
          exact ⟨rfl, trivial, hw⟩
        | float32 =>
          have hx := float_cells hc (Or.inl hd)
          rw [reduce_float (Or.inl hd) hx]
          split
          · exact ⟨value_single (hrnd hr (Or.inl (by simp [hd, DType.isInt]))), trivial, wellTyped_single hp hx⟩
          · exact ⟨rfl, trivial, hx⟩
        | float64 =>
          have hx := float_cells hc (Or.inr hd)
          rw [reduce_float (Or.inr hd) hx]
          split
          · exact ⟨value_single (hrnd hr (Or.inl (by simp [hd, DType.isInt]))), trivial, wellTyped_single hp hx⟩
          · exact ⟨rfl, trivial, hx⟩
      · rw [if_neg hr]
        exact ⟨rfl, hn, hc⟩

/-! ### Object columns -/

theorem astype_object_none {py : Py} {c : Col} (h : ¬ Readable py c) : astype py .float64 c = none := by
  simp only [astype]
  cases hm : mapAll (toFloat py) c.cells with
  | none => rfl
  | some m =>
    exfalso
    apply h
    intro s hs
    have := mapAll_isSome.mp (by rw [hm]; rfl) _ hs
    exact this

theorem astype_object_some {py : Py} (hp : GoodPy py) {c : Col} (h : Readable py c) :
    ∃ m, mapAll (toFloat py) c.cells = some m ∧ astype py .float64 c = some ⟨.float64, m⟩ ∧ (∀ x ∈ m, x = .nan ∨ ∃ q, x = .num q) ∧
      List.Forall₂ (fun x y => toFloat py x = some y) c.cells m := by
  have : (mapAll (toFloat py) c.cells).isSome := mapAll_isSome.mpr (fun x hx => by
    cases x with
    | text s => exact h s hx
    | _ => rfl)
  obtain ⟨m, hm⟩ := Option.isSome_iff_exists.mp this
  refine ⟨m, hm, by simp [astype, hm], ?_, mapAll_some.mp hm⟩
  have hf := mapAll_some.mp hm
  intro y hy
  obtain ⟨i, hi, rfl⟩ := List.getElem_of_mem hy
  have hl := hf.length_eq
  have := hf.get (i := i) (by omega) hi
  simp only [List.get_eq_getElem] at this
  cases hx : c.cells[i] with
  | int n => rw [hx] at this; simp only [toFloat, Option.some.injEq] at this; exact Or.inr ⟨_, this.symm⟩
  | num n => rw [hx] at this; simp only [toFloat, Option.some.injEq] at this; exact Or.inr ⟨_, this.symm⟩
  | text s => rw [hx] at this; exact hp.float _ _ this
  | nan => rw [hx] at this; simp only [toFloat, Option.some.injEq] at this; exact Or.inl this.symm

/-- what a fit does to an object column that does not convert -/
theorem fit_text {py : Py} {o : Opts} {c : Col} (hd : c.dtype = .object) (h : o.correct = true → ¬ Readable py c) :
    fitCol py o false c = ⟨.object, c.cells.map (fun x => .text (py.str x))⟩ := by
  have h1 : (if o.correct then correctNew py false c else c) = c := by
    by_cases ho : o.correct = true
    · simp [ho, correctNew, correctAs, hd, astype_object_none (h ho)]
    · simp [ho]
  have h2 : intStep py o false c = c := by simp [intStep, hd, DType.isInt]
  have h3 : strStep py false c = ⟨.object, c.cells.map (fun x => .text (py.str x))⟩ := by simp [strStep, hd]
  simp only [fitCol, h1, h2, h3]
  split <;> simp [reduceStep]

/-- what a fit does to an object column that converts -/
theorem fit_readable {py : Py} {o : Opts} {c : Col} (hd : c.dtype = .object) (ho : o.correct = true) {m : List Cell}
    (hm : astype py .float64 c = some ⟨.float64, m⟩) : fitCol py o false c = if o.reduce then reduceStep py false ⟨.float64, m⟩ else ⟨.float64, m⟩ := by
  have h1 : correctNew py false c = ⟨.float64, m⟩ := by simp [correctNew, correctAs, hd, hm]
  simp [fitCol, ho, h1, intStep, DType.isInt, strStep]

/-- **C145.** An object column becomes numbers if all its texts read as numbers: without `reduce_mem_usage` cell by cell what `float` gives. -/
theorem C145_object_numbers {py : Py} (hp : GoodPy py) {o : Opts} {c : Col} (hd : c.dtype = .object) (ho : o.correct = true) (hr : o.reduce = false)
    (h : Readable py c) : (fitCol py o false c).dtype = .float64 ∧
      List.Forall₂ (fun x y => match x with
        | .int n => y = .num (py.dbl n)
        | .num q => y = .num q
        | .nan => y = .nan
        | .text s => py.float s = some y) c.cells (fitCol py o false c).cells := by
  obtain ⟨m, _, hm, _, hf⟩ := astype_object_some hp h
  rw [fit_readable hd ho hm, hr]
  refine ⟨rfl, hf.imp ?_⟩
  intro x y hxy
  cases x <;> simp_all [toFloat]

/-- **C145.** If one text of it does not read as a number, every cell of the column becomes a text: its numbers, and its missing values, which are no
longer missing. -/
theorem C145_object_texts {py : Py} {o : Opts} {c : Col} (hd : c.dtype = .object) {s : String} (hs : Cell.text s ∈ c.cells) (hf : py.float s = none) :
    fitCol py o false c = ⟨.object, c.cells.map (fun x => .text (py.str x))⟩ ∧ Cell.nan ∉ (fitCol py o false c).cells := by
  rw [fit_text hd (fun _ hr => by have := hr s hs; simp [hf] at this)]
  exact ⟨rfl, by simp⟩


/-! ### Transforming -/

theorem transform_same_type (py : Py) (o : Opts) (c : Col) (d : DType) (h : o.correct = true → c.dtype = d) :
    transformCol py o false d c = strStep py false (intStep py o false c) := by
  unfold transformCol
  by_cases ho : o.correct = true
  · simp [ho, correctAs, h ho]
  · simp [ho]

/-- a column of floats, or of texts, passes the last steps -/
theorem last_steps_float (py : Py) (o : Opts) (reserved : Bool) {d : DType} (l : List Cell) (hd : d = .float32 ∨ d = .float64) :
    strStep py reserved (intStep py o reserved ⟨d, l⟩) = ⟨d, l⟩ := by
  rcases hd with rfl | rfl <;> simp [intStep, strStep, DType.isInt]

theorem transform_via (py : Py) (o : Opts) (reserved : Bool) (ho : o.correct = true) {c : Col} {d : DType} {l : List Cell} (hne : c.dtype ≠ d)
    (h : astype py d c = some ⟨d, l⟩) : transformCol py o reserved d c = strStep py reserved (intStep py o reserved ⟨d, l⟩) := by
  simp [transformCol, ho, correctAs, hne, h]

/-- **C145.** Transforming the data of the fit gives, column by column, what the fit gave: with the correction of types, or without the reduction of
memory. (For integers in single precision: where rounding by way of double precision is the same as rounding at once.) -/
theorem C145_same_data {py : Py} (hp : GoodPy py) {o : Opts} (ho : o.correct = true ∨ o.reduce = false) {reserved : Bool} {c : Col}
    (hc : WellTyped py c) (hr : o.reduce = true → o.intToFloat = true → ∀ n, Cell.int n ∈ c.cells → py.rnd (py.dbl n) = py.rnd n) :
    transformCol py o reserved (fitCol py o reserved c).dtype c = fitCol py o reserved c := by
  cases reserved with
  | true => rw [fit_reserved]; simp [transformCol, correctAs, intStep, strStep]
  | false =>
  have fl : ∀ {e : Col}, (e.dtype = .float32 ∨ e.dtype = .float64) → WellTyped py e → fitCol py o false e = (if o.reduce then reduceStep py false e else e) := by
    intro e he hw
    rw [fit_numeric hw (by rcases he with h | h <;> simp [NumericType, h])]
    have : e.dtype.isInt = false := by rcases he with h | h <;> simp [DType.isInt, h]
    simp [this]
  cases hd : c.dtype with
  | object =>
    by_cases hread : o.correct = true ∧ Readable py c
    · obtain ⟨ho', hread⟩ := hread
      obtain ⟨m, hmap, hm, hx, hf⟩ := astype_object_some hp hread
      rw [fit_readable hd ho' hm]
      by_cases hred : o.reduce = true
      · rw [if_pos hred, reduce_float (Or.inr rfl) hx]
        split
        · have e : astype py .float32 c = some ⟨.float32, m.map (single py)⟩ := by
            have : mapAll (toSingle py c.dtype) c.cells = some (m.map (single py)) := by
              rw [mapAll_some, List.forall₂_map_right_iff]
              refine hf.imp ?_
              intro x y hxy
              rw [hd]
              simp [toSingle, hxy]
            simp [astype, this]
          rw [transform_via py o false ho' (by rw [hd]; simp) e]
          exact last_steps_float py o false _ (Or.inl rfl)
        · rw [transform_via py o false ho' (by rw [hd]; simp) hm]
          exact last_steps_float py o false _ (Or.inr rfl)
      · rw [if_neg hred, transform_via py o false ho' (by rw [hd]; simp) hm]
        exact last_steps_float py o false _ (Or.inr rfl)
    · rw [fit_text hd (fun h1 h2 => hread ⟨h1, h2⟩), transform_same_type py o c _ (fun _ => hd)]
      have h2 : intStep py o false c = c := by simp [intStep, hd, DType.isInt]
      rw [h2]
      simp [strStep, hd]
  | int w =>
    have hn : NumericType c.dtype := by simp [NumericType, hd]
    have hni : c.dtype.isInt = true := by simp [hd, DType.isInt]
    have nt := no_text hc hn
    have ha : astype py .float64 c = some ⟨.float64, c.cells.map (asDouble py)⟩ := astype_float64_number nt
    rw [fit_numeric hc hn]
    dsimp only
    by_cases hi : o.intToFloat = true
    · rw [if_pos (show o.intToFloat = true ∧ c.dtype.isInt = true from ⟨hi, hni⟩)]
      have plain : strStep py false (intStep py o false c) = ⟨.float64, c.cells.map (asDouble py)⟩ := by
        have : intStep py o false c = ⟨.float64, c.cells.map (asDouble py)⟩ := by simp [intStep, hi, hni, ha]
        rw [this]; simp [strStep]
      have viaF : transformCol py o false .float64 c = ⟨.float64, c.cells.map (asDouble py)⟩ := by
        by_cases ho' : o.correct = true
        · rw [transform_via py o false ho' (by rw [hd]; simp) ha]
          exact last_steps_float py o false _ (Or.inr rfl)
        · rw [transform_same_type py o c _ (fun h => absurd h ho')]
          exact plain
      by_cases hred : o.reduce = true
      · have ho' : o.correct = true := by
          rcases ho with h | h
          · exact h
          · simp [h] at hred
        rw [if_pos hred, reduce_float (Or.inr rfl) (by exact wellTyped_double (py := py) nt)]
        split
        · have e : astype py .float32 c = some ⟨.float32, (c.cells.map (asDouble py)).map (single py)⟩ := by
            have : mapAll (toSingle py c.dtype) c.cells = some ((c.cells.map (asDouble py)).map (single py)) := by
              rw [List.map_map]
              apply mapAll_total
              intro x hx
              have hc' := hc
              simp only [WellTyped, hd] at hc'
              obtain ⟨n, rfl, _⟩ := hc'.2 x hx
              simp [hd, toSingle, asDouble, single, hr hred hi n hx]
            simp [astype, this]
          rw [transform_via py o false ho' (by rw [hd]; simp) e]
          exact last_steps_float py o false _ (Or.inl rfl)
        · exact viaF
      · rw [if_neg hred]
        exact viaF
    · rw [if_neg (show ¬ (o.intToFloat = true ∧ c.dtype.isInt = true) from fun h => hi h.1)]
      have stay : ∀ v, strStep py false (intStep py o false ⟨.int v, c.cells⟩) = ⟨.int v, c.cells⟩ := by
        intro v
        simp [intStep, hi, strStep]
      have same : c = ⟨.int w, c.cells⟩ := by rw [← hd]
      by_cases hred : o.reduce = true
      · have ho' : o.correct = true := by
          rcases ho with h | h
          · exact h
          · simp [h] at hred
        rw [if_pos hred]
        obtain ⟨w', e, hw⟩ := narrow_spec py hd hc
        have e' : reduceStep py false c = ⟨.int w', c.cells⟩ := by simp [reduceStep, hd, e]
        rw [e']
        by_cases hww : c.dtype = .int w'
        · rw [transform_same_type py o c _ (fun _ => hww)]
          have : c = ⟨.int w', c.cells⟩ := by rw [← hww]
          rw [this]
          exact stay w'
        · simp only [WellTyped] at hw
          rw [transform_via py o false ho' hww (astype_int_id py (by omega) hw.2)]
          exact stay w'
      · rw [if_neg hred, transform_same_type py o c _ (fun _ => rfl), same]
        exact stay w
  | float32 =>
    have hx := float_cells hc (Or.inl hd)
    rw [fl (Or.inl hd) hc]
    have same : c = ⟨.float32, c.cells⟩ := by rw [← hd]
    by_cases hred : o.reduce = true
    · have ho' : o.correct = true := by
        rcases ho with h | h
        · exact h
        · simp [h] at hred
      rw [if_pos hred, reduce_float (Or.inl hd) hx]
      split
      · rw [transform_same_type py o c _ (fun _ => hd), same, last_steps_float py o false _ (Or.inl rfl)]
        congr 1
        have hc' := hc
        simp only [WellTyped, hd] at hc'
        conv_lhs => rw [← List.map_id c.cells]
        apply List.map_congr_left
        intro x h
        rcases hc' x h with rfl | ⟨q, rfl, hq⟩
        · rfl
        · simp [single, hq]
      · have e : astype py .float64 c = some ⟨.float64, c.cells⟩ := by
          have : mapAll (toFloat py) c.cells = some c.cells := mapAll_id (fun x h => by
            rcases hx x h with rfl | ⟨q, rfl⟩ <;> rfl)
          simp [astype, this]
        rw [transform_via py o false ho' (by rw [hd]; simp) e]
        exact last_steps_float py o false _ (Or.inr rfl)
    · rw [if_neg hred, transform_same_type py o c _ (fun _ => rfl), same]
      exact last_steps_float py o false _ (Or.inl rfl)
  | float64 =>
    have hx := float_cells hc (Or.inr hd)
    rw [fl (Or.inr hd) hc]
    have same : c = ⟨.float64, c.cells⟩ := by rw [← hd]
    by_cases hred : o.reduce = true
    · have ho' : o.correct = true := by
        rcases ho with h | h
        · exact h
        · simp [h] at hred
      rw [if_pos hred, reduce_float (Or.inr hd) hx]
      split
      · have e : astype py .float32 c = some ⟨.float32, c.cells.map (single py)⟩ := by
          simp [astype, mapAll_total (fun x h => toSingle_float (py := py) (d := c.dtype) (hx x h))]
        rw [transform_via py o false ho' (by rw [hd]; simp) e]
        exact last_steps_float py o false _ (Or.inl rfl)
      · rw [transform_same_type py o c _ (fun _ => hd), same]
        exact last_steps_float py o false _ (Or.inr rfl)
    · rw [if_neg hred, transform_same_type py o c _ (fun _ => rfl), same]
      exact last_steps_float py o false _ (Or.inr rfl)

/-- **C145.** A column that was text in the fit is text in every later frame: all its cells become texts, numbers and missing values too. -/
theorem C145_text_stays_text {py : Py} {o : Opts} (ho : o.correct = true) (c : Col) :
    transformCol py o false .object c = ⟨.object, c.cells.map (fun x => .text (py.str x))⟩ := by
  have h1 : correctAs py .object c = ⟨.object, c.cells⟩ := by
    unfold correctAs
    split
    · rename_i h; rw [← h]
    · simp [astype]
  simp [transformCol, ho, h1, intStep, DType.isInt, strStep]

/-- **C145.** With the default options, a column that was one of numbers in the fit is one of double precision numbers in a later frame exactly if all its
texts read as numbers; otherwise every cell, numbers included, becomes a text. -/
theorem C145_numbers_stay_numbers {py : Py} (hp : GoodPy py) {o : Opts} (ho : o.correct = true) {c : Col} (hc : WellTyped py c) :
    (Readable py c → (transformCol py o false .float64 c).dtype = .float64 ∧
      List.Forall₂ (fun x y => match x with
        | .int n => y = .num (py.dbl n)
        | .num q => y = .num q
        | .nan => y = .nan
        | .text s => py.float s = some y) c.cells (transformCol py o false .float64 c).cells) ∧
    (¬ Readable py c → transformCol py o false .float64 c = ⟨.object, c.cells.map (fun x => .text (py.str x))⟩) := by
  refine ⟨fun h => ?_, fun h => ?_⟩
  · obtain ⟨m, _, hm, hx, hf⟩ := astype_object_some hp h
    have : transformCol py o false .float64 c = ⟨.float64, m⟩ := by
      by_cases hd : c.dtype = .float64
      · have hcell := float_cells hc (Or.inr hd)
        have e : astype py .float64 c = some ⟨.float64, c.cells⟩ := by
          have : mapAll (toFloat py) c.cells = some c.cells := mapAll_id (fun x h => by
            rcases hcell x h with rfl | ⟨q, rfl⟩ <;> rfl)
          simp [astype, this]
        rw [hm] at e
        simp only [Option.some.injEq, Col.mk.injEq, true_and] at e
        rw [transform_same_type py o c _ (fun _ => hd), e]
        have same : c = ⟨.float64, c.cells⟩ := by rw [← hd]
        rw [same]
        exact last_steps_float py o false _ (Or.inr rfl)
      · rw [transform_via py o false ho hd hm]
        exact last_steps_float py o false _ (Or.inr rfl)
    rw [this]
    refine ⟨rfl, hf.imp ?_⟩
    intro x y hxy
    cases x <;> simp_all [toFloat]
  · have hobj : c.dtype = .object := by
      by_contra hne
      apply h
      intro s hs
      exact absurd rfl (no_text hc (by
        revert hne; cases c.dtype <;> simp [NumericType]) _ hs s)
    have e : correctAs py .float64 c = c := by simp [correctAs, hobj, astype_object_none h]
    simp [transformCol, ho, e, intStep, DType.isInt, strStep, hobj]

/-- **C145.** A column that was one of `w`-bit integers in the fit and is one of numbers without missing values in a later frame keeps its numbers there
exactly if they are whole and fit into `w` bits (with `int_convert_to=None`, or reserved). -/
theorem C145_integers_kept_iff {py : Py} {o : Opts} (ho : o.correct = true) {reserved : Bool} (hi : o.intToFloat = false ∨ reserved = true) {w : Nat}
    (hw : 0 < w) {c : Col} (hc : WellTyped py c) (hn : NumericType c.dtype) (hne : c.dtype ≠ .int w) (hmiss : Cell.nan ∉ c.cells) :
    (transformCol py o reserved (.int w) c).dtype = .int w ∧
    (SameNumbers c (transformCol py o reserved (.int w) c) ↔
      ∀ x ∈ c.cells, ∃ n : Int, cellValue x = some (n : ℚ) ∧ -(2 ^ (w - 1)) ≤ n ∧ n < 2 ^ (w - 1)) := by
  let g : Cell → Cell := fun x => match x with
    | .int n => .int (wrap w n)
    | .num q => .int (wrap w (trunc q))
    | y => y
  have nt := no_text hc hn
  have hm : mapAll (toInt py w) c.cells = some (c.cells.map g) := by
    apply mapAll_total
    intro x hx
    cases x with
    | int n => rfl
    | num q => rfl
    | text s => exact absurd rfl (nt _ hx s)
    | nan => exact absurd hx hmiss
  have e : transformCol py o reserved (.int w) c = ⟨.int w, c.cells.map g⟩ := by
    rw [transform_via py o reserved ho hne (l := c.cells.map g) (by simp [astype, hm])]
    rcases hi with h | h <;> simp [intStep, strStep, h]
  rw [e]
  refine ⟨rfl, ?_⟩
  have range : ∀ n : Int, -(2 ^ (w - 1)) ≤ wrap w n ∧ wrap w n < 2 ^ (w - 1) := by
    intro n
    have e2 : (2 : Int) ^ w = 2 * 2 ^ (w - 1) := by
      obtain ⟨k, rfl⟩ : ∃ k, w = k + 1 := ⟨w - 1, by omega⟩
      simp [pow_succ, mul_comm]
    have pos : (0 : Int) < 2 ^ w := by positivity
    have h1 := Int.emod_nonneg (n + 2 ^ (w - 1)) pos.ne'
    have h2 := Int.emod_lt_of_pos (n + 2 ^ (w - 1)) pos
    unfold wrap
    constructor
    · linarith
    · rw [e2] at h2 ⊢; linarith
  have tr : ∀ n : Int, trunc (n : ℚ) = n := by
    intro n; unfold trunc; split <;> simp
  unfold SameNumbers
  simp only [List.map_map]
  rw [List.map_inj_left]
  constructor
  · intro h x hx
    have := h x hx
    cases x with
    | int n =>
      simp only [Function.comp, g, cellValue, Option.some.injEq] at this
      exact ⟨wrap w n, by simp [cellValue, this], range n⟩
    | num q =>
      simp only [Function.comp, g, cellValue, Option.some.injEq] at this
      exact ⟨wrap w (trunc q), by simp [cellValue, this], range _⟩
    | text s => exact absurd rfl (nt _ hx s)
    | nan => exact absurd hx hmiss
  · intro h x hx
    obtain ⟨n, hv, h1, h2⟩ := h x hx
    cases x with
    | int k =>
      simp only [cellValue, Option.some.injEq] at hv
      have : k = n := by exact_mod_cast hv
      subst this
      simp [g, cellValue, wrap_id hw h1 h2]
    | num q =>
      simp only [cellValue, Option.some.injEq] at hv
      subst hv
      simp [g, cellValue, tr, wrap_id hw h1 h2]
    | text s => exact absurd rfl (nt _ hx s)
    | nan => exact absurd hx hmiss

/-- **C145.** A later column of floats with a missing value is left as it is where the fit had integers: no missing value becomes a number. -/
theorem C145_missing_kept {py : Py} {o : Opts} {reserved : Bool} {w : Nat} {c : Col} (hd : c.dtype = .float32 ∨ c.dtype = .float64)
    (hmiss : Cell.nan ∈ c.cells) : transformCol py o reserved (.int w) c = c := by
  have h1 : correctAs py (.int w) c = c := by
    have : astype py (.int w) c = none := by
      simp only [astype]
      cases hm : mapAll (toInt py w) c.cells with
      | none => rfl
      | some m =>
        have := mapAll_isSome.mp (by rw [hm]; rfl) _ hmiss
        simp [toInt] at this
    unfold correctAs
    rw [this]
    simp
  have same : c = ⟨c.dtype, c.cells⟩ := rfl
  have h2 : transformCol py o reserved (.int w) c = strStep py reserved (intStep py o reserved c) := by
    simp [transformCol, h1]
  rw [h2, same]
  exact last_steps_float py o reserved _ hd

theorem mem_nums : ∀ {l : List Cell} {q : ℚ}, q ∈ nums l ↔ Cell.num q ∈ l
  | [], n => by simp [nums]
  | .int m :: l, n => by simp [nums, mem_nums (l := l)]
  | .num q :: l, n => by simp [nums, mem_nums (l := l)]
  | .text s :: l, n => by simp [nums, mem_nums (l := l)]
  | .nan :: l, n => by simp [nums, mem_nums (l := l)]

/-- **C145.** `reduce_mem_usage` gives a column of floats single precision exactly if it has a number and all its numbers lie strictly within the range of
single precision, and double precision otherwise. -/
theorem C145_reduce_float {py : Py} {o : Opts} (hr : o.reduce = true) {c : Col} (hc : WellTyped py c) (hd : c.dtype = .float32 ∨ c.dtype = .float64) :
    ((fitCol py o false c).dtype = .float32 ∨ (fitCol py o false c).dtype = .float64) ∧
    ((fitCol py o false c).dtype = .float32 ↔
      (∃ q, Cell.num q ∈ c.cells) ∧ ∀ q, Cell.num q ∈ c.cells → -py.max32 < q ∧ q < py.max32) := by
  have hx := float_cells hc hd
  have hn : c.dtype.isInt = false := by rcases hd with h | h <;> simp [DType.isInt, h]
  rw [fit_numeric hc (by rcases hd with h | h <;> simp [NumericType, h])]
  simp only [hn, Bool.false_eq_true, and_false, if_false, hr, if_true]
  rw [reduce_float hd hx]
  have key : fits32 py (nums c.cells) = true ↔ (∃ q, Cell.num q ∈ c.cells) ∧ ∀ q, Cell.num q ∈ c.cells → -py.max32 < q ∧ q < py.max32 := by
    simp only [fits32, Bool.and_eq_true, List.all_eq_true, decide_eq_true_eq, mem_nums]
    refine and_congr_left' ?_
    constructor
    · intro h
      have : nums c.cells ≠ [] := by
        intro e; simp [e] at h
      obtain ⟨q, hq⟩ := List.exists_mem_of_ne_nil _ this
      exact ⟨q, mem_nums.mp hq⟩
    · rintro ⟨q, hq⟩
      have := List.ne_nil_of_mem (mem_nums.mpr hq)
      simp [this]
  by_cases hf : fits32 py (nums c.cells) = true
  · rw [if_pos hf]
    exact ⟨Or.inl rfl, iff_of_true rfl (key.mp hf)⟩
  · rw [if_neg hf]
    exact ⟨Or.inr rfl, iff_of_false (by simp) (fun h => hf (key.mpr h))⟩

/-! ### Concrete cases -/

/-- decimal digits -/
def cellDigits (s : String) : Option Cell := if s = "1" then some (.num 1) else if s = "2.5" then some (.num (5 / 2)) else if s = "nan" then some .nan else none

/-- texts of cells -/
def cellStr : Cell → String
  | .int 1 => "1"
  | .int _ => "7"
  | .num _ => "1.0"
  | .text s => s
  | .nan => "nan"

/-- double precision near its limit: the integers just above `2 ^ 53` round to even -/
def dblNear (n : Int) : ℚ := if n = 9007199254740993 then 9007199254740992 else n

/-- single precision near its limit -/
def sglNear (q : ℚ) : ℚ := if q = 16777217 then 16777216 else q

def pyDemo : Py where
  float := cellDigits
  int := fun s => if s = "1" then some 1 else none
  str := cellStr
  dbl := dblNear
  rnd := sglNear
  max32 := 2 ^ 127

def defaults : Opts := ⟨true, true, false⟩

theorem goodPy_demo : GoodPy pyDemo where
  float := by
    intro s x h
    simp only [pyDemo, cellDigits] at h
    split at h
    · cases h; exact Or.inr ⟨_, rfl⟩
    split at h
    · cases h; exact Or.inr ⟨_, rfl⟩
    split at h
    · cases h; exact Or.inl rfl
    · cases h
  round := by
    intro q
    simp only [pyDemo, sglNear]
    split
    · norm_num
    · rfl

/-- the hypotheses of `C145_fit_numbers` and `C145_same_data` are met, and the fit does something -/
example : WellTyped pyDemo ⟨.int 64, [.int 1, .int 300]⟩ ∧
    fitCol pyDemo ⟨true, false, true⟩ false ⟨.int 64, [.int 1, .int 300]⟩ = ⟨.int 16, [.int 1, .int 300]⟩ ∧
    fitCol pyDemo defaults false ⟨.int 64, [.int 1, .int 300]⟩ = ⟨.float64, [.num 1, .num 300]⟩ := by
  refine ⟨⟨by simp, ?_⟩, by decide +kernel, by decide +kernel⟩
  intro x hx
  simp only [List.mem_cons, List.not_mem_nil, or_false] at hx
  rcases hx with rfl | rfl
  · exact ⟨1, rfl, by norm_num, by norm_num⟩
  · exact ⟨300, rfl, by norm_num, by norm_num⟩

example : Readable pyDemo ⟨.object, [.text "1", .text "2.5", .nan, .int 7]⟩ ∧
    fitCol pyDemo defaults false ⟨.object, [.text "1", .text "2.5", .nan, .int 7]⟩ = ⟨.float64, [.num 1, .num (5 / 2), .nan, .num 7]⟩ := by
  refine ⟨?_, by decide +kernel⟩
  intro s hs
  simp only [List.mem_cons, List.not_mem_nil, or_false, Cell.text.injEq, reduceCtorEq] at hs
  rcases hs with rfl | rfl <;> decide +kernel

/-- **C145, refuted in general.** With the default options different integers can become equal: a column of identifiers above `2 ^ 53`. -/
theorem C145_distinct_refuted : fitCol pyDemo defaults false ⟨.int 64, [.int 9007199254740992, .int 9007199254740993]⟩ =
    ⟨.float64, [.num 9007199254740992, .num 9007199254740992]⟩ := by decide +kernel

/-- **C145, refuted in general.** `reduce_mem_usage` changes numbers, and equal it to others, above `2 ^ 24`. -/
theorem C145_single_refuted : fitCol pyDemo ⟨true, true, true⟩ false ⟨.int 32, [.int 16777216, .int 16777217]⟩ =
    ⟨.float32, [.num 16777216, .num 16777216]⟩ := by decide +kernel

/-- **C145, refuted in general.** A missing value of a text column is no longer missing after the fit. -/
theorem C145_missing_refuted : fitCol pyDemo defaults false ⟨.object, [.text "a", .nan]⟩ = ⟨.object, [.text "a", .text "nan"]⟩ := by decide +kernel

/-- **C145, refuted in general.** One unreadable cell in new data changes the other rows: alone the first row is the number 1, with the second the text. -/
theorem C145_other_rows_refuted : transformCol pyDemo defaults false .float64 ⟨.object, [.text "1"]⟩ = ⟨.float64, [.num 1]⟩ ∧
    transformCol pyDemo defaults false .float64 ⟨.object, [.text "1", .text "?"]⟩ = ⟨.object, [.text "1", .text "?"]⟩ := by
  constructor <;> decide +kernel

/-- **C145, refuted in general.** With `reduce_mem_usage` and `int_convert_to=None`, new numbers outside the range of the fit wrap around silently. -/
theorem C145_wrap_refuted : (fitCol pyDemo ⟨true, false, true⟩ false ⟨.int 64, [.int 1, .int 2]⟩).dtype = .int 8 ∧
    transformCol pyDemo ⟨true, false, true⟩ false (.int 8) ⟨.int 64, [.int 1, .int 200]⟩ = ⟨.int 8, [.int 1, .int (-56)]⟩ := by
  constructor <;> decide +kernel

/-- **C145, refuted in general.** A reserved column is changed by `transform`: what was a column of integers in the fit loses its fractions. -/
theorem C145_reserved_refuted : (fitCol pyDemo defaults true ⟨.int 64, [.int 0, .int 1]⟩).dtype = .int 64 ∧
    transformCol pyDemo defaults true (.int 64) ⟨.float64, [.num (1 / 2), .num (9 / 5)]⟩ = ⟨.int 64, [.int 0, .int 1]⟩ := by
  constructor <;> decide +kernel

/-- **C145, refuted in general.** `reduce_mem_usage` can make a column larger: the largest 16-bit integer does not pass the strict test. -/
theorem C145_reduce_refuted : (fitCol pyDemo ⟨true, false, true⟩ false ⟨.int 16, [.int 0, .int 32767]⟩).dtype = .int 32 := by decide +kernel

/-- **C145.** A fit leaves reserved columns as they are. -/
theorem C145_fit_reserved (py : Py) (o : Opts) (c : Col) : fitCol py o true c = c := fit_reserved py o c

end YL.Props
