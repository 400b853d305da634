import Mathlib.Data.List.Dedup
/-
ylearn/sklearn_ex/_dataframe_mapper.py (`DataFrameMapper`), ylearn/sklearn_ex/_data_cleaner.py (`DataCleaner`) and the
frame handling of ylearn/sklearn_ex/_transformer.py:141-196 (`FeatureImportancesSelectionTransformer.fit`, `transform`).

Simplifications: a frame is a list of labelled columns with different labels; the row index is not modelled; labels are
texts or numbers; transformers are arbitrary functions; two features do not share a transformer object.
-/
namespace YL.SkFrame

/-- a column label: a text or an integer -/
inductive Label where
  | text (s : String)
  | num (n : Int)
deriving DecidableEq, Repr

/-- `str(label)` -/
def Label.str : Label → String
  | .text s => s
  | .num n => toString n

inductive Err where
  | key | value | type
deriving DecidableEq, Repr

variable {C T : Type}

/-- a frame: its columns with their labels, from left to right -/
abbrev Frame (C : Type) := List (Label × C)

/-- `X.columns.to_list()` -/
def labels (X : Frame C) : List Label := X.map Prod.fst

/-- `X[c]` for one label -/
def column (X : Frame C) (c : Label) : Option C := (X.find? (fun e => e.1 = c)).map Prod.snd

/-- `X[cols]` for a list of labels (_dataframe_mapper.py:349-354): a missing label raises KeyError -/
def subset (X : Frame C) : List Label → Except Err (Frame C)
  | [] => .ok []
  | c :: cs =>
    match column X c with
    | none => .error .key
    | some v =>
      match subset X cs with
      | .error e => .error e
      | .ok l => .ok ((c, v) :: l)

/-! ### DataFrameMapper -/

/-- how a feature says which columns it takes (_dataframe_mapper.py:201-206, 282-287) -/
inductive Columns (C : Type) where
  | callable (f : Frame C → List Label)
  | one (c : Label)
  | list (l : List Label)
  | tuple (l : List Label)

/-- a transformer: its states are `T`; `names` is what `_get_feature_names` gives for it (or for its last step that gives
as many names as there are columns, _dataframe_mapper.py:115-123, 384-395) -/
structure Ops (C T : Type) where
  fit : T → Frame C → T
  transform : T → Frame C → List C
  fitTransform : T → Frame C → T × List C
  names : T → List Label → Nat → Option (List Label)

/-- one element of `features`: columns, transformer or `None`, the option `alias` -/
structure Feature (C T : Type) where
  columns : Columns C
  trans : Option T
  aka : Option Label

/-- the argument `default`: `False`, `None` or a transformer -/
inductive Default (T : Type) where
  | no
  | keep
  | use (t : T)

/-- an element of `fitted_features_` -/
structure Fitted (T : Type) where
  columns : List Label
  trans : Option T
  aka : Option Label

/-- the labels a feature asks for; `true` if they come as a tuple -/
def asked (X : Frame C) : Columns C → List Label × Bool
  | .callable f => (f X, false)
  | .one c => ([c], false)
  | .list l => (l, false)
  | .tuple l => (l, true)

/-- `name` of `_get_names` (_dataframe_mapper.py:367-374); `digest` is `_hash` -/
def baseName (digest : String → String) (columns : List Label) (aka : Option Label) : Label :=
  match aka with
  | some a => a
  | none =>
    let name := String.intercalate "_" (columns.map Label.str)
    if name.length > 64 then .text (String.ofList (name.toList.take 32) ++ digest name) else .text name

/-- `_get_names` (_dataframe_mapper.py:356-410) for `n` output columns; a `None` transformer has no names -/
def getNames (digest : String → String) (ops : Ops C T) (columns : List Label) (t : Option T) (aka : Option Label) (n : Nat) :
    List Label :=
  if n > 1 then
    let names := match t with
      | none => none
      | some t => ops.names t columns n
    let names := match names with
      | none => if columns.length = n then some columns else none
      | some l => some l
    match names with
    | some l => if l.length = n then l
      else (List.range n).map fun o => .text ((baseName digest columns aka).str ++ "_" ++ toString o)
    | none => (List.range n).map fun o => .text ((baseName digest columns aka).str ++ "_" ++ toString o)
  else [baseName digest columns aka]

/-- fitting the transformer of one feature (_dataframe_mapper.py:216-225): without one the data is not looked at -/
def fitOne (ops : Ops C T) (X : Frame C) (t : Option T) (columns : List Label) : Except Err (Option T) :=
  match t with
  | none => .ok none
  | some t =>
    match subset X columns with
    | .error e => .error e
    | .ok Xt => .ok (some (ops.fit t Xt))

/-- the columns of a feature that no earlier feature selected (_dataframe_mapper.py:208-209, 288-289) -/
def remaining (X : Frame C) (f : Feature C T) (selected : List Label) : List Label :=
  (asked X f.columns).1.filter fun c => c ∉ selected

/-- the loop of `fit` (_dataframe_mapper.py:199-226): `fitted_features` and `selected_columns`; here the columns become a list -/
def fitLoop (ops : Ops C T) (X : Frame C) : List (Feature C T) → List Label → Except Err (List (Fitted T) × List Label)
  | [], selected => .ok ([], selected)
  | f :: fs, selected =>
    if remaining X f selected = [] then
      match fitLoop ops X fs selected with
      | .error e => .error e
      | .ok (l, s) => .ok (⟨[], f.trans, f.aka⟩ :: l, s)
    else
      match fitOne ops X f.trans (remaining X f selected) with
      | .error e => .error e
      | .ok t' =>
        match fitLoop ops X fs (selected ++ remaining X f selected) with
        | .error e => .error e
        | .ok (l, s) => .ok (⟨remaining X f selected, t', f.aka⟩ :: l, s)

/-- the columns nobody selected (_dataframe_mapper.py:230, 325) -/
def unselected (X : Frame C) (selected : List Label) : List Label := (labels X).filter fun c => c ∉ selected

/-- `fit` (_dataframe_mapper.py:192-241): `fitted_features_` -/
def fit (ops : Ops C T) (features : List (Feature C T)) (default : Default T) (X : Frame C) : Except Err (List (Fitted T)) :=
  match fitLoop ops X features [] with
  | .error e => .error e
  | .ok (l, selected) =>
    if (labels X).length > selected.length then
      match default with
      | .no => .ok l
      | .keep => .ok (l ++ [⟨unselected X selected, none, none⟩])
      | .use t =>
        match subset X (unselected X selected) with
        | .error e => .error e
        | .ok Xt => .ok (l ++ [⟨unselected X selected, some (ops.fit t Xt), none⟩])
    else .ok l

/-- transforming with a fitted transformer or with none (_dataframe_mapper.py:256-265) -/
def passOn (ops : Ops C T) (t : Option T) (Xt : Frame C) : List C :=
  match t with
  | none => Xt.map Prod.snd
  | some t => ops.transform t Xt

/-- fitting and transforming (_dataframe_mapper.py:302-314): the fitted transformer and the columns -/
def both (ops : Ops C T) (t : Option T) (Xt : Frame C) : Option T × List C :=
  match t with
  | none => (none, Xt.map Prod.snd)
  | some t => (some (ops.fitTransform t Xt).1, (ops.fitTransform t Xt).2)

/-- the loop of `transform` (_dataframe_mapper.py:248-269): the extracted columns and their names -/
def transformLoop (digest : String → String) (ops : Ops C T) (X : Frame C) : List (Fitted T) →
    Except Err (List C × List Label)
  | [] => .ok ([], [])
  | f :: fs =>
    if f.columns = [] then transformLoop digest ops X fs
    else
      match subset X f.columns with
      | .error e => .error e
      | .ok Xt =>
        match transformLoop digest ops X fs with
        | .error e => .error e
        | .ok (cs, ns) =>
          .ok (passOn ops f.trans Xt ++ cs, getNames digest ops f.columns f.trans f.aka (passOn ops f.trans Xt).length ++ ns)

/-- `_to_transform_result` with `df_out=True` (_dataframe_mapper.py:425-448): nothing extracted, or as many names as columns -/
def result (extracted : Bool) (cs : List C) (ns : List Label) : Except Err (Frame C) :=
  if extracted = false then .error .value
  else if cs.length = ns.length then .ok (ns.zip cs) else .error .value

/-- `transform` (_dataframe_mapper.py:243-271) -/
def transform (digest : String → String) (ops : Ops C T) (fitted : List (Fitted T)) (X : Frame C) : Except Err (Frame C) :=
  match transformLoop digest ops X fitted with
  | .error e => .error e
  | .ok (cs, ns) => result (fitted.any fun f => f.columns ≠ []) cs ns

/-- the loop of `fit_transform` (_dataframe_mapper.py:281-321): the columns stay a tuple when none of them was selected
before, and `X[tuple]` is a lookup of one label, which no frame of this model has -/
def bothLoop (digest : String → String) (ops : Ops C T) (X : Frame C) : List (Feature C T) → List Label →
    Except Err (List (Fitted T) × List Label × List C × List Label)
  | [], selected => .ok ([], selected, [], [])
  | f :: fs, selected =>
    if remaining X f selected = [] then bothLoop digest ops X fs selected
    else if (asked X f.columns).2 = true ∧ remaining X f selected = (asked X f.columns).1 then .error .key
    else
      match subset X (remaining X f selected) with
      | .error e => .error e
      | .ok Xt =>
        match bothLoop digest ops X fs (selected ++ remaining X f selected) with
        | .error e => .error e
        | .ok (l, s, cs, ns) =>
          .ok (⟨remaining X f selected, (both ops f.trans Xt).1, f.aka⟩ :: l, s, (both ops f.trans Xt).2 ++ cs,
            getNames digest ops (remaining X f selected) (both ops f.trans Xt).1 f.aka (both ops f.trans Xt).2.length ++ ns)

/-- the handling of the unselected columns (_dataframe_mapper.py:324-340): `fitted_features`, the extracted columns, their
names, and whether anything was extracted -/
def bothDefault (digest : String → String) (ops : Ops C T) (default : Default T) (X : Frame C) (l : List (Fitted T))
    (selected : List Label) (cs : List C) (ns : List Label) : Except Err (List (Fitted T) × List C × List Label × Bool) :=
  if (labels X).length > selected.length then
    match default with
    | .no => .ok (l, cs, ns, l.length ≠ 0)
    | .keep =>
      match subset X (unselected X selected) with
      | .error e => .error e
      | .ok Xt => .ok (l ++ [⟨unselected X selected, none, none⟩], cs ++ Xt.map Prod.snd, ns ++ unselected X selected, true)
    | .use t =>
      match subset X (unselected X selected) with
      | .error e => .error e
      | .ok Xt =>
        .ok (l ++ [⟨unselected X selected, some (ops.fitTransform t Xt).1, none⟩], cs ++ (ops.fitTransform t Xt).2,
          ns ++ getNames digest ops (unselected X selected) (some (ops.fitTransform t Xt).1) none
            (ops.fitTransform t Xt).2.length, true)
  else .ok (l, cs, ns, l.length ≠ 0)

/-- `fit_transform` (_dataframe_mapper.py:273-346): `fitted_features_` and the answer -/
def fitTransform (digest : String → String) (ops : Ops C T) (features : List (Feature C T)) (default : Default T) (X : Frame C) :
    Except Err (List (Fitted T) × Frame C) :=
  match bothLoop digest ops X features [] with
  | .error e => .error e
  | .ok (l, selected, cs, ns) =>
    match bothDefault digest ops default X l selected cs ns with
    | .error e => .error e
    | .ok (l, cs, ns, b) =>
      match result b cs ns with
      | .error e => .error e
      | .ok df => .ok (l, df)

/-! ### DataCleaner -/

/-- the kinds of column types the selectors of _data_cleaner.py:15-22 tell apart -/
inductive DType where
  | object | category | bool | int | float | other
deriving DecidableEq, Repr

/-- a column: its type and its cells, `none` is NaN -/
structure Col (V : Type) where
  dtype : DType
  cells : List (Option V)

variable {V : Type} [DecidableEq V]

instance : DecidableEq (Col V) := fun a b =>
  if h : a.dtype = b.dtype ∧ a.cells = b.cells then isTrue (by cases a; cases b; simp_all) else isFalse (by
    intro hab; exact h (by rw [hab]; exact ⟨rfl, rfl⟩))

/-- `nunique(dropna=True)` (_data_cleaner.py:128) -/
def nunique (c : Col V) : Nat := (c.cells.filterMap id).dedup.length

/-- the arguments of the constructor that decide about columns and rows (_data_cleaner.py:136-150). `first` is
`nan_chars` (line 193-196), `last` everything after the columns were chosen (lines 229-265): both work on the cells of one
column -/
structure Cleaner (V : Type) where
  dropConstant : Bool
  dropDuplicated : Bool
  dropIdness : Bool
  dropLabelNan : Bool
  dropColumns : Option (List Label)
  reserve : Option (List Label)
  first : Col V → Col V
  last : Col V → Col V

/-- the fitted attributes (_data_cleaner.py:153-157); `df_meta_` lists the labels of `columns_` by type, it is not used here -/
structure Fit where
  columns : Option (List Label)
  constant : Option (List Label)
  idness : Option (List Label)
  duplicated : Option (List Label)

/-- a new `DataCleaner` -/
def Fit.new : Fit := ⟨none, none, none, none⟩

/-- `_drop_columns` (_data_cleaner.py:178-183) -/
def dropCols (X : Frame (Col V)) (cols : List Label) : Frame (Col V) := X.filter fun e => e.1 ∉ cols

/-- `excludes is None or c not in excludes` (_data_cleaner.py:96, 105, 120) -/
def notReserved (reserve : Option (List Label)) (c : Label) : Bool :=
  match reserve with
  | none => true
  | some l => c ∉ l

/-- `df.T.duplicated()` (_data_cleaner.py:132): an earlier column has the same cells -/
def duplicated : Frame (Col V) → List (List (Option V)) → List Label
  | [], _ => []
  | e :: X, seen => if e.2.cells ∈ seen then e.1 :: duplicated X seen else duplicated X (e.2.cells :: seen)

/-- `drop_constant_columns` (_data_cleaner.py:103-109): the dropped labels -/
def constantCols (X : Frame (Col V)) (reserve : Option (List Label)) : List Label :=
  (X.filter fun e => nunique e.2 ≤ 1 ∧ notReserved reserve e.1 = true).map Prod.fst

/-- `column_object_category_bool_int` (_data_cleaner.py:16-19) -/
def countable (c : Col V) : Bool :=
  match c.dtype with
  | .object | .category | .bool | .int => true
  | .float | .other => false

/-- `drop_idness_columns` (_data_cleaner.py:111-124): `n / rows > 0.99`; without rows the quotient is NaN and nothing is dropped -/
def idnessCols (X : Frame (Col V)) (rows : Nat) (reserve : Option (List Label)) : List Label :=
  (X.filter fun e => countable e.2 = true ∧ rows ≠ 0 ∧ 100 * nunique e.2 > 99 * rows ∧ notReserved reserve e.1 = true).map Prod.fst

/-- `drop_duplicated_columns` (_data_cleaner.py:94-101) -/
def duplicatedCols (X : Frame (Col V)) (reserve : Option (List Label)) : List Label :=
  (duplicated X []).filter fun c => notReserved reserve c

/-- one of the three blocks _data_cleaner.py:208-227: an earlier decision is used again -/
def block (on : Bool) (earlier : Option (List Label)) (decide : Frame (Col V) → List Label) (X : Frame (Col V)) :
    Frame (Col V) × Option (List Label) :=
  if on then
    match earlier with
    | some cols => (dropCols X cols, some cols)
    | none => (dropCols X (decide X), some (decide X))
  else (X, earlier)

/-- the rows whose label is there (_data_cleaner.py:198-202) -/
def keepRows (keep : List Bool) {A : Type} (l : List A) : List A := ((l.zip keep).filter Prod.snd).map Prod.fst

/-- which rows stay (_data_cleaner.py:198-202): those with a label, if rows without one are to go -/
def keepMask (p : Cleaner V) (rows : Nat) (y : Option (List (Option V))) : List Bool :=
  match y with
  | some l => if p.dropLabelNan then l.map Option.isSome else l.map fun _ => true
  | none => List.replicate rows true

/-- `clean_data` (_data_cleaner.py:185-267) on a frame with `rows` rows and labels `y` -/
def cleanData (p : Cleaner V) (s : Fit) (X : Frame (Col V)) (rows : Nat) (y : Option (List (Option V))) :
    Frame (Col V) × Option (List (Option V)) × Fit :=
  let X := X.map fun e => (e.1, p.first e.2)
  let keep := keepMask p rows y
  let X := X.map fun e => (e.1, { e.2 with cells := keepRows keep e.2.cells })
  let X := dropCols X (p.dropColumns.getD [])
  let a := block p.dropDuplicated s.duplicated (fun X => duplicatedCols X p.reserve) X
  let b := block p.dropIdness s.idness (fun X => idnessCols X (keep.filter id).length p.reserve) a.1
  let c := block p.dropConstant s.constant (fun X => constantCols X p.reserve) b.1
  (c.1.map fun e => (e.1, p.last e.2), y.map (keepRows keep),
    { s with duplicated := a.2, idness := b.2, constant := c.2 })

/-- `fit_transform` (_data_cleaner.py:284-302) -/
def cleanFit (p : Cleaner V) (s : Fit) (X : Frame (Col V)) (rows : Nat) (y : Option (List (Option V))) :
    Frame (Col V) × Option (List (Option V)) × Fit :=
  let r := cleanData p s X rows y
  (r.1, r.2.1, { r.2.2 with columns := some (labels r.1) })

/-- `transform` (_data_cleaner.py:304-328): `X[self.columns_]` raises for a missing column; `X[None]` for a cleaner that was
not fitted -/
def cleanTransform (p : Cleaner V) (s : Fit) (X : Frame (Col V)) (rows : Nat) (y : Option (List (Option V))) :
    Except Err (Frame (Col V) × Option (List (Option V)) × Fit) :=
  let r := cleanData p s X rows y
  match s.columns with
  | none => .error .key
  | some cols =>
    match subset r.1 cols with
    | .error e => .error e
    | .ok X' => .ok (X', r.2.1, r.2.2)

/-- `append_drop_columns` (_data_cleaner.py:330-341): the state afterwards and the exception -/
def appendDrop (p : Cleaner V) (s : Fit) (cols : List Label) : Cleaner V × Fit × Option Err :=
  match s.columns with
  | none => ({ p with dropColumns := some ((p.dropColumns.getD []) ++ cols) }, s, some .type)
  | some l => (p, { s with columns := some (l.filter fun c => c ∉ cols) }, none)

/-! ### FeatureImportancesSelectionTransformer -/

/-- `feature_importances_` and `selected_features_` at the end of `fit` (_transformer.py:174-189): `columnsIn` are the labels of
the data, `columns` those of the prepared data, `imp` the importances of these, `selected` the selected positions -/
def selection (columnsIn columns : List Label) (imp : List Rat) (selected : List Nat) : List Rat × List Label :=
  (if columns.length ≠ columnsIn.length then
      columnsIn.map fun c => if c ∈ columns then imp.getD (columns.findIdx (fun x => x = c)) 0 else 0
    else imp,
   selected.filterMap fun i => columns[i]?)

end YL.SkFrame
