import Verif.Model.SkFrame

/-!
# Model of the preprocessing of `Why`

ylearn/api/_why.py:278-285 (in `fit`) and 491-511 (`_preprocess`, the part for adjustment, covariates and instruments), with
`general_preprocessor` (ylearn/sklearn_ex/_transformer.py:258-281), on top of the model of `DataFrameMapper` in `Model/SkFrame`.

Simplifications: those of `Model/SkFrame`; the names of adjustment, covariates and instruments together are one list `columns`; the encoding of treatments and
outcome (modelled in `Model/Why`, `Model/WhyFit`) is left out.
-/

namespace YL.WhyPre

open YL SkFrame

variable {C T V : Type}

/-- how preprocessing fails: an `assert` of `Why` (_why.py:280, 284) or an exception of the mapper -/
inductive Err where
  | assertion
  | frame (e : SkFrame.Err)
deriving DecidableEq, Repr

/-- `data[k] = v` for one column: replaced in place, or appended (_why.py:285, 501, pandas) -/
def setCol (X : Frame C) (k : Label) (v : C) : Frame C :=
  if k ∈ labels X then X.map (fun e => if e.1 = k then (k, v) else e) else X ++ [(k, v)]

/-- `data[columns] = data_t` for a list of labels and a frame (_why.py:285, 501). pandas assigns the columns one after another in their order,
`for k1, k2 in zip(key, value.columns): self[k1] = value[k2]`, whatever their labels are, and raises `ValueError` if the numbers differ. -/
def assign (X : Frame C) (key : List Label) (value : Frame C) : Except SkFrame.Err (Frame C) :=
  if key.length = value.length then .ok ((key.zip (value.map Prod.snd)).foldl (fun X e => setCol X e.1 e.2) X) else .error .value

/-- `make_column_selector(dtype_include=['object', 'category'])` (_transformer.py:271) -/
def isCat (e : Label × Col V) : Bool := e.2.dtype = .object ∨ e.2.dtype = .category

/-- `make_column_selector(dtype_include='bool')` (_transformer.py:272) -/
def isBool (e : Label × Col V) : Bool := e.2.dtype = .bool

/-- `make_column_selector(dtype_include='number', dtype_exclude='timedelta')` (_transformer.py:273) -/
def isNum (e : Label × Col V) : Bool := e.2.dtype = .int ∨ e.2.dtype = .float

/-- a feature whose columns are selected by type, with default options (_transformer.py:274-279) -/
def byType (p : Label × Col V → Bool) (t : T) : Feature (Col V) T := ⟨.callable (fun X => labels (X.filter p)), some t, none⟩

/-- `general_preprocessor()` (_transformer.py:258-281): texts, truth values, numbers, in this order; other types are dropped (`default=False`) -/
def generalPreprocessor (cat bool num : T) : List (Feature (Col V) T) := [byType isCat cat, byType isBool bool, byType isNum num]

/-- `set(a) == set(b)` (_why.py:284) -/
def sameSet (a b : List Label) : Prop := (∀ x ∈ a, x ∈ b) ∧ ∀ x ∈ b, x ∈ a

instance (a b : List Label) : Decidable (sameSet a b) := by unfold sameSet; infer_instance

/-- the preprocessing in `fit` (_why.py:280-285): the fitted preprocessor and the data -/
def fitPre (digest : String → String) (ops : Ops (Col V) T) (features : List (Feature (Col V) T)) (columns : List Label) (X : Frame (Col V)) :
    Except Err (List (Fitted T) × Frame (Col V)) :=
  if columns = [] then .error .assertion
  else match subset X columns with
    | .error e => .error (.frame e)
    | .ok Xc => match fitTransform digest ops features .no Xc with
      | .error e => .error (.frame e)
      | .ok (fitted, Z) =>
        if sameSet (labels Z) columns then
          match assign X columns Z with
          | .error e => .error (.frame e)
          | .ok X' => .ok (fitted, X')
        else .error .assertion

/-- the preprocessing of test data (_why.py:498-501) -/
def preprocess (digest : String → String) (ops : Ops (Col V) T) (fitted : List (Fitted T)) (columns : List Label) (X : Frame (Col V)) :
    Except Err (Frame (Col V)) :=
  if columns = [] then .error .assertion
  else match subset X columns with
    | .error e => .error (.frame e)
    | .ok Xc => match transform digest ops fitted Xc with
      | .error e => .error (.frame e)
      | .ok Z => match assign X columns Z with
        | .error e => .error (.frame e)
        | .ok X' => .ok X'

end YL.WhyPre
