import Mathlib.Algebra.Field.Defs
import Mathlib.Data.List.Dedup
import Mathlib.Data.List.Sort
import Verif.Model.Permuted

/-!
# Model of `ylearn/estimator_model/meta_learner.py` and the helpers of `estimator_model/utils.py` it uses

A row of the data is the vector `wv` of adjustment and covariates (any type `W`), the list of its treatment values and the
outcome (one number). A base machine learning model is an arbitrary function from the training data to a predictor: this
covers every deterministic `sklearn` model. sklearn models refuse empty training data with `ValueError`.
`proba_output`, several outcomes and keyword arguments of `fit` are not modelled.
-/

namespace YL.Meta

open YL.Permuted (Arg)

variable {V W K : Type} [LinearOrder V]

/-- one row of the training data (the columns read at meta_learner.py:310-330) -/
structure Row (V W K : Type) where
  wv : W
  x : List V
  y : K

/-- the sorted distinct values of a column: `categories="auto"` of sklearn's encoders
(meta_learner.py:393, 409, 924, 942). -/
def uniq {α : Type} [LinearOrder α] (l : List α) : List α := l.dedup.insertionSort (· ≤ ·)

/-- all choices of the trailing axes in `cartesian`: the last axis varies slowest
(inside estimator_model/utils.py:54-57). -/
def tails {α : Type} : List (List α) → List (List α)
  | [] => [[]]
  | c :: rest => (tails rest).flatMap (fun s => c.map (· :: s))

/-- `cartesian(arrays)` (estimator_model/utils.py:54-57): `np.array(np.meshgrid(*arrays)).T.reshape(-1, n)`. With the default `xy`
indexing of `meshgrid` the second array varies fastest, then the first, then the third, the fourth, ... -/
def cartesian {α : Type} : List (List α) → List (List α)
  | [] => []
  | [a] => a.map (fun x => [x])
  | a :: b :: rest => (tails rest).flatMap (fun s => a.flatMap (fun x => b.map (fun y => x :: y :: s)))

/-- The fitted encoders of an estimator: the categories of each treatment (of `ord_transformer` for several treatments,
of `oh_transformer` for one) and, for several treatments, the categories of `oh_transformer`, which are codes.
(meta_learner.py:375-414, 905-947). -/
structure Encoder (V : Type) where
  cats : List (List V)
  codes : Option (List Nat)

/-- position of a value, `ValueError` for an unknown value (`handle_unknown='error'`)
(the encoders of meta_learner.py:393, 409). -/
def position {α : Type} [DecidableEq α] (l : List α) (v : α) : Except Err Nat :=
  if v ∈ l then .ok (l.idxOf v) else .error .value

/-- apply a partial function to all elements (transforming a column at meta_learner.py:395-412) -/
def mapE {α β : Type} (f : α → Except Err β) : List α → Except Err (List β)
  | [] => .ok []
  | a :: l => match f a, mapE f l with
    | .error e, _ => .error e
    | _, .error e => .error e
    | .ok b, .ok bs => .ok (b :: bs)

/-- `ord_transformer.transform` of one row: `ValueError` on the wrong number of columns
(meta_learner.py:394-398). -/
def ordinals : List (List V) → List V → Except Err (List Nat)
  | [], [] => .ok []
  | c :: cs, v :: vs => match position c v, ordinals cs vs with
    | .error e, _ => .error e
    | _, .error e => .error e
    | .ok i, .ok is => .ok (i :: is)
  | _, _ => .error .value

/-- `labels`: all vectors of ordinals (meta_learner.py:395-398, 926-929) -/
def labels (cats : List (List V)) : List (List Nat) := cartesian (cats.map (fun c => List.range c.length))

/-- `self.label_dict[tuple(ordinals)]` (meta_learner.py:400-406) -/
def code (cats : List (List V)) (v : List V) : Except Err Nat :=
  match ordinals cats v with
  | .error e => .error e
  | .ok is => match position (labels cats) is with
    | .ok k => .ok k
    | .error _ => .error .key

/-- `_comp_transformer(x)` followed by `convert4onehot` for one row, with fitted encoders (meta_learner.py:375-414,
905-947): the position of the one in the one-hot vector. `lit` turns an integer into a column value. A vector of length
one skips the combination of treatments. -/
def transform (lit : Nat → V) (enc : Encoder V) (v : List V) : Except Err Nat :=
  match v, enc.codes with
  | [u], none => match enc.cats with
    | [c] => position c u
    | _ => .error .value
  | [u], some codes => position (codes.map lit) u
  | v, some codes => match code enc.cats v with
    | .error e => .error e
    | .ok k => position codes k
  | _, none => .error .value

/-- the `j`-th column of treatments (meta_learner.py:375-414) -/
def column (rows : List (Row V W K)) (j : Nat) : List V := rows.filterMap (fun r => r.x[j]?)

/-- fitting the encoders of `SLearner` (all codes are categories) or of `TLearner`/`XLearner` (`allCodes = false`: only the
observed codes are categories) on data with `d` treatments; `categories="auto"`
(meta_learner.py:375-414, 905-947). -/
def fitEncoder (allCodes : Bool) (d : Nat) (rows : List (Row V W K)) : Except Err (Encoder V) :=
  let cats := (List.range d).map (fun j => uniq (column rows j))
  if d ≤ 1 then .ok ⟨cats, none⟩
  else if allCodes then .ok ⟨cats, some (List.range (labels cats).length)⟩
  else match mapE (fun r : Row V W K => code cats r.x) rows with
    | .error e => .error e
    | .ok ks => .ok ⟨cats, some (uniq ks)⟩

/-- the encoders used by `fit`: those of a previous `fit` if there are any (`if not hasattr(self, "oh_transformer")`,
meta_learner.py:922, 941; `if not self._is_fitted` for `SLearner`, 392, 408) -/
def useEncoder (allCodes : Bool) (d : Nat) (old : Option (Encoder V)) (rows : List (Row V W K)) : Except Err (Encoder V) :=
  match old with
  | some e => .ok e
  | none => fitEncoder allCodes d rows

/-- `get_tr_ctrl(..., one_hot=False, discrete_treat=True)` (estimator_model/utils.py:76-90): default 1 for treat and 0 for control,
otherwise the encoded value -/
def getTrCtrl (lit : Nat → V) (enc : Encoder V) (isTreat : Bool) (a : Option (Arg V)) : Except Err Nat :=
  match a with
  | none => .ok (if isTreat then 1 else 0)
  | some (.one v) => transform lit enc [v]
  | some (.many l) => transform lit enc l

/-- a one-hot vector of length `d` (meta_learner.py:409-412) -/
def oneHot (d i : Nat) : List Nat := (List.range d).map (fun j => if j = i then 1 else 0)

/-- the number of columns of the one-hot encoding (meta_learner.py:409-412) -/
def width (enc : Encoder V) : Nat :=
  match enc.codes with
  | some codes => codes.length
  | none => (enc.cats.headD []).length

/-- `convert4onehot` (estimator_model/utils.py:156-157): dot product with 0, 1, 2, ... -/
def convert4onehot (v : List Nat) : Nat := (List.zipWith (· * ·) v (List.range v.length)).sum

/-- one-hot encoding of all rows (meta_learner.py:409-412) -/
def encodeRows (lit : Nat → V) (enc : Encoder V) (rows : List (Row V W K)) : Except Err (List (List Nat)) :=
  match mapE (fun r : Row V W K => transform lit enc r.x) rows with
  | .error e => .error e
  | .ok is => .ok (is.map (oneHot (width enc)))

/-- `get_groups(target, x, True, wv, y)` (estimator_model/utils.py:160-173) -/
def groups (target : Nat) (xs : List (List Nat)) (rows : List (Row V W K)) : List (W × K) :=
  ((rows.zip xs).filter (fun p => convert4onehot p.2 = target)).map (fun p => (p.1.wv, p.1.y))

/-- fitting a base model; empty data is refused, and so is a single row: the outcomes are squeezed before (meta_learner.py:359, 895-896,
1391-1392, 990; approximation_bound.py:173), which leaves an array without dimensions for one row, and sklearn raises `ValueError`
(the calls of `model.fit` at meta_learner.py:361, 898-899). -/
def fitBase {D F : Type} (fitM : List D → F) (data : List D) : Except Err F :=
  match data with
  | [] => .error .value
  | [_] => .error .value
  | _ => .ok (fitM data)

/-! ### SLearner -/

/-- the fitted attributes of an `SLearner` with combined treatment (meta_learner.py:310-364) -/
structure S (V W K : Type) where
  enc : Encoder V
  model : W × List Nat → K
  treat : Option (Arg V)
  control : Option (Arg V)

/-- `SLearner._fit_combined_treat` (meta_learner.py:310-364); `old` are the encoders of a previous `fit` -/
def sFit (fitM : List ((W × List Nat) × K) → (W × List Nat → K)) (lit : Nat → V) (d : Nat)
    (old : Option (Encoder V)) (rows : List (Row V W K)) (treat control : Option (Arg V)) : Except Err (S V W K) :=
  match useEncoder true d old rows with
  | .error e => .error e
  | .ok enc => match encodeRows lit enc rows with
    | .error e => .error e
    | .ok xs => match fitBase fitM ((rows.zip xs).map (fun p => ((p.1.wv, p.2), p.1.y))) with
      | .error e => .error e
      | .ok f => .ok ⟨enc, f, treat, control⟩

/-- `SLearner.estimate` of one row (meta_learner.py:451-492): the estimate and the new state of the object. The encoded
arms are stored back into the object. `treat[self.treat] = 1` raises `IndexError` outside the vector. -/
def sEstimate [Sub K] (lit : Nat → V) (s : S V W K) (wv : W) : Except Err (K × S V W K) :=
  match getTrCtrl lit s.enc true s.treat, getTrCtrl lit s.enc false s.control with
  | .error e, _ => .error e
  | _, .error e => .error e
  | .ok t, .ok c => if t < width s.enc ∧ c < width s.enc then
      .ok (s.model (wv, oneHot (width s.enc) t) - s.model (wv, oneHot (width s.enc) c),
        { s with treat := some (.one (lit t)), control := some (.one (lit c)) })
    else .error .index

/-- `m` consecutive calls of `estimate` (repeated calls of meta_learner.py:451-492) -/
def sEstimates [Sub K] (lit : Nat → V) (wv : W) : Nat → S V W K → List (Except Err K)
  | 0, _ => []
  | m + 1, s => match sEstimate lit s wv with
    | .error e => [.error e]
    | .ok r => .ok r.1 :: sEstimates lit wv m r.2

/-- `SLearner` with `combined_treatment=False`: the one-hot vectors of all treatments side by side
(meta_learner.py:437-442) -/
def sepEncode : List (List V) → List V → Except Err (List Nat)
  | [], [] => .ok []
  | c :: cs, v :: vs => match position c v, sepEncode cs vs with
    | .error e, _ => .error e
    | _, .error e => .error e
    | .ok i, .ok r => .ok (oneHot c.length i ++ r)
  | _, _ => .error .value

/-- `SLearner._fit_separate_treat` and `_prepare_separate_treat` (meta_learner.py:416-449, 494-528) for one row: entry `i`
is the prediction with column `i+1` of the one-hot block set, minus that with column 0 set -/
def sSeparate [Sub K] (fitM : List ((W × List Nat) × K) → (W × List Nat → K)) (d : Nat) (rows : List (Row V W K)) (wv : W) :
    Except Err (List K) :=
  let cats := (List.range d).map (fun j => uniq (column rows j))
  match mapE (fun r : Row V W K => sepEncode cats r.x) rows with
  | .error e => .error e
  | .ok xs => match fitBase fitM ((rows.zip xs).map (fun p => ((p.1.wv, p.2), p.1.y))) with
    | .error e => .error e
    | .ok f =>
      let w := (cats.map List.length).sum
      .ok ((List.range (w - 1)).map (fun i => f (wv, oneHot w (i + 1)) - f (wv, oneHot w 0)))

/-! ### TLearner -/

/-- the attributes of a `TLearner`; the encoders survive a second `fit` (meta_learner.py:837-903) -/
structure T (V W K : Type) where
  enc : Option (Encoder V)
  treat : Nat
  control : Nat
  xt : W → K
  x0 : W → K

/-- `TLearner._fit_combined_treat` (meta_learner.py:837-903); `old` are the encoders of a previous `fit`, which are
reused (`if not hasattr(self, "oh_transformer")`, meta_learner.py:922, 941) -/
def tFit (fitM : List (W × K) → W → K) (lit : Nat → V) (d : Nat) (old : Option (Encoder V)) (rows : List (Row V W K))
    (treat control : Option (Arg V)) : Except Err (T V W K) :=
  match useEncoder false d old rows with
  | .error e => .error e
  | .ok enc => match encodeRows lit enc rows, getTrCtrl lit enc true treat, getTrCtrl lit enc false control with
    | .error e, _, _ => .error e
    | _, .error e, _ => .error e
    | _, _, .error e => .error e
    | .ok xs, .ok t, .ok c => match fitBase fitM (groups t xs rows), fitBase fitM (groups c xs rows) with
      | .error e, _ => .error e
      | _, .error e => .error e
      | .ok xt, .ok x0 => .ok ⟨some enc, t, c, xt, x0⟩

/-- `TLearner.estimate` of one row (meta_learner.py:1000-1005) -/
def tEstimate [Sub K] (s : T V W K) (wv : W) : K := s.xt wv - s.x0 wv

/-- `TLearner` with `combined_treatment=False` (meta_learner.py:949-998, 1007-1028): one model per vector of treatment
values in the order of `cartesian`; entry `i` is model `i+1` minus model 0 -/
def tSeparate [Sub K] (fitM : List (W × K) → W → K) (d : Nat) (rows : List (Row V W K)) (wv : W) : Except Err (List K) :=
  let cats := (List.range d).map (fun j => uniq (column rows j))
  match mapE (fun r : Row V W K => ordinals cats r.x) rows with
  | .error e => .error e
  | .ok os => match mapE (fun l => fitBase fitM (((rows.zip os).filter (fun p => p.2 = l)).map (fun p => (p.1.wv, p.1.y))))
      (labels cats) with
    | .error e => .error e
    | .ok [] => .error .index
    | .ok (m0 :: ms) => .ok (ms.map (fun m => m wv - m0 wv))

/-! ### XLearner -/

/-- the fitted second stage models of an `XLearner` (meta_learner.py:1334-1417) -/
structure X (V W K : Type) where
  enc : Option (Encoder V)
  kt : W → K
  k0 : W → K

/-- `XLearner._fit_combined_treat` (meta_learner.py:1334-1417) -/
def xFit [Sub K] (fitM fitK : List (W × K) → W → K) (lit : Nat → V) (d : Nat) (old : Option (Encoder V)) (rows : List (Row V W K))
    (treat control : Option (Arg V)) : Except Err (X V W K) :=
  match useEncoder false d old rows with
  | .error e => .error e
  | .ok enc => match encodeRows lit enc rows, getTrCtrl lit enc true treat, getTrCtrl lit enc false control with
    | .error e, _, _ => .error e
    | _, .error e, _ => .error e
    | _, _, .error e => .error e
    | .ok xs, .ok t, .ok c =>
      let gt := groups t xs rows
      let gc := groups c xs rows
      match fitBase fitM gt, fitBase fitM gc with
      | .error e, _ => .error e
      | _, .error e => .error e
      | .ok ft, .ok f0 =>
        .ok ⟨some enc, fitK (gt.map (fun p => (p.1, p.2 - f0 p.1))), fitK (gc.map (fun p => (p.1, ft p.1 - p.2)))⟩

/-- `XLearner.estimate` of one row (meta_learner.py:1553-1561) -/
def xEstimate [Mul K] [Add K] [Sub K] [One K] (s : X V W K) (rho : K) (wv : W) : K := rho * s.kt wv + (1 - rho) * s.k0 wv

end YL.Meta
