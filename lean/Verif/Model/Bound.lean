import Mathlib.Algebra.Field.Defs
import Mathlib.Order.Defs.LinearOrder
import Verif.Model.MetaLearner

/-!
# Model of `ylearn/estimator_model/approximation_bound.py: ApproxBound`

One outcome, discrete treatments (`is_discrete_treatment=True`; otherwise `fit` raises `ValueError`), continuous covariates
(with `is_discrete_covariate=True` and covariates `fit` would concatenate a sparse matrix). The base models are arbitrary
functions of their training data: `fitX` (with `predict_proba`) and `fitY`. Numbers are elements of a linearly ordered field
(no rounding, no NaN). `numpy` broadcasting is modelled for the shapes that occur: one row against `n` rows.
-/

namespace YL.Bound

open YL.Meta
open YL.Permuted (Arg)

variable {V W K : Type} [LinearOrder V] [Field K] [LinearOrder K]

/-- the attributes of an `ApproxBound` that outlive a call of `fit` and that the next `fit` reads: `x_prob` and the fitted
encoders (`if not self._is_fitted`, approximation_bound.py:280, 298) -/
structure Obj (V K : Type) where
  xprob : Option (List (List K))
  enc : Option (Encoder V)

/-- the fitted attributes (approximation_bound.py:138-175) -/
structure Fitted (V W K : Type) where
  enc : Encoder V
  cov : Bool
  xd : Nat
  labels : List Nat
  ys : List K
  vs : List (Option W)
  n : Nat
  xprob : List (List K)
  ymodel : Option W × List Nat → K
  xmodel : Option (W → List K)

/-- `np.unique(x_label, return_counts=True)[1] / n` (approximation_bound.py:165-166): the frequencies of the labels that occur,
in increasing order of the label -/
def freqs (ls : List Nat) : List K := (uniq ls).map (fun k => (ls.count k : K) / (ls.length : K))

/-- `x_prob` after `fit` and the fitted `x_model` (approximation_bound.py:157-169). A given `x_prob` is flattened to one row. -/
def xProb (fitX : List (W × Nat) → W → List K) (cov : Bool) (old : Option (List (List K))) (rows : List (Row V W K))
    (ls : List Nat) : List (List K) × Option (W → List K) :=
  match old with
  | some p => ([p.flatten], none)
  | none => if cov then
      let f := fitX ((rows.map (fun r => r.wv)).zip ls)
      (rows.map (fun r => f r.wv), some f)
    else ([freqs ls], none)

/-- `ApproxBound.fit` (approximation_bound.py:92-177) of an object with the attributes `o`, with `comp_transormer` (263-304).
The trained `x_model` of an earlier `fit` is not kept in this model: it matters only for `estimate(data)` after a second `fit`. -/
def fit (fitX : List (W × Nat) → W → List K) (fitY : List ((Option W × List Nat) × K) → (Option W × List Nat → K))
    (lit : Nat → V) (d : Nat) (cov : Bool) (o : Obj V K) (rows : List (Row V W K)) : Except Err (Fitted V W K) :=
  match useEncoder true d o.enc rows with
  | .error e => .error e
  | .ok enc => match encodeRows lit enc rows with
    | .error e => .error e
    | .ok xs =>
      let ls := xs.map convert4onehot
      let vs := rows.map (fun r => if cov then some r.wv else none)
      match fitBase fitY ((vs.zip xs).zip (rows.map (fun r => r.y))) with
      | .error e => .error e
      | .ok f => .ok ⟨enc, cov, width enc, ls, rows.map (fun r => r.y), vs, rows.length,
          (xProb fitX cov o.xprob rows ls).1, f, (xProb fitX cov o.xprob rows ls).2⟩

/-- the object after a successful `fit` (approximation_bound.py:92-177) -/
def Fitted.obj (s : Fitted V W K) : Obj V K := ⟨some s.xprob, some s.enc⟩

/-- `a.max(axis=0)`: `ValueError` on an empty array (approximation_bound.py:356-357) -/
def maxE : List K → Except Err K
  | [] => .error .value
  | a :: l => .ok (l.foldl max a)

/-- `a.min(axis=0)`: `ValueError` on an empty array (approximation_bound.py:356-357) -/
def minE : List K → Except Err K
  | [] => .error .value
  | a :: l => .ok (l.foldl min a)

/-- one column `x_prob[:, t]` (approximation_bound.py:367-383) -/
def col (t : Nat) (p : List (List K)) : Except Err (List K) :=
  mapE (fun row : List K => match row[t]? with
    | some k => .ok k
    | none => .error .index) p

/-- broadcasting of a column to `n` rows (approximation_bound.py:367-383) -/
def broadcast (n : Nat) (l : List K) : Except Err (List K) :=
  if l.length = n then .ok l else match l with
    | [a] => .ok (List.replicate n a)
    | _ => .error .value

/-- the raw treatment value of a new row against the code of an arm: `x.reshape(-1, 1) == treat` (approximation_bound.py:348-355);
with several treatments the reshaped array has another length than the outcomes (`IndexError`) -/
def rawLabel (lit : Nat → V) (r : Row V W K) : Except Err (Nat → Bool) :=
  match r.x with
  | [u] => .ok (fun k : Nat => decide (u = lit k))
  | _ => .error .index

/-- what `_prepare4est` takes from the training data or from the data of the call (approximation_bound.py:330-352): outcomes,
the values to be compared with the codes of the arms (`none`: a value that is no code), covariates, and `x_prob`. New data with
covariates are not encoded: their raw treatment values are compared with the codes. -/
def gather (lit : Nat → V) (s : Fitted V W K) (data : Option (List (Row V W K))) :
    Except Err (List K × List (Nat → Bool) × List (Option W) × List (List K)) :=
  match data with
  | none => .ok (s.ys, s.labels.map (fun l => fun k => l == k), if s.cov then s.vs else [none], s.xprob)
  | some rows => if s.cov then
      match s.xmodel with
      | none => .error .exception
      | some f => match mapE (rawLabel lit) rows with
        | .error e => .error e
        | .ok ls => .ok (rows.map (fun r => r.y), ls, rows.map (fun r => some r.wv), rows.map (fun r => f r.wv))
    else match encodeRows lit s.enc rows with
      | .error e => .error e
      | .ok xs => .ok (rows.map (fun r => r.y), xs.map (fun x => fun k => convert4onehot x == k), [none], s.xprob)

/-- the outcomes of one arm: `get_groups(treat, x.reshape(-1, 1), False, y)[0]` (approximation_bound.py:354-355) -/
def group (k : Nat) (ys : List K) (ls : List (Nat → Bool)) : List K := ((ys.zip ls).filter (fun p => p.2 k)).map (fun p => p.1)

/-- `upper` (approximation_bound.py:374-375) -/
def upperF (yU yL pt p0 yt y0 : K) : K := pt * yt + (1 - pt) * yU - (1 - p0) * yL - p0 * y0

/-- `lower` (approximation_bound.py:376-377) -/
def lowerF (yU yL pt p0 yt y0 : K) : K := pt * yt + (1 - pt) * yL - (1 - p0) * yU - p0 * y0

/-- `optimal_upper1` (approximation_bound.py:379-380). -/
def optU1 (yU yL pt p0 yt : K) : K := pt * yt - (1 - p0) * yL + (1 - pt - p0) * yU

/-- `optimal_lower1` (approximation_bound.py:381). It uses `lower`, the bound of the effect, not `y_lower`. -/
def optL1 (lower p0 y0 : K) : K := p0 * lower - p0 * y0

/-- `optimal_upper2` (approximation_bound.py:382), with `lower` as above. -/
def optU2 (lower pt p0 yt y0 : K) : K := yt - pt * lower - p0 * y0

/-- `optimal_lower2` (approximation_bound.py:383), with `lower` as above. -/
def optL2 (lower pt p0 yt y0 : K) : K := pt * yt + p0 * lower - y0

/-- the numbers of one row from which all bounds are computed
(the values used at approximation_bound.py:367-383). -/
structure Cell (K : Type) where
  pt : K
  p0 : K
  yt : K
  y0 : K

/-- `_prepare4est` up to the formulas (approximation_bound.py:306-372): the bounds of the outcome and one cell per row -/
def prepare (lit : Nat → V) (s : Fitted V W K) (data : Option (List (Row V W K))) (treat control : Option (Arg V))
    (yUpper yLower : Option K) : Except Err (K × K × List (Cell K)) :=
  match getTrCtrl lit s.enc true treat, getTrCtrl lit s.enc false control with
  | .error e, _ => .error e
  | _, .error e => .error e
  | .ok t, .ok c => match gather lit s data with
    | .error e => .error e
    | .ok (ys, ls, vs, xp) =>
      match maxE (group t ys ls), minE (group t ys ls), maxE (group c ys ls), minE (group c ys ls) with
      | .ok tM, .ok tm, .ok cM, .ok cm =>
        if t < s.xd ∧ c < s.xd then
          match col t xp, col c xp with
          | .error e, _ => .error e
          | _, .error e => .error e
          | .ok pt, .ok pc => match broadcast vs.length pt, broadcast vs.length pc with
            | .error e, _ => .error e
            | _, .error e => .error e
            | .ok pt, .ok pc => .ok (yUpper.getD (max tM cM), yLower.getD (min tm cm),
                (vs.zip (pt.zip pc)).map (fun q => ⟨q.2.1, q.2.2, s.ymodel (q.1, oneHot s.xd t), s.ymodel (q.1, oneHot s.xd c)⟩))
        else .error .index
      | _, _, _, _ => .error .value

/-- the value of the argument `assump` (approximation_bound.py:245-261) -/
inductive Assump where
  | none
  | noAssump
  | nonNegative
  | nonPositive
  | optimal
  | other
  deriving DecidableEq

/-- the result of `estimate`: a pair of arrays, or for `optimal` a pair of pairs
(approximation_bound.py:245-261). -/
inductive Res (K : Type) where
  | pair (a b : List K)
  | optimal (a b : List K × List K)
  deriving DecidableEq

/-- `ApproxBound.estimate` (approximation_bound.py:179-261) of a fitted object -/
def estimate (lit : Nat → V) (s : Fitted V W K) (data : Option (List (Row V W K))) (treat control : Option (Arg V))
    (yUpper yLower : Option K) (assump : Assump) : Except Err (Res K) :=
  match prepare lit s data treat control yUpper yLower with
  | .error e => .error e
  | .ok (yU, yL, cells) =>
    let upper := cells.map (fun q => upperF yU yL q.pt q.p0 q.yt q.y0)
    let lower := cells.map (fun q => lowerF yU yL q.pt q.p0 q.yt q.y0)
    match assump with
    | .none => .ok (.pair lower upper)
    | .noAssump => .ok (.pair lower upper)
    | .nonNegative => .ok (.pair (lower.map (fun _ => 0)) upper)
    | .nonPositive => .ok (.pair lower (lower.map (fun _ => 0)))
    | .optimal => .ok (.optimal
        (cells.map (fun q => optU1 yU yL q.pt q.p0 q.yt),
         cells.map (fun q => optL1 (lowerF yU yL q.pt q.p0 q.yt q.y0) q.p0 q.y0))
        (cells.map (fun q => optU2 (lowerF yU yL q.pt q.p0 q.yt q.y0) q.pt q.p0 q.yt q.y0),
         cells.map (fun q => optL2 (lowerF yU yL q.pt q.p0 q.yt q.y0) q.pt q.p0 q.yt q.y0)))
    | .other => .error .exception

end YL.Bound
