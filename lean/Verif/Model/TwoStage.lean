import Verif.Model.DoubleML

/-!
# Model of `NP2SLS`

`ylearn/estimator_model/iv.py`.

Simplifications:
* one outcome; treatments, instruments, adjustments and covariates are numbers of a field;
* `is_discrete_instrument=False` (a discrete instrument gives a sparse matrix, which is not modelled);
* a basis is a function of rows; the state `PolynomialFeatures` keeps is the number of columns only, so `fit_transform`
  and `transform` agree on rows of the same length;
* the two regression models are arbitrary functions of their training data; theorems about least squares assume the
  normal equations;
* only the class of an exception is modelled: `AttributeError` and `NotImplementedError` are `Err.exception`.
-/

namespace YL.TwoStage
open YL YL.DML

variable {K : Type} [Field K] [DecidableEq K]

/-- A fitted transformer of rows (iv.py:195-197); `acceptsNone`: `fit_transform(None)` returns `None` instead of raising
(`PolynomialFeatures` raises). -/
structure Basis (K : Type) where
  rows : List K → List K
  acceptsNone : Bool

/-- A `treatment_basis`, `instrument_basis` or `covar_basis` argument (iv.py:99-101). -/
inductive BasisArg (K : Type) where
  | absent
  | tuple (method : String) (degree : Nat)
  | list (method : String) (degree : Nat)
  | object (b : Basis K)

/-- `is None` (iv.py:134-140) -/
def BasisArg.isAbsent : BasisArg K → Bool
  | .absent => true
  | _ => false

/-- `get_basis_func` (iv.py:431-444); `poly degree` is `PolynomialFeatures(degree)` -/
def getBasis (poly : Nat → List K → List K) (method : String) (degree : Nat) : Except Err (Basis K) :=
  if method = "Poly" then .ok ⟨poly degree, false⟩
  else if method = "Hermite" then .error .exception
  else .error .value

/-- the basis of treatment or instrument (iv.py:174-184): `none` has no `fit_transform` -/
def basisOf (poly : Nat → List K → List K) : BasisArg K → Except Err (Option (Basis K))
  | .absent => .ok none
  | .tuple m d => getBasis poly m d
  | .list m d => getBasis poly m d
  | .object b => .ok (some b)

/-- the basis of the covariates (iv.py:186-190): a list is not recognised and has no `fit_transform` either -/
def covarBasisOf (poly : Nat → List K → List K) : BasisArg K → Except Err (Option (Basis K))
  | .absent => .ok none
  | .tuple m d => getBasis poly m d
  | .list _ _ => .ok none
  | .object b => .ok (some b)

/-- One row of the data: treatment, instrument, adjustment, covariate, outcome (iv.py:159-161). -/
structure Obs (K : Type) where
  x : List K
  z : List K
  w : List K
  v : List K
  y : K

/-- the arguments of `fit` besides the data (iv.py:92-105): whether adjustment and covariate are given -/
structure FitArgs (K : Type) where
  treatmentBasis : BasisArg K
  instrumentBasis : BasisArg K
  covarBasis : BasisArg K
  hasAdjustment : Bool
  hasCovariate : Bool

/-- `OrdinalEncoder.transform` of a row: positions in the categories (iv.py:164-167, 370-372) -/
def ordinal (cats : List (List K)) (row : List K) : Except Err (List K) :=
  if row.length ≠ cats.length then .error .value
  else Meta.mapE (fun p : List K × K => if p.2 ∈ p.1 then .ok ((p.1.findIdx (fun c => c = p.2) : Nat) : K) else .error .value)
    (cats.zip row)

/-- the treatment as the basis sees it: encoded if discrete (iv.py:164-167) -/
def encodeX (cats : Option (List (List K))) (row : List K) : Except Err (List K) :=
  match cats with
  | none => .ok row
  | some c => ordinal c row

/-- `nd_kron(a, v)` or `a` without covariates, then adjustment and the constant column (iv.py:202-207, 215-220) -/
def design (a : List K) (v w : Option (List K)) : List K :=
  (match v with
    | some v => kron a v
    | none => a) ++ w.getD [] ++ [1]

/-- the covariates after the basis (iv.py:197); `None` goes through only if the basis accepts it -/
def covarOf (b : Basis K) (has : Bool) (v : List K) : Except Err (Option (List K)) :=
  if has then .ok (some (b.rows v)) else if b.acceptsNone then .ok none else .error .value

/-- A fitted `NP2SLS` (iv.py:154-224): categories of a discrete treatment, bases, number of treatment columns, the second
stage model, the transformed covariates and the adjustments of the training data. -/
structure Fitted (K : Type) where
  cats : Option (List (List K))
  bx : Basis K
  bv : Basis K
  xd : Nat
  hasW : Bool
  hasV : Bool
  yModel : List K → K
  train : List (Option (List K) × Option (List K))

/-- adjustment of a row, if given (iv.py:159-161) -/
def adj (has : Bool) (w : List K) : Option (List K) := if has then some w else none

/-- rows with transformed treatment, instrument and covariate (iv.py:195-200) -/
def prepared (bx bz bv : Basis K) (a : FitArgs K) (cats : Option (List (List K))) (rows : List (Obs K)) :
    Except Err (List (List K × List K × Option (List K) × Option (List K) × K)) :=
  Meta.mapE (fun r : Obs K => match encodeX cats r.x, covarOf bv a.hasCovariate r.v with
    | .error e, _ => .error e
    | _, .error e => .error e
    | .ok x, .ok v => .ok (bx.rows x, bz.rows r.z, v, adj a.hasAdjustment r.w, r.y)) rows

/-- `NP2SLS.fit` (iv.py:92-226); `cats` are the categories of a discrete treatment in the data; `instrument` is given -/
def fit (poly : Nat → List K → List K) (fitX : List (List K × List K) → List K → List K)
    (fitY : List (List K × K) → List K → K) (a : FitArgs K) (cats : Option (List (List K))) (xd : Nat)
    (rows : List (Obs K)) : Except Err (Fitted K) :=
  if a.treatmentBasis.isAbsent && a.instrumentBasis.isAbsent && a.covarBasis.isAbsent then .error .value
  else
    match basisOf poly a.treatmentBasis, basisOf poly a.instrumentBasis, covarBasisOf poly a.covarBasis with
    | .error e, _, _ => .error e
    | _, .error e, _ => .error e
    | _, _, .error e => .error e
    | .ok (some bx), .ok (some bz), .ok (some bv) =>
      match prepared bx bz bv a cats rows with
      | .error e => .error e
      | .ok ps =>
        let xModel := fitX (ps.map (fun p => (design p.2.1 p.2.2.1 p.2.2.2.1, p.1)))
        let yModel := fitY (ps.map (fun p =>
          (design (xModel (design p.2.1 p.2.2.1 p.2.2.2.1)) p.2.2.1 p.2.2.2.1, p.2.2.2.2)))
        .ok ⟨cats, bx, bv, xd, a.hasAdjustment, a.hasCovariate, yModel, ps.map (fun p => (p.2.2.1, p.2.2.2.1))⟩
    | _, _, _ => .error .exception

/-- `.reshape(-1, xd)` of the flat numbers (iv.py:334-342, 352-360) -/
def reshape (xd : Nat) (flat : List K) : Except Err (List (List K)) :=
  if flat.length % xd = 0 then .ok ((List.range (flat.length / xd)).map (fun i => (flat.drop (i * xd)).take xd))
  else .error .value

/-- the rows of a `treat` or `control` argument for `n` samples (iv.py:334-368): scalars, lists and arrays are given by
their numbers in order; `default` is 1 or 0 -/
def armRows (xd n : Nat) (default : K) (arg : Option (List K)) : Except Err (List (List K)) :=
  match arg with
  | none => .ok (List.replicate n (List.replicate xd default))
  | some flat =>
    match reshape xd flat with
    | .error e => .error e
    | .ok [r] => .ok (List.replicate n r)
    | .ok rs => if rs.length = n then .ok rs else .error .assertion

/-- what `_check_data` gives (iv.py:415-429): transformed covariates and adjustments; `none` is the training data -/
def checkData (f : Fitted K) : Option (List (Obs K)) → List (Option (List K) × Option (List K))
  | none => f.train
  | some rows => rows.map (fun r => (if f.hasV then some (f.bv.rows r.v) else none, adj f.hasW r.w))

/-- the predictions for given treatment rows (iv.py:395-413) -/
def predictAt (f : Fitted K) (vw : List (Option (List K) × Option (List K))) (xs : List (List K)) : List K :=
  (xs.zip vw).map (fun p => f.yModel (design (f.bx.rows p.1) p.2.1 p.2.2))

/-- the encoded rows of an argument (iv.py:370-372) -/
def arms (f : Fitted K) (n : Nat) (default : K) (arg : Option (List K)) : Except Err (List (List K)) :=
  match armRows f.xd n default arg with
  | .error e => .error e
  | .ok rs => Meta.mapE (encodeX f.cats) rs

/-- `_prepare4est` for the effect (iv.py:323-372, 395-413) -/
def prepare (f : Fitted K) (data : Option (List (Obs K))) (treat control : Option (List K)) : Except Err (List K × List K) :=
  match arms f (checkData f data).length 1 treat, arms f (checkData f data).length 0 control with
  | .error e, _ => .error e
  | _, .error e => .error e
  | .ok xt, .ok x0 => .ok (predictAt f (checkData f data) xt, predictAt f (checkData f data) x0)

/-- The `quantity` argument (iv.py:251-264). -/
inductive Quantity where
  | none
  | ate
  | cate
  | cf
  | other
  deriving DecidableEq

/-- `estimate` (iv.py:228-264): numpy's `mean` has no argument `dim`, so the averages raise `TypeError`. Counterfactuals
are predicted for the treatment of the data, which is not encoded (iv.py:391-393); without data there is none. -/
def estimate (f : Fitted K) (data : Option (List (Obs K))) (treat control : Option (List K)) :
    Quantity → Except Err (List K)
  | .cf => match data with
    | none => .error .value
    | some rows => .ok (predictAt f (checkData f data) (rows.map (fun r => r.x)))
  | q => match prepare f data treat control with
    | .error e => .error e
    | .ok (yt, y0) => match q with
      | .none => .ok (List.zipWith (· - ·) yt y0)
      | .ate => .error .type
      | .cate => if f.hasV then .error .type else .error .assertion
      | _ => .error .assertion

/-- `effect_nji` (iv.py:266-321, all combinations of codes as in utils.py:54-57): for one discrete treatment `repeat(x_d, aixs=2)` raises `TypeError`; for continuous
treatments `_prepare4est` is called without `treat` and `control` -/
def effectNji (f : Fitted K) (data : Option (List (Obs K))) : Except Err (List (List K)) :=
  match f.cats with
  | none => .error .type
  | some cats =>
    if f.xd = 1 then .error .type
    else
      let vw := checkData f data
      let codes := (Meta.cartesian (cats.map (fun c => List.range c.length))).map (fun c => c.map (fun n : Nat => (n : K)))
      .ok (vw.map (fun p => codes.map (fun c =>
        f.yModel (design (f.bx.rows c) p.1 p.2) -
          f.yModel (design (f.bx.rows (codes.headD [])) p.1 p.2))))

end YL.TwoStage
