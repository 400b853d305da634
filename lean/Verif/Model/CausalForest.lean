import Verif.Model.Forest
import Mathlib.Data.Fin.SuccPred

/-!
# Model of `CausalForest`

`ylearn/estimator_model/causal_forest.py:166-242` on top of `DoubleML.fit` (`double_ml.py:327-431`) and `GRForest`
(Model/Forest.lean).

The first stage (`x_hat`, `y_hat`: cross-fitted predictions, Model/DoubleML.lean, Model/CrossFit.lean) is arbitrary here, as are
the covariate transformer and the control level `get_tr_ctrl` finds (Model/MetaLearner.lean: `getTrCtrl`). One outcome.
-/

namespace YL.CForest
open YL.Tree YL.Forest

variable {K : Type} [Field K] [LinearOrder K] {d n : Nat}

/-- `x - x_hat` (causal_forest.py:198) -/
def residual {m : Nat} (x xh : Fin n → Fin m → K) (i : Fin n) (k : Fin m) : K := x i k - xh i k

/-- `np.delete(x_prime, ctrl, axis=1)` (causal_forest.py:215) -/
def deleteColumn (ctrl : Fin (d + 1)) (r : Fin (d + 1) → K) (j : Fin d) : K := r (ctrl.succAbove j)

/-- the position of the control level (causal_forest.py:199-213): 0 without `control`, an error if `get_tr_ctrl` fails; a position
beyond the columns is refused by `np.delete` -/
def controlColumn (d : Nat) (control : Option (Except String Nat)) : Except String (Fin (d + 1)) :=
  match control with
  | none => .ok 0
  | some (.error e) => .error e
  | some (.ok c) => if h : c < d + 1 then .ok ⟨c, h⟩ else .error "IndexError"

/-- what the second stage is fitted to (causal_forest.py:192-195, double_ml.py:385-386, 423-427) with the columns `x` of a discrete
treatment: the covariates after the transformer, the residuals without the control column, the outcome residuals -/
def stageTwo (transformer : (Nat → K) → Nat → K) (ctrl : Fin (d + 1)) (x xh : Fin n → Fin (d + 1) → K) (y yh : Fin n → K)
    (v : Fin n → Nat → K) (i : Fin n) : GSample K d :=
  ⟨transformer (v i), deleteColumn ctrl (residual x xh i), y i - yh i⟩

/-- `CausalForest.fit` for a discrete treatment (causal_forest.py:180-217) -/
def fit (E : Nat → GrfEnv K d) (g : GrfSettings K) (S : Settings) (dflt : Nat → Int) (draw : Nat → Nat → List (Fin n))
    (transformer : (Nat → K) → Nat → K) (control : Option (Except String Nat)) (x xh : Fin n → Fin (d + 1) → K)
    (y yh : Fin n → K) (v : Fin n → Nat → K) (old : Option (List (Grown K n))) : Except String (Fitted K d n) :=
  match controlColumn d control with
  | .error e => .error e
  | .ok c => fitForest E g S dflt draw none (stageTwo transformer c x xh y yh v) 1 old

/-- `CausalForest.fit` for continuous treatments (causal_forest.py:197-198, 217) -/
def fitContinuous (E : Nat → GrfEnv K d) (g : GrfSettings K) (S : Settings) (dflt : Nat → Int)
    (draw : Nat → Nat → List (Fin n)) (transformer : (Nat → K) → Nat → K) (x xh : Fin n → Fin d → K) (y yh : Fin n → K)
    (v : Fin n → Nat → K) (old : Option (List (Grown K n))) : Except String (Fitted K d n) :=
  fitForest E g S dflt draw none (fun i => ⟨transformer (v i), residual x xh i, y i - yh i⟩) 1 old

/-- `CausalForest.estimate(data)` (causal_forest.py:219-220): the data goes to the forest as it is -/
def estimate (inv : Matrix (Fin d) (Fin d) K → Matrix (Fin d) (Fin d) K) (eps : K) (batch : Nat) (f : Fitted K d n)
    (data : Option (List (Nat → K))) : Except String (List (Fin d → K)) := Forest.estimate inv eps batch f data

end YL.CForest
