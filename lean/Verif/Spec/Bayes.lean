import Mathlib.Data.Finset.Update
import Mathlib.Algebra.BigOperators.Ring.Finset
import Mathlib.Algebra.Order.BigOperators.Ring.Finset
import Mathlib.Algebra.Order.Field.Basic
import Mathlib.Data.Fintype.Pi
import Mathlib.Data.Fintype.BigOperators
import Verif.Spec.Graph

/-!
# Discrete causal models and interventional distributions (independent of the model of the code)

Variables are named by `α`; variable `i` takes values in the finite type `Ω i`; an assignment gives every
variable a value. Probabilities live in an arbitrary ordered field `K` (the reals, or the rationals).
-/

namespace YL.Spec

variable {α : Type} [DecidableEq α] {Ω : α → Type} [∀ i, Fintype (Ω i)] {K : Type}

/-- Sum of `f` over all values of the variables in `S`, the others being kept as in `v`. -/
def sumOut [AddCommMonoid K] (S : Finset α) (f : (∀ i, Ω i) → K) (v : ∀ i, Ω i) : K :=
  ∑ w : (∀ i : S, Ω i), f (Function.updateFinset v S w)

/-- A discrete causal Bayesian network on the variables `V` with direct causes `E`: every variable of `V`
has a conditional distribution given its direct causes. -/
structure BayesNet [Field K] [LinearOrder K] (V : Finset α) (E : α → α → Prop) (Ω : α → Type)
    [∀ i, Fintype (Ω i)] where
  /-- `kernel i v` is the probability that variable `i` has the value `v i` when its direct causes have
  the values given by `v`. -/
  kernel : α → (∀ i, Ω i) → K
  /-- it depends on the variable and on its direct causes only -/
  isLocal : ∀ i ∈ V, DependsOn (kernel i) (insert i {j | E j i})
  nonneg : ∀ i ∈ V, ∀ v, 0 ≤ kernel i v
  /-- it is a probability distribution of variable `i` -/
  sum_one : ∀ i ∈ V, ∀ v, ∑ a : Ω i, kernel i (Function.update v i a) = 1

namespace BayesNet

variable [Field K] [LinearOrder K] {V : Finset α} {E : α → α → Prop} (M : BayesNet (K := K) V E Ω)

/-- `P(S = v_S)`: the probability that the variables in `S` take the values they have in `v`. -/
def P (S : Finset α) (v : ∀ i, Ω i) : K := sumOut (V \ S) (fun v => ∏ i ∈ V, M.kernel i v) v

/-- `P(A = v_A | B = v_B)`. -/
def cond (A B : Finset α) (v : ∀ i, Ω i) : K := M.P (A ∪ B) v / M.P B v

/-- `P(S = v_S | do(X = v_X))`: the kernels of `X` are dropped and `X` is held at `v_X` (truncated
factorisation). -/
def Pdo (X S : Finset α) (v : ∀ i, Ω i) : K :=
  sumOut (V \ (X ∪ S)) (fun v => ∏ i ∈ V \ X, M.kernel i v) v

/-- Every assignment has positive probability. -/
def Positive : Prop := ∀ i ∈ V, ∀ v, 0 < M.kernel i v

/-- `X` and `Y` are independent given `Z`: `P(x,y,z) P(z) = P(x,z) P(y,z)` for all values. -/
def CondIndep (X Y Z : Finset α) : Prop :=
  ∀ v, M.P (X ∪ Y ∪ Z) v * M.P Z v = M.P (X ∪ Z) v * M.P (Y ∪ Z) v

end BayesNet

end YL.Spec
