import Verif.Model.ClassCriterion

/-!
# Model of the regression criteria of the compiled trees

`ylearn/sklearn_ex/cloned/tree/_criterion.pyx:597-875` (`RegressionCriterion`, `MSE`) and 1167-1219 (`FriedmanMSE`).

Simplifications: as in `Verif.Model.ClassCriterion`. The sum of squares of a side is carried along although the class
only has it for the node; `children_impurity` computes it afresh, as the class does.
-/

namespace YL.Reg
open YL.Crit YL.Tree YL.Gini Finset

variable {K : Type} [Field K] [LinearOrder K]

/-- one sample: features, outcomes, weight -/
structure Measured (K : Type) where
  x : Nat → K
  y : Nat → K
  w : K

/-- `sum_total`, `sq_sum_total`, `weighted_n_node_samples` (_criterion.pyx:629-639) -/
abbrev Moments (K : Type) := (Nat → K) × K × K

/-- what one sample adds (_criterion.pyx:669-683) -/
def momentsOf (outs : Nat) (a : Measured K) : Moments K :=
  (fun k => a.w * a.y k, ∑ k ∈ range outs, a.w * a.y k * a.y k, a.w)

/-- the mean squared error from the sums, the sum of squares and the weight; the same formula for the node and the two
children (_criterion.pyx:784-798, 865-873) -/
def mse (outs : Nat) (s : Nat → K) (q w : K) : K :=
  (q / w - ∑ k ∈ range outs, (s k / w) ^ 2) / (outs : K)

/-- `MSE.children_impurity`: the sum of squares of the left side is computed afresh (_criterion.pyx:831-873) -/
def mseChildren (outs : Nat) (f : Nat → Moments K) (c : Crit (Moments K)) : K × K :=
  let q := (sumUp f c.start c.pos).2.1
  (mse outs c.left.1 q c.left.2.2, mse outs c.right.1 (c.total.2.1 - q) c.right.2.2)

/-- `MSE.proxy_impurity_improvement` (_criterion.pyx:800-829) -/
def mseProxy (outs : Nat) (c : Crit (Moments K)) : K :=
  (∑ k ∈ range outs, c.left.1 k * c.left.1 k) / c.left.2.2 +
    (∑ k ∈ range outs, c.right.1 k * c.right.1 k) / c.right.2.2

/-- the criterion `MSE`; `node_value` is the vector of means (_criterion.pyx:770-775), the improvement the default one -/
def mseCriterion (outs : Nat) (N : K) : Criterion (Measured K) (Moments K) K (Nat → K) where
  contrib := momentsOf outs
  update := updateCounts
  value m k := m.1 k / m.2.2
  nodeImpurity m := mse outs m.1 m.2.1 m.2.2
  weight l := (l.map (fun a => a.w)).sum
  weightLeft c := c.left.2.2
  weightRight c := c.right.2.2
  proxy := mseProxy outs
  children := mseChildren outs
  improvement parent left right c :=
    c.total.2.2 / N * (parent - c.right.2.2 / c.total.2.2 * right - c.left.2.2 / c.total.2.2 * left)

/-- `FriedmanMSE.proxy_impurity_improvement` (_criterion.pyx:1176-1200) -/
def friedmanProxy (outs : Nat) (c : Crit (Moments K)) : K :=
  let diff := c.right.2.2 * (∑ k ∈ range outs, c.left.1 k) - c.left.2.2 * (∑ k ∈ range outs, c.right.1 k)
  diff * diff / (c.left.2.2 * c.right.2.2)

/-- `FriedmanMSE.impurity_improvement`; its arguments are not used (_criterion.pyx:1202-1219) -/
def friedmanImprovement (outs : Nat) (c : Crit (Moments K)) : K :=
  let diff := (c.right.2.2 * (∑ k ∈ range outs, c.left.1 k) - c.left.2.2 * (∑ k ∈ range outs, c.right.1 k)) / (outs : K)
  diff * diff / (c.left.2.2 * c.right.2.2 * c.total.2.2)

/-- the criterion `FriedmanMSE` (_criterion.pyx:1167-1219) -/
def friedmanCriterion (outs : Nat) (N : K) : Criterion (Measured K) (Moments K) K (Nat → K) :=
  { mseCriterion outs N with proxy := friedmanProxy outs, improvement := fun _ _ _ c => friedmanImprovement outs c }

end YL.Reg
