import Verif.Model.Tree
import Mathlib.Algebra.BigOperators.Group.List.Basic
import Mathlib.Algebra.BigOperators.Group.Finset.Basic
import Mathlib.Analysis.SpecialFunctions.Log.Basic

/-!
# Model of the classification criteria of the compiled trees

`ylearn/sklearn_ex/cloned/tree/_criterion.pyx:147-200` (the default proxy and improvement) and 201-595
(`ClassificationCriterion`, `Entropy`, `Gini`).

Simplifications: exact arithmetic (real numbers for the logarithm); loops that only add become finite sums; the table
of class weights is total, the loops read its first `n_classes[k]` columns.
-/

namespace YL.Gini
open YL.Crit YL.Tree Finset

variable {K : Type} [Field K] [LinearOrder K]

/-- one sample: features, the class of each output, the weight -/
structure Labelled (K : Type) where
  x : Nat → K
  y : Nat → Nat
  w : K

/-- `sum_total[k, c]` and `weighted_n_node_samples`, or those of one side (_criterion.pyx:204-247) -/
abbrev Counts (K : Type) := (Nat → Nat → K) × K

/-- what one sample adds (_criterion.pyx:297-311) -/
def countOf (a : Labelled K) : Counts K := (fun k c => if a.y k = c then a.w else 0, a.w)

/-- the Gini index from the class weights and the total weight; the same loop for the node and the two children
(_criterion.pyx:529-552, 567-594) -/
def gini (outs : Nat) (ncl : Nat → Nat) (m : Counts K) : K :=
  (∑ k ∈ range outs, (1 - (∑ c ∈ range (ncl k), m.1 k c * m.1 k c) / (m.2 * m.2))) / (outs : K)

/-- the entropy; classes without weight are skipped (_criterion.pyx:455-474, 490-509) -/
noncomputable def entropy (outs : Nat) (ncl : Nat → Nat) (m : Counts ℝ) : ℝ :=
  (∑ k ∈ range outs, ∑ c ∈ range (ncl k),
    if 0 < m.1 k c then -(m.1 k c / m.2 * Real.log (m.1 k c / m.2)) else 0) / (outs : ℝ)

/-- `ClassificationCriterion.update(new_pos)` (_criterion.pyx:350-415): the left sums are changed in place -/
def updateCounts {M : Type} [AddCommGroup M] (f : Nat → M) (c : Crit M) (newPos : Nat) : Crit M :=
  let left := if (newPos : Int) - c.pos ≤ (c.stop : Int) - newPos
    then (List.range' c.pos (newPos - c.pos)).foldl (fun acc p => acc + f p) c.left
    else subDown f newPos c.stop (reverseReset c).left
  { c with left := left, right := c.total - left, pos := newPos }

/-- the default `proxy_impurity_improvement` (_criterion.pyx:146-162) -/
def proxyOf (imp : Counts K → K) (c : Crit (Counts K)) : K :=
  - c.right.2 * imp c.right - c.left.2 * imp c.left

/-- the default `impurity_improvement`; `N` is `weighted_n_samples` (_criterion.pyx:164-197) -/
def improvementOf (N parent left right : K) (c : Crit (Counts K)) : K :=
  c.total.2 / N * (parent - c.right.2 / c.total.2 * right - c.left.2 / c.total.2 * left)

/-- a classification criterion with the given impurity as the splitter and the builder see it: `node_value` copies
the class weights (_criterion.pyx:424-436) -/
def classification (imp : Counts K → K) (N : K) : Criterion (Labelled K) (Counts K) K (Nat → Nat → K) where
  contrib := countOf
  update := updateCounts
  value m := m.1
  nodeImpurity := imp
  weight l := (l.map (fun a => a.w)).sum
  weightLeft c := c.left.2
  weightRight c := c.right.2
  proxy := proxyOf imp
  children _ c := (imp c.left, imp c.right)
  improvement := improvementOf N

end YL.Gini
