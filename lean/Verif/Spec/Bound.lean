import Mathlib.Algebra.Field.Defs

/-!
# Potential outcomes

A finite population of subjects, each with covariates, the arm it received and its outcome under every arm. What an analyst
sees of a subject are covariates, arm and the outcome under that arm.
-/

namespace YL.Spec

/-- a subject: covariates, received arm, potential outcomes -/
structure Subject (W A K : Type) where
  w : W
  arm : A
  y : A → K

section
variable {W A K : Type}

/-- the subjects an answer is about: all of them (no covariates) or those with the given covariates -/
def stratumOf [DecidableEq W] (us : List (Subject W A K)) : Option W → List (Subject W A K)
  | none => us
  | some w => us.filter (fun u => decide (u.w = w))

variable [Field K]

/-- arithmetic mean -/
def avg (l : List K) : K := l.sum / (l.length : K)

/-- the average effect of arm `a` compared with arm `b` -/
def ate (us : List (Subject W A K)) (a b : A) : K := avg (us.map (fun u => u.y a - u.y b))

/-- every subject received an arm that is best for it -/
def OptimalSelection [LE K] (us : List (Subject W A K)) : Prop := ∀ u ∈ us, ∀ a, u.y a ≤ u.y u.arm

/-- all potential outcomes lie between `lo` and `hi` -/
def Bounded [LE K] (us : List (Subject W A K)) (lo hi : K) : Prop := ∀ u ∈ us, ∀ a, lo ≤ u.y a ∧ u.y a ≤ hi

end

end YL.Spec
