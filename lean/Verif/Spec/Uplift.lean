import Mathlib.Algebra.Field.Defs
import Mathlib.Algebra.BigOperators.Group.List.Basic

/-!
# Textbook uplift statistics of a group of people (independent of the model)
-/

namespace YL.Spec

variable {τ K : Type} [DecidableEq τ] [Field K]

/-- A person: outcome, arm, true effect. -/
structure Person (τ K : Type) where
  y : K
  arm : τ
  effect : K

/-- number of people of an arm -/
def armSize (a : τ) (l : List (Person τ K)) : Nat := (l.filter (fun p => p.arm = a)).length

/-- total outcome of an arm -/
def armTotal (a : τ) (l : List (Person τ K)) : K := ((l.filter (fun p => p.arm = a)).map (·.y)).sum

/-- difference of the mean outcomes of the two arms -/
def upliftOf (t c : τ) (l : List (Person τ K)) : K :=
  armTotal t l / (armSize t l : K) - armTotal c l / (armSize c l : K)

/-- cumulative gain: uplift times the size of the group -/
def gainOf (t c : τ) (l : List (Person τ K)) : K := upliftOf t c l * (l.length : K)

/-- Qini statistic: total outcome of the treated minus that of the controls scaled to the size of the treated arm -/
def qiniOf (t c : τ) (l : List (Person τ K)) : K :=
  armTotal t l - armTotal c l * (armSize t l : K) / (armSize c l : K)

/-- total true effect -/
def totalEffect (l : List (Person τ K)) : K := (l.map (·.effect)).sum

end YL.Spec
