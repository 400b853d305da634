import Mathlib.Logic.Relation
import Mathlib.Data.List.Basic
import Mathlib.Data.Set.Basic

/-!
# Textbook graph notions (independent of the model)

A directed graph is a relation `E : α → α → Prop` (`E a b`: there is an edge from `a` to `b`).
-/

namespace YL.Spec

variable {α : Type}

/-- `b` can be reached from `a` along zero or more edges. -/
abbrev Reach (E : α → α → Prop) : α → α → Prop := Relation.ReflTransGen E

/-- `b` can be reached from `a` along one or more edges. -/
abbrev Reach1 (E : α → α → Prop) : α → α → Prop := Relation.TransGen E

/-- No directed walk of positive length returns to its start. -/
def Acyclic (E : α → α → Prop) : Prop := ∀ a, ¬ Reach1 E a a

/-- `a` and `b` are joined by an edge in one of the two directions. -/
def Adj (E : α → α → Prop) (a b : α) : Prop := E a b ∨ E b a

/-- The middle node of the consecutive triple `a - b - c` lets information through given `Z`: a
collider `a → b ← c` must have a descendant (or itself) in `Z`, any other node must be outside `Z`
(Pearl's definition of d-connection). -/
def Open (E : α → α → Prop) (Z : Set α) (a b c : α) : Prop :=
  (E a b ∧ E c b ∧ ∃ z ∈ Z, Reach E b z) ∨ (¬ (E a b ∧ E c b) ∧ b ∉ Z)

/-- All consecutive nodes are adjacent and every interior node is open given `Z`. -/
def ActivePath (E : α → α → Prop) (Z : Set α) : List α → Prop
  | [] => False
  | [_] => True
  | [a, b] => Adj E a b
  | a :: b :: c :: l => Adj E a b ∧ Open E Z a b c ∧ ActivePath E Z (b :: c :: l)

/-- Textbook d-separation: no simple path from a node of `X` to a node of `Y` is active given `Z`. -/
def DSep (E : α → α → Prop) (X Y Z : Set α) : Prop :=
  ∀ p : List α, p.Nodup → ActivePath E Z p → ∀ x ∈ p.head?, ∀ y ∈ p.getLast?, x ∈ X → y ∈ Y → False

/-- A list visits every node of `N` exactly once and lists parents before children. -/
def IsTopoOrder (N : Set α) (E : α → α → Prop) (l : List α) : Prop :=
  l.Nodup ∧ (∀ v, v ∈ l ↔ v ∈ N) ∧ ∀ l₁ v l₂, l = l₁ ++ v :: l₂ → ∀ u, E u v → u ∈ l₁

end YL.Spec

namespace YL.Spec

variable {α : Type}

/-- Delete the edges out of `X`. -/
def CutOut (E : α → α → Prop) (X : Set α) (a b : α) : Prop := E a b ∧ a ∉ X

/-- Delete the edges into `X`. -/
def CutIn (E : α → α → Prop) (X : Set α) (a b : α) : Prop := E a b ∧ b ∉ X

/-- Pearl's back-door criterion: `Z` contains no treatment, no outcome and no descendant of a treatment, and
blocks every path between `X` and `Y` once the edges out of `X` are deleted. -/
def BackDoor (E : α → α → Prop) (X Y Z : Set α) : Prop :=
  (∀ z ∈ Z, z ∉ Y ∧ ∀ x ∈ X, ¬ Reach E x z) ∧ DSep (CutOut E X) X Y Z

end YL.Spec

namespace YL.Spec

variable {α : Type}

/-- A simple path from `s` to `t` in the graph, ignoring directions. -/
def IsPath (E : α → α → Prop) (s t : α) (p : List α) : Prop :=
  p.Nodup ∧ p.IsChain (Adj E) ∧ p.head? = some s ∧ p.getLast? = some t

/-- A directed path from `s` to `t`. -/
def IsDiPath (E : α → α → Prop) (s t : α) (p : List α) : Prop :=
  p.IsChain E ∧ p.head? = some s ∧ p.getLast? = some t

/-- A back-door path from `s` to `t`: a simple path whose first edge points into `s`. -/
def IsBackDoorPath (E : α → α → Prop) (s t : α) (p : List α) : Prop :=
  IsPath E s t p ∧ ∃ a l, p = s :: a :: l ∧ E a s

/-- Somewhere on the path two consecutive edges meet head to head. -/
def HasCollider (E : α → α → Prop) (p : List α) : Prop :=
  ∃ l₁ a b c l₂, p = l₁ ++ a :: b :: c :: l₂ ∧ E a b ∧ E c b

/-- Pearl's front-door criterion: `Z` intercepts all directed paths from `x` to `y`; every back-door path
from `x` to `Z` is blocked (by a collider); all back-door paths from `Z` to `y` are blocked by `x`. -/
def FrontDoor (E : α → α → Prop) (x y : α) (Z : Set α) : Prop :=
  (∀ p, IsDiPath E x y p → ∃ z ∈ Z, z ∈ p) ∧
  (∀ z ∈ Z, ∀ p, IsBackDoorPath E x z p → HasCollider E p) ∧
  DSep (CutOut E Z) Z {y} {x}

end YL.Spec
