import Mathlib.Data.List.Basic

/-!
# Model of `ylearn/causal_model/prob.py`
-/

namespace YL

/-- `Prob(variables, conditional, marginal, product)` (prob.py:40-64). `divisor` is never set to anything
but the empty set in the code base and is left out. Python sets are lists here; `product` is a set of
objects compared by identity, hence a list. -/
inductive Prob (α : Type) where
  | mk (vars conditional marginal : List α) (product : List (Prob α))

namespace Prob
variable {α : Type}

/-- the attribute `variables` (prob.py:61) -/
def vars : Prob α → List α | .mk v _ _ _ => v

/-- the attribute `conditional` (prob.py:62) -/
def conditional : Prob α → List α | .mk _ c _ _ => c

/-- the attribute `marginal` (prob.py:63) -/
def marginal : Prob α → List α | .mk _ _ m _ => m

/-- the attribute `product` (prob.py:64) -/
def product : Prob α → List (Prob α) | .mk _ _ _ p => p

end Prob

/-- The pieces of the LaTeX string of `Prob.parse()` (prob.py:66-99): a sum sign with the marginal set, the
factor `P(variables|conditional)`, brackets. -/
inductive Tok (α : Type) where
  | sum (m : List α)
  | p (v c : List α)
  | left
  | right
  deriving DecidableEq

/-- `Prob.parse()` (prob.py:66-99) as a list of tokens instead of a LaTeX string. -/
def Prob.parse {α : Type} : Prob α → List (Tok α)
  | .mk v c m ps =>
    (if m.isEmpty then [] else [Tok.sum m]) ++ (if v.isEmpty then [] else [Tok.p v c]) ++
      ps.attach.flatMap (fun ⟨p, _⟩ => Tok.left :: (p.parse ++ [Tok.right]))
termination_by p => sizeOf p

end YL
