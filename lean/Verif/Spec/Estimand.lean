import Verif.Spec.Bayes
import Verif.Model.Prob

/-!
# The value of a probability expression

What the formula `\sum_m P(v|c) [..]...[..]` printed by `Prob.parse` means in a discrete model.
-/

namespace YL.Spec

variable {α : Type} [DecidableEq α] {Ω : α → Type} [∀ i, Fintype (Ω i)] {K : Type}
  [Field K] [LinearOrder K] {V : Finset α} {E : α → α → Prop}

/-- The value of an expression at an assignment of its free variables: sum over the marginal variables of
`P(variables | conditional)` (absent if there are no variables) times the values of the factors. -/
noncomputable def eval (M : BayesNet (K := K) V E Ω) : Prob α → (∀ i, Ω i) → K
  | .mk vs cs ms ps => fun v =>
    sumOut ms.toFinset (fun v =>
      (if vs = [] then 1 else M.cond vs.toFinset cs.toFinset v) *
        (ps.attach.map (fun ⟨p, _⟩ => eval M p v)).prod) v
termination_by p => sizeOf p

theorem eval_mk (M : BayesNet (K := K) V E Ω) (vs cs ms : List α) (ps : List (Prob α)) (v : ∀ i, Ω i) :
    eval M (.mk vs cs ms ps) v = sumOut ms.toFinset (fun v =>
      (if vs = [] then 1 else M.cond vs.toFinset cs.toFinset v) * (ps.map (fun p => eval M p v)).prod) v := by
  rw [eval]
  show sumOut _ _ v = _
  congr 1
  funext v
  congr 1
  exact congrArg List.prod (List.attach_map_val (l := ps) (f := fun p => eval M p v))

end YL.Spec
