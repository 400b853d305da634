import Verif.Model.GrfMemory
import Mathlib.Tactic.Ring
import Mathlib.Tactic.Linarith

/-!
# C90: the workspace of `init_criterion`
-/

namespace YL.Props
open YL.GrfMem

theorem mem_grid {m l : Nat} {p : Nat × Nat} : p ∈ pairs m l ↔ p.1 < m ∧ p.2 < l := by
  unfold pairs
  simp only [List.mem_flatMap, List.mem_map, List.mem_range]
  constructor
  · rintro ⟨i, hi, k, hk, rfl⟩; exact ⟨hi, hk⟩
  · rintro ⟨h1, h2⟩; exact ⟨p.1, h1, p.2, h2, rfl⟩

theorem cell_lt {i n k l : Nat} (hi : i < n) (hk : k < l) : i + n * k < n * l := by
  have : n * (k + 1) ≤ n * l := Nat.mul_le_mul_left _ hk
  rw [Nat.mul_add] at this
  omega

theorem cell_lt' {i n k l : Nat} (hi : i < n) (hk : k < l) : i + k * n < l * n := by
  have := cell_lt hi hk
  rw [Nat.mul_comm k n, Nat.mul_comm l n]
  exact this

/-- **C90.** The initialisation of a node's criterion stays inside the memory it allocated if and only if the node has
at least as many samples as there are treatment columns. -/
theorem C90_in_bounds (n dy dt : Nat) (hy : 0 < dy) :
    (∀ o ∈ accesses n dy dt, o < memSize n dy dt) ↔ dt ≤ n := by
  constructor
  · intro h
    by_contra hn
    have hlt : n < dt := by omega
    have hpos : 0 < dt * dy := Nat.mul_pos (by omega) hy
    have := h (yCopy n dy dt + (dt * dy - 1)) (by
      unfold accesses leastSquares eigenSolve
      simp only [List.mem_append, List.mem_map, List.mem_range]
      refine Or.inl (Or.inl (Or.inr (Or.inl (Or.inl (Or.inr ⟨dt * dy - 1, by omega, rfl⟩)))))
      )
    unfold yCopy trDif yDif gradCoef fGrad lsCoef trNode yNode memSize at this
    have h2 : n * dy < dt * dy := Nat.mul_lt_mul_of_pos_right hlt hy
    omega
  · intro hle o ho
    have hle2 : dt * dy ≤ n * dy := Nat.mul_le_mul_right _ hle
    unfold accesses copyIn leastSquares differences pseudo eigenSolve readCoef at ho
    simp only [List.mem_append, List.mem_map, List.mem_range, mem_grid] at ho
    unfold yCopy trDif yDif gradCoef fGrad lsCoef trNode yNode at ho
    unfold memSize
    have key : ∀ p : Nat × Nat, p.1 < dt ∧ p.2 < dy → p.1 + p.2 * n < n * dy := by
      intro p hp
      have := cell_lt' (lt_of_lt_of_le hp.1 hle) hp.2
      rw [Nat.mul_comm n dy]
      exact this
    have k1 : ∀ p : Nat × Nat, p.1 < n ∧ p.2 < dy → p.1 + n * p.2 < n * dy := fun p hp => cell_lt hp.1 hp.2
    have k2 : ∀ p : Nat × Nat, p.1 < n ∧ p.2 < dt → p.1 + n * p.2 < n * dt := fun p hp => cell_lt hp.1 hp.2
    have k3 : ∀ p : Nat × Nat, p.1 < dt ∧ p.2 < dy → p.1 + p.2 * dt < dy * dt := fun p hp => cell_lt' hp.1 hp.2
    have k4 : ∀ p : Nat × Nat, p.1 < dt ∧ p.2 < dt → p.1 + dt * p.2 < dt * dt := fun p hp => cell_lt hp.1 hp.2
    have hc : dt * dy = dy * dt := Nat.mul_comm _ _
    rcases ho with (((⟨p, hp, rfl⟩ | ⟨p, hp, rfl⟩) | (((⟨i, hi, rfl⟩ | ⟨i, hi, rfl⟩) | ⟨i, hi, rfl⟩) |
      ⟨p, hp, rfl⟩) | ⟨p, hp, rfl⟩) | (((⟨p, hp, rfl⟩ | ⟨p, hp, rfl⟩) | ⟨p, hp, rfl⟩) | ⟨p, hp, rfl⟩) | ⟨p, hp, rfl⟩) |
      (⟨p, hp, rfl⟩ | ⟨i, hi, rfl⟩) | ⟨p, hp, rfl⟩
    all_goals first
      | (have := k1 p hp; omega)
      | (have := k2 p hp; omega)
      | (have := k3 p hp; omega)
      | (have := k4 p hp; omega)
      | (have := key p hp; omega)
      | omega

/-- **C90, refuted.** A leaf with a single sample and two treatment columns (`min_samples_leaf` is 1 by default) makes
`init_criterion` write past the end of its workspace; so does any node with fewer samples than treatment columns. -/
theorem C90_overflow_refuted (n dy dt : Nat) (hy : 0 < dy) (h : n < dt) :
    ∃ o ∈ accesses n dy dt, memSize n dy dt ≤ o := by
  by_contra hn
  push_neg at hn
  have := (C90_in_bounds n dy dt hy).mp hn
  omega

example : memSize 1 1 2 = 15 ∧ 15 ∈ accesses 1 1 2 ∧ memSize 5 1 2 = 51 := by decide

/-- **C90.** The coefficients used are those the solver computed, for a single outcome. -/
theorem C90_coefficients (n dt k : Nat) : readCoef n 1 dt k 0 = solvedCoef n 1 dt k 0 := by
  unfold readCoef solvedCoef; simp

/-- **C90, refuted for several outcomes.** For the second and later outcomes the coefficient read is the one the solver
computed only if the node has exactly as many samples as there are treatments. -/
theorem C90_outcomes_refuted (n dy dt k o : Nat) (ho : 0 < o) :
    readCoef n dy dt k o = solvedCoef n dy dt k o ↔ n = dt := by
  unfold readCoef solvedCoef
  constructor
  · intro h
    have : o * n = o * dt := by omega
    exact Nat.eq_of_mul_eq_mul_left ho this
  · rintro rfl; rfl

/-- the second outcome of a node with 5 samples and 2 treatments is read outside of what the solver wrote -/
example : readCoef 5 2 2 0 1 = yCopy 5 2 2 + 5 ∧ solvedCoef 5 2 2 0 1 = yCopy 5 2 2 + 2 := by decide

/-- **C90.** The arrays do not overlap: each ends where the next begins and the last ends with the workspace. -/
theorem C90_layout (n dy dt : Nat) :
    yNode + n * dy = trNode n dy ∧ trNode n dy + n * dt = lsCoef n dy dt ∧
    lsCoef n dy dt + dy * dt = fGrad n dy dt ∧ fGrad n dy dt + dt * dt = gradCoef n dy dt ∧
    gradCoef n dy dt + n * dt = yDif n dy dt ∧ yDif n dy dt + n * dy = trDif n dy dt ∧
    trDif n dy dt + n * dt = yCopy n dy dt ∧ yCopy n dy dt + n * dy = memSize n dy dt := by
  unfold memSize yCopy trDif yDif gradCoef fGrad lsCoef trNode yNode
  refine ⟨rfl, rfl, rfl, rfl, rfl, rfl, rfl, ?_⟩
  omega

/-- **C90.** Copying the outcomes and treatments of the node fills exactly the two arrays meant for them: every cell of
both is written and nothing else. -/
theorem C90_copies (n dy dt o : Nat) : o ∈ copyIn n dy dt ↔ yNode ≤ o ∧ o < lsCoef n dy dt := by
  have cell : ∀ l q : Nat, q < n * l → ∃ p ∈ pairs n l, p.1 + n * p.2 = q := by
    intro l q hq
    have hn : 0 < n := by
      rcases Nat.eq_zero_or_pos n with h | h
      · subst h; simp at hq
      · exact h
    refine ⟨(q % n, q / n), mem_grid.2 ⟨Nat.mod_lt _ hn, ?_⟩, Nat.mod_add_div q n⟩
    exact Nat.div_lt_of_lt_mul hq
  have h1 : yNode + n * dy = trNode n dy := rfl
  have h2 : trNode n dy + n * dt = lsCoef n dy dt := rfl
  unfold copyIn
  rw [List.mem_append, List.mem_map, List.mem_map]
  constructor
  · rintro (⟨p, hp, rfl⟩ | ⟨p, hp, rfl⟩)
    · have := cell_lt (mem_grid.1 hp).1 (mem_grid.1 hp).2
      omega
    · have := cell_lt (mem_grid.1 hp).1 (mem_grid.1 hp).2
      omega
  · rintro ⟨ha, hb⟩
    by_cases h : o < trNode n dy
    · obtain ⟨p, hp, he⟩ := cell dy (o - yNode) (by omega)
      exact Or.inl ⟨p, hp, by omega⟩
    · obtain ⟨p, hp, he⟩ := cell dt (o - trNode n dy) (by omega)
      exact Or.inr ⟨p, hp, by omega⟩

end YL.Props
