import Verif.Props.Gen

/-!
# C134, estimates with undirected edges

`count_accuracy` for estimates with entries 0, 1 and -1, where -1 stands for an undirected edge that is listed once (gen.py:318-377).
-/

set_option linter.unusedSectionVars false

namespace YL.Props
open YL YL.Gen

section Undirected
variable {d : Nat}

/-- entries 0, 1 and -1 -/
def Tri (E : Gen.Mx d) : Prop := ∀ i j, E i j = 0 ∨ E i j = 1 ∨ E i j = -1

/-- a reported edge that is right: directed as in the true graph, or undirected between two vertices that are joined there -/
def RightEdge (T E : Gen.Mx d) (i j : Fin d) : Prop :=
  (E i j = 1 ∧ Edge T i j) ∨ (E i j = -1 ∧ (Edge T i j ∨ Edge T j i))

/-- a reported edge that is reversed -/
def ReversedEdge (T E : Gen.Mx d) (i j : Fin d) : Prop := E i j = 1 ∧ Edge T j i

/-- a reported edge between vertices that are not joined in the true graph -/
def FalseEdge (T E : Gen.Mx d) (i j : Fin d) : Prop := Edge E i j ∧ ¬ Edge T i j ∧ ¬ Edge T j i

/-- the estimate agrees with the true graph on two vertices: joined in neither, or joined in both, undirected in the estimate or in the same
direction -/
def Concur (T E : Gen.Mx d) (i j : Fin d) : Prop :=
  ((Edge E i j ∨ Edge E j i) ↔ (Edge T i j ∨ Edge T j i)) ∧ (E i j = 1 → Edge T i j) ∧ (E j i = 1 → Edge T j i)

open Classical in
/-- the number of pairs of vertices on which the estimate disagrees with the true graph -/
noncomputable def disagreements (T E : Gen.Mx d) : Nat :=
  (Finset.univ.filter (fun e : Fin d × Fin d => e.2 ≤ e.1 ∧ ¬ Concur T E e.1 e.2)).card

theorem tri_edge {E : Gen.Mx d} (h : Tri E) (i j : Fin d) : Edge E i j ↔ E i j = 1 ∨ E i j = -1 := by
  unfold Edge
  rcases h i j with h | h | h <;> rw [h] <;> norm_num

theorem one_ne_neg {E : Gen.Mx d} {i j : Fin d} (h1 : E i j = 1) (h2 : E i j = -1) : False := by
  rw [h1] at h2; norm_num at h2

theorem edge_of_one {E : Gen.Mx d} {i j : Fin d} (h : E i j = 1) : Edge E i j := by unfold Edge; rw [h]; norm_num

theorem edge_of_neg {E : Gen.Mx d} {i j : Fin d} (h : E i j = -1) : Edge E i j := by unfold Edge; rw [h]; norm_num

/-- C134, with undirected edges: every reported edge is right, reversed or false, exclusively; the false discovery rate is one minus the share
of right edges, the true positive rate the share of true edges that are found, and if no pair of vertices is reported twice both are between
0 and 1. -/
theorem C134_rates_undirected (T E : Gen.Mx d) (hT : Simple T) (hE : Tri E) :
    let right := (where' (RightEdge T E)).card
    let r := countAccuracy T E
    r.nnz = (where' (Edge E)).card ∧
      r.nnz = right + (where' (ReversedEdge T E)).card + (where' (FalseEdge T E)).card ∧
      (0 < r.nnz → r.fdr = 1 - (right : ℝ) / r.nnz) ∧
      (0 < (where' (Edge T)).card → r.tpr = (right : ℝ) / (where' (Edge T)).card) ∧
      0 ≤ r.fdr ∧ r.fdr ≤ 1 ∧ 0 ≤ r.tpr ∧ (Simple E → r.tpr ≤ 1) := by
  classical
  intro right r
  have hnnz : (where' (fun i j => E i j = 1)).card + (where' (fun i j => E i j = -1)).card = (where' (Edge E)).card := by
    rw [← Finset.card_union_of_disjoint]
    · congr 1
      ext e
      rw [Finset.mem_union, mem_where, mem_where, mem_where, tri_edge hE]
    · rw [Finset.disjoint_left]
      intro e h1 h2
      rw [mem_where] at h1 h2
      exact one_ne_neg h1 h2
  have hright : (where' (fun i j => E i j = 1) ∩ where' (fun i j => T i j ≠ 0)).card +
      (where' (fun i j => E i j = -1) ∩ (where' (fun i j => T i j ≠ 0) ∪ where' (fun i j => T.transpose i j ≠ 0))).card = right := by
    rw [← Finset.card_union_of_disjoint]
    · congr 1
      ext e
      simp only [Finset.mem_union, Finset.mem_inter, mem_where, RightEdge, Edge, Matrix.transpose_apply]
    · rw [Finset.disjoint_left]
      intro e h1 h2
      rw [Finset.mem_inter, mem_where] at h1 h2
      exact one_ne_neg h1.1 h2.1
  have hfalse : (where' (fun i j => E i j = 1) \ (where' (fun i j => T i j ≠ 0) ∪ where' (fun i j => T.transpose i j ≠ 0))).card +
      (where' (fun i j => E i j = -1) \ (where' (fun i j => T i j ≠ 0) ∪ where' (fun i j => T.transpose i j ≠ 0))).card =
      (where' (FalseEdge T E)).card := by
    rw [← Finset.card_union_of_disjoint]
    · congr 1
      ext e
      simp only [Finset.mem_union, Finset.mem_sdiff, mem_where, FalseEdge, tri_edge hE e.1 e.2]
      simp only [Edge, Matrix.transpose_apply]
      tauto
    · rw [Finset.disjoint_left]
      intro e h1 h2
      rw [Finset.mem_sdiff, mem_where] at h1 h2
      exact one_ne_neg h1.1 h2.1
  have hrev : ((where' (fun i j => E i j = 1) \ where' (fun i j => T i j ≠ 0)) ∩ where' (fun i j => T.transpose i j ≠ 0)) =
      where' (ReversedEdge T E) := by
    ext e
    simp only [Finset.mem_inter, Finset.mem_sdiff, mem_where, ReversedEdge, Matrix.transpose_apply]
    constructor
    · rintro ⟨⟨h1, -⟩, h2⟩; exact ⟨h1, h2⟩
    · rintro ⟨h1, h2⟩; exact ⟨⟨h1, fun h => hT _ _ h h2⟩, h2⟩
  have hsum : (where' (Edge E)).card = right + (where' (ReversedEdge T E)).card + (where' (FalseEdge T E)).card := by
    show _ = (where' (RightEdge T E)).card + _ + _
    rw [← Finset.card_union_of_disjoint, ← Finset.card_union_of_disjoint]
    · congr 1
      ext e
      simp only [Finset.mem_union, mem_where, RightEdge, ReversedEdge, FalseEdge, tri_edge hE e.1 e.2]
      tauto
    · rw [Finset.disjoint_left]
      intro e h1 h2
      simp only [Finset.mem_union, mem_where, RightEdge, ReversedEdge, FalseEdge] at h1 h2
      tauto
    · rw [Finset.disjoint_left]
      intro e h1 h2
      simp only [mem_where, RightEdge, ReversedEdge] at h1 h2
      rcases h1 with h1 | h1
      · exact hT _ _ h1.2 h2.2
      · exact one_ne_neg h2.1 h1.1
  have hcond : where' (fun i j => T i j ≠ 0) = where' (Edge T) := rfl
  have hr : r = countAccuracy T E := rfl
  unfold countAccuracy at hr
  simp only [hnnz, hright, hfalse, hrev] at hr
  simp only [hcond] at hr
  have hbad : (where' (ReversedEdge T E)).card + (where' (FalseEdge T E)).card = (where' (Edge E)).card - right := by omega
  rw [hbad] at hr
  have hle : right ≤ (where' (Edge E)).card := by omega
  rw [hr]
  refine ⟨rfl, hsum, fun h => ?_, fun h => ?_, ?_, ?_, ?_, fun hs => ?_⟩
  · simp only at h ⊢
    have h1 : 1 ≤ (where' (Edge E)).card := h
    rw [max_eq_left h1, Nat.cast_sub hle]
    have : ((where' (Edge E)).card : ℝ) ≠ 0 := by positivity
    field_simp
  · simp only
    have h1 : 1 ≤ (where' (Edge T)).card := h
    rw [max_eq_left h1]
  · positivity
  · simp only
    rw [div_le_one (by positivity)]
    exact_mod_cast (Nat.sub_le _ _).trans (le_max_left _ _)
  · positivity
  · -- every right entry finds its own true edge
    simp only
    rw [div_le_one (by positivity)]
    have hle2 : right ≤ (where' (Edge T)).card := by
      refine Finset.card_le_card_of_injOn (fun e => if Edge T e.1 e.2 then e else e.swap) ?_ ?_
      · intro e he
        simp only [Finset.mem_coe, mem_where] at he ⊢
        by_cases h : Edge T e.1 e.2
        · simp only [if_pos h]; exact h
        · simp only [if_neg h, Prod.fst_swap, Prod.snd_swap]
          rcases he with h1 | h1
          · exact absurd h1.2 h
          · exact h1.2.resolve_left h
      · intro e he f hf hef
        simp only [Finset.mem_coe, mem_where] at he hf
        have hee : Edge E e.1 e.2 := he.elim (fun h => edge_of_one h.1) (fun h => edge_of_neg h.1)
        have hff : Edge E f.1 f.2 := hf.elim (fun h => edge_of_one h.1) (fun h => edge_of_neg h.1)
        by_cases h1 : Edge T e.1 e.2 <;> by_cases h2 : Edge T f.1 f.2
        · simpa [h1, h2] using hef
        · simp only [if_pos h1, if_neg h2] at hef
          rw [hef] at hee
          exact absurd hff (hs _ _ hee)
        · simp only [if_neg h1, if_pos h2] at hef
          rw [← hef] at hff
          exact absurd hee (hs _ _ hff)
        · simp only [if_neg h1, if_neg h2] at hef
          exact Prod.swap_injective hef
    exact_mod_cast hle2.trans (le_max_left _ _)

/-- one pair of vertices: the three counts of `shd` together are the disagreement -/
theorem pair_cases (p : Prop) (x y s t : ℝ) (hx : x = 0 ∨ x = 1 ∨ x = -1) (hy : y = 0 ∨ y = 1 ∨ y = -1) (hxy : x ≠ 0 → ¬ y ≠ 0)
    (hst : s ≠ 0 → ¬ t ≠ 0) :
    (((p ∧ (x ≠ 0 ∨ y ≠ 0)) ∧ ¬ (p ∧ (s ≠ 0 ∨ t ≠ 0)) ∨ (p ∧ (s ≠ 0 ∨ t ≠ 0)) ∧ ¬ (p ∧ (x ≠ 0 ∨ y ≠ 0))) ∨
      p ∧ (x = 1 ∧ t ≠ 0 ∨ y = 1 ∧ s ≠ 0)) ↔
    p ∧ ¬ ((x ≠ 0 ∨ y ≠ 0 ↔ s ≠ 0 ∨ t ≠ 0) ∧ (x = 1 → s ≠ 0) ∧ (y = 1 → t ≠ 0)) := by
  have a3 : ¬ (-1 : ℝ) = 1 := by norm_num
  by_cases h1 : s = 0 <;> by_cases h2 : t = 0 <;> by_cases hp : p <;>
    rcases hx with rfl | rfl | rfl <;> rcases hy with rfl | rfl | rfl <;> simp_all

/-- C134, with undirected edges: `shd` is the number of pairs of vertices on which the estimate disagrees with the true graph; an undirected
edge agrees with either direction. -/
theorem C134_shd_undirected (T E : Gen.Mx d) (hT : Simple T) (hE : Tri E) (hE2 : Simple E) :
    (countAccuracy T E).shd = disagreements T E := by
  classical
  have hpl : where' (fun i j => tril 0 (E + E.transpose) i j ≠ 0) = where' (fun i j => j ≤ i ∧ (Edge E i j ∨ Edge E j i)) := by
    ext e; rw [mem_where, mem_where, tril_ne, sum_ne hE2]
  have hcl : where' (fun i j => tril 0 (T + T.transpose) i j ≠ 0) = where' (fun i j => j ≤ i ∧ (Edge T i j ∨ Edge T j i)) := by
    ext e; rw [mem_where, mem_where, tril_ne, sum_ne hT]
  have hrev : ((where' (fun i j => E i j = 1) \ where' (fun i j => T i j ≠ 0)) ∩ where' (fun i j => T.transpose i j ≠ 0)) =
      where' (ReversedEdge T E) := by
    ext e
    simp only [Finset.mem_inter, Finset.mem_sdiff, mem_where, ReversedEdge, Matrix.transpose_apply]
    constructor
    · rintro ⟨⟨h1, -⟩, h2⟩; exact ⟨h1, h2⟩
    · rintro ⟨h1, h2⟩; exact ⟨⟨h1, fun h => hT _ _ h h2⟩, h2⟩
  have hshd : (countAccuracy T E).shd =
      (where' (fun i j => j ≤ i ∧ (Edge E i j ∨ Edge E j i)) \ where' (fun i j => j ≤ i ∧ (Edge T i j ∨ Edge T j i))).card +
      (where' (fun i j => j ≤ i ∧ (Edge T i j ∨ Edge T j i)) \ where' (fun i j => j ≤ i ∧ (Edge E i j ∨ Edge E j i))).card +
      (where' (ReversedEdge T E)).card := by
    unfold countAccuracy
    simp only [hpl, hcl, hrev]
  rw [hshd]
  have hrevcard : (where' (ReversedEdge T E)).card =
      (where' (fun i j : Fin d => j ≤ i ∧ (ReversedEdge T E i j ∨ ReversedEdge T E j i))).card := by
    refine Finset.card_bij' (fun e _ => if e.2 ≤ e.1 then e else e.swap)
      (fun e _ => if ReversedEdge T E e.1 e.2 then e else e.swap) ?_ ?_ ?_ ?_
    · intro e he
      rw [mem_where] at he ⊢
      by_cases h : e.2 ≤ e.1
      · simp only [if_pos h]; exact ⟨h, .inl he⟩
      · simp only [if_neg h, Prod.fst_swap, Prod.snd_swap]
        exact ⟨(not_le.1 h).le, .inr he⟩
    · intro e he
      rw [mem_where] at he ⊢
      by_cases h : ReversedEdge T E e.1 e.2
      · simp only [if_pos h]; exact h
      · simp only [if_neg h, Prod.fst_swap, Prod.snd_swap]
        exact he.2.resolve_left h
    · intro e he
      rw [mem_where] at he
      have hn : ¬ ReversedEdge T E e.2 e.1 := fun h => hE2 _ _ (edge_of_one he.1) (edge_of_one h.1)
      by_cases h : e.2 ≤ e.1
      · simp only [if_pos h, if_pos he]
      · simp only [if_neg h, Prod.fst_swap, Prod.snd_swap, if_neg hn, Prod.swap_swap]
    · intro e he
      rw [mem_where] at he
      by_cases h : ReversedEdge T E e.1 e.2
      · simp only [if_pos h, if_pos he.1]
      · simp only [if_neg h, Prod.fst_swap, Prod.snd_swap]
        have h2 := he.2.resolve_left h
        have hne : ¬ e.1 ≤ e.2 := by
          intro hle
          have heq : e.1 = e.2 := le_antisymm hle he.1
          rw [← heq] at h2 h
          exact h h2
        rw [if_neg hne, Prod.swap_swap]
  rw [hrevcard]
  unfold disagreements
  rw [← Finset.card_union_of_disjoint, ← Finset.card_union_of_disjoint]
  · congr 1
    ext ⟨i, j⟩
    rw [Finset.mem_filter]
    simp only [Finset.mem_union, Finset.mem_sdiff, mem_where, Finset.mem_univ, true_and, Concur, ReversedEdge, Edge]
    exact pair_cases (j ≤ i) (E i j) (E j i) (T i j) (T j i) (hE i j) (hE j i) (hE2 i j) (hT i j)
  · rw [Finset.disjoint_left]
    intro e h1 h2
    simp only [Finset.mem_union, Finset.mem_sdiff, mem_where] at h1 h2
    rcases h2.2 with h3 | h3
    · have b1 := edge_of_one h3.1
      have b2 := h3.2
      tauto
    · have b1 := edge_of_one h3.1
      have b2 := h3.2
      tauto
  · rw [Finset.disjoint_left]
    intro e h1 h2
    simp only [Finset.mem_sdiff, mem_where] at h1 h2
    tauto

/-- the chain `0 → 1 → 2` with its first edge undirected -/
def chainUnd : Gen.Mx 3 := Matrix.of ![![0, -1, 0], ![0, 0, 1], ![0, 0, 0]]

/-- the hypotheses of both theorems hold for an estimate with a directed and an undirected edge -/
example : Tri chainUnd ∧ Simple chainUnd ∧ Simple upper3 := by
  refine ⟨?_, ?_, upper3_bin.2.2.1⟩ <;> intro i j <;> fin_cases i <;> fin_cases j <;> simp [chainUnd, Edge]

/-- an undirected edge listed in both directions -/
def twiceUnd : Gen.Mx 2 := Matrix.of ![![0, -1], ![-1, 0]]

def oneEdge2 : Gen.Mx 2 := Matrix.of ![![0, 1], ![0, 0]]

/-- C134: the checks of the estimate are commented out (gen.py:337-345), so an undirected edge listed twice is counted twice: the true positive
rate becomes 2. -/
theorem C134_twice_refuted : Tri twiceUnd ∧ Simple oneEdge2 ∧ (countAccuracy oneEdge2 twiceUnd).tpr = 2 := by
  classical
  have hT : Simple oneEdge2 := by intro i j; fin_cases i <;> fin_cases j <;> simp [oneEdge2, Edge]
  have hE : Tri twiceUnd := by intro i j; fin_cases i <;> fin_cases j <;> simp [twiceUnd]
  refine ⟨hE, hT, ?_⟩
  have hc : where' (Edge oneEdge2) = {((0 : Fin 2), (1 : Fin 2))} := by
    ext ⟨i, j⟩; rw [mem_where]; fin_cases i <;> fin_cases j <;> simp [oneEdge2, Edge]
  have hr : where' (RightEdge oneEdge2 twiceUnd) = {((0 : Fin 2), (1 : Fin 2)), (1, 0)} := by
    ext ⟨i, j⟩; rw [mem_where]; fin_cases i <;> fin_cases j <;> simp [oneEdge2, twiceUnd, Edge, RightEdge] <;> norm_num
  have h := (C134_rates_undirected oneEdge2 twiceUnd hT hE).2.2.2.1 (by rw [hc]; simp)
  rw [h, hc, hr]
  norm_num
end Undirected
end YL.Props
