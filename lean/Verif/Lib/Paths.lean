import Verif.Model.Frontdoor
import Verif.Lib.Mdg

/-! Simple paths. -/

set_option linter.unusedSectionVars false

namespace YL

open Spec

variable {α : Type} [DecidableEq α]

theorem mem_simplePaths (next : α → List α) (T : List α) : ∀ (f : Nat) (vis : List α) (u : α) (p : List α),
    p ∈ simplePaths next T f vis u ↔ p.length ≤ f ∧ p.head? = some u ∧ p.IsChain (fun a b => b ∈ next a) ∧
      p.Nodup ∧ (∀ v ∈ p.tail, v ∉ vis) ∧ ∃ t ∈ T, p.getLast? = some t := by
  intro f
  induction f with
  | zero =>
    intro vis u p
    simp only [simplePaths, List.not_mem_nil, false_iff]
    rintro ⟨h1, h2, _⟩
    have : p = [] := List.length_eq_zero_iff.1 (Nat.le_zero.1 h1)
    subst this; cases h2
  | succ f ih =>
    intro vis u p
    rw [simplePaths, List.mem_append, List.mem_flatMap]
    constructor
    · rintro (h | ⟨v, hv, hp⟩)
      · split at h
        · rename_i hu
          rw [List.mem_singleton] at h; subst h
          refine ⟨by simp, rfl, by simp, by simp, by simp, u, hu, rfl⟩
        · cases h
      · rw [List.mem_filter, decide_eq_true_eq] at hv
        rw [List.mem_map] at hp
        obtain ⟨q, hq, rfl⟩ := hp
        obtain ⟨k1, k2, k3, k4, k5, t, k6, k7⟩ := (ih _ _ _).1 hq
        cases q with
        | nil => cases k2
        | cons w q =>
          simp only [List.head?_cons, Option.some.injEq] at k2
          subst k2
          simp only [List.tail_cons, List.mem_cons, not_or] at k5 hv
          refine ⟨by simpa using k1, rfl, List.isChain_cons_cons.2 ⟨hv.1, k3⟩, ?_, ?_, t, k6, by simpa using k7⟩
          · rw [List.nodup_cons]
            refine ⟨?_, k4⟩
            simp only [List.mem_cons, not_or]
            exact ⟨fun h => hv.2.1 h.symm, fun h => (k5 u h).1 rfl⟩
          · intro x hx
            simp only [List.tail_cons, List.mem_cons] at hx
            rcases hx with rfl | hx
            · exact hv.2.2
            · exact (k5 x hx).2
    · rintro ⟨k1, k2, k3, k4, k5, t, k6, k7⟩
      cases p with
      | nil => cases k2
      | cons w p =>
        simp only [List.head?_cons, Option.some.injEq] at k2
        subst k2
        cases p with
        | nil =>
          left
          simp only [List.getLast?_singleton, Option.some.injEq] at k7
          subst k7
          simp [k6]
        | cons v q =>
          right
          rw [List.isChain_cons_cons] at k3
          have hwn := (List.nodup_cons.1 k4)
          refine ⟨v, ?_, ?_⟩
          · rw [List.mem_filter, decide_eq_true_eq]
            refine ⟨k3.1, ?_⟩
            simp only [List.mem_cons, not_or]
            exact ⟨fun h => hwn.1 (by simp [h]), k5 v (by simp)⟩
          · refine List.mem_map.2 ⟨v :: q, (ih _ _ _).2 ⟨by simpa using k1, rfl, k3.2, hwn.2, ?_, t, k6, by simpa using k7⟩, rfl⟩
            intro x hx
            simp only [List.tail_cons] at hx
            simp only [List.mem_cons, not_or]
            exact ⟨fun h => hwn.1 (by simp [← h, hx]), k5 x (by simp [hx])⟩

theorem nodup_simplePaths (next : α → List α) (hn : ∀ a, (next a).Nodup) (T : List α) :
    ∀ (f : Nat) (vis : List α) (u : α), (simplePaths next T f vis u).Nodup := by
  intro f
  induction f with
  | zero => intro vis u; simp [simplePaths]
  | succ f ih =>
    intro vis u
    rw [simplePaths, List.nodup_append']
    refine ⟨by split <;> simp, ?_, ?_⟩
    · rw [List.nodup_flatMap]
      refine ⟨fun v _ => (ih _ _).map (fun a b h => by simpa using h), ?_⟩
      refine ((hn u).filter _).imp ?_
      intro a b hab l hl hl'
      rw [List.mem_map] at hl hl'
      obtain ⟨q, hq, rfl⟩ := hl
      obtain ⟨q', hq', h⟩ := hl'
      simp only [List.cons.injEq, true_and] at h
      subst h
      have h1 := ((mem_simplePaths next T f _ _ _).1 hq).2.1
      have h2 := ((mem_simplePaths next T f _ _ _).1 hq').2.1
      rw [h1] at h2
      exact hab (Option.some.inj h2)
    · intro p hp hp'
      split at hp
      · rw [List.mem_singleton] at hp; subst hp
        rw [List.mem_flatMap] at hp'
        obtain ⟨v, _, h⟩ := hp'
        rw [List.mem_map] at h
        obtain ⟨q, hq, h⟩ := h
        simp only [List.cons.injEq, true_and] at h
        subst h
        have := ((mem_simplePaths next T f _ _ _).1 hq).2.1
        cases this
      · cases hp

/-- Chains stay inside a set closed under the relation. -/
theorem chain_mem {R : α → α → Prop} {N : List α} (hR : ∀ a b, R a b → b ∈ N) : ∀ (p : List α) (s : α),
    p.head? = some s → s ∈ N → p.IsChain R → ∀ v ∈ p, v ∈ N := by
  intro p
  induction p with
  | nil => intro s _ _ _ v hv; cases hv
  | cons a p ih =>
    intro s hs hsN hc v hv
    simp only [List.head?_cons, Option.some.injEq] at hs
    subst hs
    cases p with
    | nil => simp only [List.mem_singleton] at hv; subst hv; exact hsN
    | cons b p =>
      rw [List.isChain_cons_cons] at hc
      rcases List.mem_cons.1 hv with rfl | hv
      · exact hsN
      · exact ih b rfl (hR _ _ hc.1) hc.2 v hv

/-- `nx.all_simple_paths` for known nodes. -/
theorem mem_allSimplePaths [CharNames α] {N : List α} {next : α → List α} {s t : α} (hN : ∀ a b, b ∈ next a → b ∈ N)
    (ht : t ∈ N) {ps : List (List α)} (h : allSimplePaths N next s t = .ok ps) (p : List α) :
    p ∈ ps ↔ s ≠ t ∧ p.Nodup ∧ p.IsChain (fun a b => b ∈ next a) ∧ p.head? = some s ∧ p.getLast? = some t := by
  unfold allSimplePaths at h
  split at h
  · rename_i hs
    simp only [if_pos ht, List.mem_singleton] at h
    split at h
    · rename_i hst
      cases h; simp [hst]
    · rename_i hst
      cases h
      rw [mem_simplePaths]
      constructor
      · rintro ⟨h1, h2, h3, h4, _, t', ht', h6⟩
        rw [List.mem_singleton] at ht'; subst ht'
        exact ⟨hst, h4, h3, h2, h6⟩
      · rintro ⟨_, h4, h3, h2, h6⟩
        refine ⟨?_, h2, h3, h4, by simp, t, by simp, h6⟩
        have hsub := chain_mem hN p s h2 hs h3
        exact (h4.subperm hsub).length_le
  · cases h

theorem nodup_allSimplePaths [CharNames α] {N : List α} {next : α → List α} {s t : α} (hn : ∀ a, (next a).Nodup)
    {ps : List (List α)} (h : allSimplePaths N next s t = .ok ps) : ps.Nodup := by
  unfold allSimplePaths at h
  split at h
  · dsimp only at h
    generalize (if t ∈ N then [t] else CharNames.chars t) = T at h
    by_cases hs : s ∈ T
    · rw [if_pos hs] at h; cases h; simp
    · rw [if_neg hs] at h; cases h; exact nodup_simplePaths _ hn _ _ _ _
  · cases h

end YL
