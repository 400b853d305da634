import Verif.Model.CausalGraph
import Mathlib.Data.List.Sublists
import Mathlib.Data.List.Pairwise

/-! `powerset` of causal_model/utils.py enumerates the sublists by size. -/

namespace YL

variable {α : Type} [DecidableEq α]

theorem mem_combinations : ∀ (s : List α) (r : Nat) (l : List α),
    l ∈ combinations s r ↔ l.Sublist s ∧ l.length = r := by
  intro s
  induction s with
  | nil =>
    intro r l
    cases r with
    | zero => simp [combinations]
    | succ r =>
      simp only [combinations, List.not_mem_nil, List.sublist_nil, false_iff, not_and]
      rintro rfl; simp
  | cons a s ih =>
    intro r l
    cases r with
    | zero =>
      simp only [combinations, List.mem_singleton]
      constructor
      · rintro rfl; simp
      · intro h; exact List.eq_nil_of_length_eq_zero h.2
    | succ r =>
      simp only [combinations, List.mem_append, List.mem_map, ih]
      constructor
      · rintro (⟨t, ⟨h1, h2⟩, rfl⟩ | ⟨h1, h2⟩)
        · exact ⟨h1.cons_cons a, by simp [h2]⟩
        · exact ⟨h1.cons a, h2⟩
      · rintro ⟨h1, h2⟩
        cases h1 with
        | cons _ h => exact .inr ⟨h, h2⟩
        | cons_cons _ h => exact .inl ⟨_, ⟨h, by simpa using h2⟩, rfl⟩

theorem nodup_combinations : ∀ (s : List α), s.Nodup → ∀ r, (combinations s r).Nodup := by
  intro s
  induction s with
  | nil => intro _ r; cases r <;> simp [combinations]
  | cons a s ih =>
    intro hs r
    cases r with
    | zero => simp [combinations]
    | succ r =>
      simp only [combinations]
      rw [List.nodup_append]
      refine ⟨(ih hs.of_cons r).map (fun x y h => by simpa using h), ih hs.of_cons _, ?_⟩
      intro l hl m hm
      rw [List.mem_map] at hl
      obtain ⟨t, _, rfl⟩ := hl
      rintro rfl
      have := ((mem_combinations s _ _).1 hm).1
      exact (List.nodup_cons.1 hs).1 (this.subset (by simp))

theorem mem_powerset {s l : List α} : l ∈ powerset s ↔ l.Sublist s := by
  unfold powerset
  rw [List.mem_flatMap]
  constructor
  · rintro ⟨r, _, h⟩; exact ((mem_combinations s r l).1 h).1
  · intro h
    exact ⟨l.length, by rw [List.mem_range]; have := h.length_le; omega, (mem_combinations s _ l).2 ⟨h, rfl⟩⟩

theorem powerset_sorted (s : List α) : (powerset s).Pairwise (fun a b => a.length ≤ b.length) := by
  unfold powerset
  rw [List.pairwise_flatMap]
  constructor
  · intro r _
    refine List.pairwise_of_forall_mem_list ?_
    intro a ha b hb
    rw [((mem_combinations s r a).1 ha).2, ((mem_combinations s r b).1 hb).2]
  · refine List.Pairwise.imp ?_ List.pairwise_lt_range
    intro r r' hr a ha b hb
    rw [((mem_combinations s r a).1 ha).2, ((mem_combinations s r' b).1 hb).2]
    exact hr.le

theorem nodup_powerset {s : List α} (hs : s.Nodup) : (powerset s).Nodup := by
  unfold powerset
  rw [List.Nodup, List.pairwise_flatMap]
  constructor
  · intro r _; exact nodup_combinations s hs r
  · refine List.Pairwise.imp ?_ List.pairwise_lt_range
    intro r r' hr a ha b hb hab
    have h1 := ((mem_combinations s r a).1 ha).2
    have h2 := ((mem_combinations s r' b).1 hb).2
    rw [hab] at h1; omega

theorem length_powerset {s : List α} (hs : s.Nodup) : (powerset s).length = 2 ^ s.length := by
  have : (powerset s).Perm s.sublists := by
    rw [List.perm_ext_iff_of_nodup (nodup_powerset hs) (List.nodup_sublists.2 hs)]
    intro l; rw [mem_powerset, List.mem_sublists]
  rw [this.length_eq, List.length_sublists]

/-- The sublist of `s` with a given set of elements. -/
theorem filter_mem_powerset (s : List α) (p : α → Bool) : s.filter p ∈ powerset s :=
  mem_powerset.2 List.filter_sublist

theorem eq_filter_of_sublist {s l : List α} (hs : s.Nodup) (h : l.Sublist s) : l = s.filter (· ∈ l) := by
  induction h with
  | slnil => rfl
  | cons a h ih =>
    rename_i l₁ l₂
    have ha : a ∉ l₁ := fun h' => (List.nodup_cons.1 hs).1 (h.subset h')
    rw [List.filter_cons_of_neg (by simpa using ha)]
    exact ih hs.of_cons
  | cons_cons a h ih =>
    rename_i l₁ l₂
    rw [List.filter_cons_of_pos (by simp)]
    congr 1
    have := ih hs.of_cons
    conv_lhs => rw [this]
    apply List.filter_congr
    intro x hx
    have : x ≠ a := by rintro rfl; exact (List.nodup_cons.1 hs).1 hx
    simp [this]

end YL
