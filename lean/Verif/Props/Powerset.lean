import Verif.Lib.Powerset

/-! # C25: powerset -/

namespace YL.Props

open YL

variable {α : Type} [DecidableEq α]

/-- C25. For an iterable without repeats, `powerset` yields every subset exactly once, never with a repeated
element, in non-decreasing size, `2^n` in total. -/
theorem C25_powerset_exact (s : List α) (hs : s.Nodup) :
    (∀ T : Finset α, T ⊆ s.toFinset → ∃ l ∈ powerset s, l.toFinset = T ∧ ∀ l' ∈ powerset s, l'.toFinset = T → l' = l) ∧
    (∀ l ∈ powerset s, l.Nodup ∧ l.toFinset ⊆ s.toFinset) ∧ (powerset s).Nodup ∧
    (powerset s).Pairwise (fun a b => a.length ≤ b.length) ∧ (powerset s).length = 2 ^ s.length := by
  refine ⟨?_, ?_, nodup_powerset hs, powerset_sorted s, length_powerset hs⟩
  · intro T hT
    refine ⟨s.filter (· ∈ T), filter_mem_powerset s _, ?_, ?_⟩
    · ext a; simp only [List.mem_toFinset, List.mem_filter, decide_eq_true_eq]
      exact ⟨fun h => h.2, fun h => ⟨List.mem_toFinset.1 (hT h), h⟩⟩
    · intro l hl hlT
      rw [eq_filter_of_sublist hs (mem_powerset.1 hl)]
      apply List.filter_congr
      intro x _
      rw [← hlT]; simp
  · intro l hl
    have := mem_powerset.1 hl
    exact ⟨hs.sublist this, fun a ha => List.mem_toFinset.2 (this.subset (List.mem_toFinset.1 ha))⟩

example : powerset ["a", "b", "c"] =
    [[], ["a"], ["b"], ["c"], ["a", "b"], ["a", "c"], ["b", "c"], ["a", "b", "c"]] := by decide

/-- C25, boundary: for an iterable with repeats subsets are repeated too. -/
theorem C25_repeats : powerset ["a", "a"] = [[], ["a"], ["a"], ["a", "a"]] := by decide

end YL.Props
