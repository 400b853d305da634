import Verif.Lib.Explicit
import Verif.Props.Graph

/-!
# C08: the graph with explicit latent variables
-/

namespace YL.Props

open YL Spec LatentNames

variable {α : Type} [DecidableEq α] [LatentNames α]

/-- C08. For an acyclic causation with declared arcs between distinct nodes, and provided no node is
called `U0, U1, ...`, the explicit graph is acyclic; between ordinary names it has exactly the observed
edges; latent names have no parents; and for every declared arc `{a, b}` there is exactly one latent name
whose children are exactly `a` and `b`, while each latent name that occurs belongs to a declared arc.
Missing: graphs that use such a name, for which the claim is false (`C08_name_clash`). -/
theorem C08_explicit_faithful_partial (c : Causation α) (A : List (α × α)) (h : IsDiagram c A U) :
    IsExplicit c A U (CG.init c A).explicitDag.E := by
  obtain ⟨hac, hA, hU'⟩ := h
  have hU := fun i => (hU' i).2
  have hf : (CG.init c A).FreshNames := by
    refine ⟨fun i h => ?_, fun i => (hU i).1⟩
    rw [CG.mem_nodes_init] at h
    rcases h with h | ⟨u, h⟩
    · exact (hU i).1 h
    · exact (hU i).2 u h
  obtain ⟨k1, k2, k3⟩ := C03_latentArcs_exact c A hac hA
  have hwf := CG.wf_init c A
  have hLat : ∀ i v, (CG.init c A).explicitDag.E (U i) v ↔
      ∃ e, (CG.init c A).latentArcs[i]? = some e ∧ (v = e.1 ∨ v = e.2) := by
    intro i v
    rw [CG.E_explicit]
    constructor
    · rintro (h | ⟨e, j, h, hij, hv⟩)
      · exact absurd ⟨v, .inr h⟩ ((hU i).1)
      · have := LatentNames.inj _ _ hij; subst this
        exact ⟨e, (List.mem_zipIdx_iff_getElem? (x := (e, i))).1 h, hv⟩
    · rintro ⟨e, h, hv⟩
      exact .inr ⟨e, i, (List.mem_zipIdx_iff_getElem? (x := (e, i))).2 h, rfl, hv⟩
  refine ⟨CG.acyclic_explicit hwf hf hac, ?_, CG.explicit_no_parent hwf hf |> fun h a i => h i a, ?_, ?_⟩
  · intro a b ha
    rw [CG.E_explicit]
    constructor
    · rintro (h | ⟨_, i, -, rfl, -⟩)
      · exact h
      · exact absurd rfl (ha i)
    · exact .inl
  · intro a b hab
    have hmem := (k2 a b).2 hab
    obtain ⟨e, he, hev⟩ : ∃ e, e ∈ (CG.init c A).latentArcs ∧ (e = (a, b) ∨ e = (b, a)) := by
      rcases hmem with h | h
      · exact ⟨_, h, .inl rfl⟩
      · exact ⟨_, h, .inr rfl⟩
    obtain ⟨i, hi⟩ := List.mem_iff_getElem?.1 he
    have hch : ∀ v, (v = e.1 ∨ v = e.2) ↔ (v = a ∨ v = b) := by
      rcases hev with rfl | rfl <;> intro v <;> simp [or_comm]
    refine ⟨i, ?_, ?_⟩
    · intro v
      rw [hLat, hi]
      simp only [Option.some.injEq, exists_eq_left', hch]
    · intro j hj
      have hja := (hj a).2 (.inl rfl)
      rw [hLat] at hja
      obtain ⟨f, hf', _⟩ := hja
      have hall : ∀ v, (v = f.1 ∨ v = f.2) ↔ (v = a ∨ v = b) := by
        intro v; rw [← hj v, hLat, hf']; simp
      have hne : a ≠ b := by
        rintro rfl; rcases hab with h | h <;> exact hA _ h
      obtain ⟨f1, f2⟩ := f
      have hfm : (f1, f2) ∈ (CG.init c A).latentArcs := List.mem_of_getElem? hf'
      have hf12 : f1 ≠ f2 := by
        rintro rfl
        exact k3 f1 f1 hfm hfm
      have h1 := (hall f1).1 (.inl rfl)
      have h2 := (hall f2).1 (.inr rfl)
      have hfe : (f1, f2) = e := by
        have : (f1, f2) = (a, b) ∨ (f1, f2) = (b, a) := by
          rcases h1 with rfl | rfl <;> rcases h2 with rfl | rfl
          · exact absurd rfl hf12
          · exact .inl rfl
          · exact .inr rfl
          · exact absurd rfl hf12
        rcases this with h | h <;> rcases hev with h' | h'
        · rw [h, h']
        · rw [h] at hfm; rw [h'] at he; exact absurd he (k3 _ _ hfm)
        · rw [h] at hfm; rw [h'] at he; exact absurd he (k3 _ _ hfm)
        · rw [h, h']
      rw [hfe] at hf'
      have h3 := List.getElem?_eq_some_iff.1 hf'
      have h4 := List.getElem?_eq_some_iff.1 hi
      obtain ⟨h3a, h3b⟩ := h3
      obtain ⟨h4a, h4b⟩ := h4
      exact (List.Nodup.getElem_inj_iff k1).1 (by rw [h3b, h4b])
  · intro i v h
    rw [hLat] at h
    obtain ⟨⟨a, b⟩, he, _⟩ := h
    refine ⟨a, b, (k2 a b).1 (.inl (List.mem_of_getElem? he)), ?_⟩
    intro w
    rw [hLat, he]; simp

/-- A computable test for `IsDiagram` on string names: acyclic, no self arcs, no name starting with U. -/
def diagramTest (c : Causation String) (A : List (String × String)) : Bool :=
  let ok : String → Bool := fun s => s.toList.head? != some 'U'
  (CG.init c A).isDag && A.all (fun e => e.1 != e.2 && ok e.1 && ok e.2) &&
    c.all (fun kv => ok kv.1 && kv.2.all ok)

theorem isDiagram_of_test (c : Causation String) (A : List (String × String)) (h : diagramTest c A = true) :
    IsDiagram c A (U (α := String)) := by
  have hU : ∀ i : Nat, (U i : String).toList.head? = some 'U' := fun i => by
    simp [LatentNames.U, latentName, String.toList_append]
  simp only [diagramTest, Bool.and_eq_true, List.all_eq_true, bne_iff_ne, ne_eq] at h
  obtain ⟨⟨h1, h2⟩, h3⟩ := h
  refine ⟨(C02_isDag_iff _).1 h1, fun a ha => (h2 _ ha).1.1 rfl, fun i => ⟨?_, ?_, ?_⟩⟩
  · rw [List.mem_map]
    rintro ⟨kv, hkv, heq⟩
    exact (h3 _ hkv).1 (heq ▸ hU i)
  · rintro ⟨u, ⟨ps, hp, hu⟩ | ⟨ps, hp, hu⟩⟩
    · exact (h3 _ hp).1 (hU i)
    · exact (h3 _ hp).2 _ hu (hU i)
  · rintro u (h | h)
    · exact (h2 _ h).2 (hU i)
    · exact (h2 _ h).1.2 (hU i)

/-- non-vacuity: the front-door graph satisfies the hypotheses -/
example : IsDiagram [("x", []), ("m", ["x"]), ("y", ["m"])] [("x", "y")] (U (α := String)) :=
  isDiagram_of_test _ _ (by decide)

example : (CG.init [("x", []), ("m", ["x"]), ("y", ["m"])] [("x", "y")]).explicitDag.edges =
    [("x", "m", .num 0), ("m", "y", .num 0), ("U0", "x", .n), ("U0", "y", .n)] := by decide

/-- C08, violation: a user variable called `U0` is confused with the latent variable of the first arc;
here `is_d_separated` says that `a` and `b` are dependent given nothing although `U0` has no effect on
either of them and the arc joins `b` and `c`. -/
theorem C08_name_clash :
    (CG.init [("U0", ["a"]), ("a", []), ("b", ["d"]), ("c", ["d"]), ("d", [])] [("b", "c")]).isDSeparated
      ["a"] ["b"] [] = .ok false ∧
    (CG.init [("V", ["a"]), ("a", []), ("b", ["d"]), ("c", ["d"]), ("d", [])] [("b", "c")]).isDSeparated
      ["a"] ["b"] [] = .ok true := by decide +kernel

end YL.Props
