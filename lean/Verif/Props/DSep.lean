import Verif.Lib.DSep
import Verif.Lib.Bayes
import Verif.Props.Explicit

/-!
# C09, C10: d-separation
-/

namespace YL.Props

open YL Spec LatentNames

variable {α : Type} [DecidableEq α] [LatentNames α]

theorem diagram_fresh {c : Causation α} {A : List (α × α)} (h : IsDiagram c A U) :
    (CG.init c A).FreshNames := by
  refine ⟨fun i hi => ?_, fun i => (h.fresh i).2.1⟩
  rw [CG.mem_nodes_init] at hi
  rcases hi with hi | ⟨u, hi⟩
  · exact (h.fresh i).2.1 hi
  · exact (h.fresh i).2.2 u hi

/-- C09. `is_d_separated(x, y, z)` on a causal diagram: if every node mentioned has an edge or an arc, the
answer is the textbook one (no simple path from `x` to `y` in the diagram with explicit latent variables is
active given `z`). Sets `x` and `y` must be disjoint from `z`. If some mentioned node has neither edge nor
arc, the call raises NodeNotFound instead of answering (so the property as stated fails there, see
`C09_isolated_node`). -/
theorem C09_isDSeparated_exact (c : Causation α) (A : List (α × α)) (h : IsDiagram c A U) :
    ∃ G, IsExplicit c A U G ∧ ∀ x y z : List α, (∀ a ∈ x, a ∉ z) → (∀ a ∈ y, a ∉ z) →
      ((∀ v ∈ x ++ y ++ z, ∃ u, Adj G u v) →
        ∃ b, (CG.init c A).isDSeparated x y z = .ok b ∧
          (b = true ↔ DSep G {a | a ∈ x} {a | a ∈ y} {a | a ∈ z})) ∧
      ((∃ v ∈ x ++ y ++ z, ∀ u, ¬ Adj G u v) →
        (CG.init c A).isDSeparated x y z = .error .nodeNotFound) := by
  have hE := C08_explicit_faithful_partial c A h
  have hf := diagram_fresh h
  have hwf := CG.wf_explicit (CG.init c A)
  refine ⟨_, hE, fun x y z hxz hyz => ⟨fun hin => ?_, fun hmiss => ?_⟩⟩
  · obtain ⟨b, h1, h2⟩ := MDG.dSeparated_eq hwf (CG.simple_explicit hf) hE.acyclic x y z
      (fun v hv => by
        obtain ⟨u, hu⟩ := hin v hv
        exact CG.mem_nodes_explicit.2 ⟨u, hu⟩)
    refine ⟨b, h1, ?_⟩
    have hd := dsep_iff_not_connected hE.acyclic {a | a ∈ x} {a | a ∈ y} {a | a ∈ z} hxz hyz
    have : ({a | a ∈ x} ∪ {a | a ∈ y} ∪ {a | a ∈ z} : Set α) = {t | t ∈ x ++ y ++ z} := by
      ext t; simp [or_assoc]
    rw [this] at hd
    exact h2.trans hd.symm
  · obtain ⟨v, hv, hu⟩ := hmiss
    refine MDG.dSeparated_missing hwf hE.acyclic x y z ⟨v, hv, fun hm => ?_⟩
    obtain ⟨u, h'⟩ := CG.mem_nodes_explicit.1 hm
    exact hu u h'

/-- non-vacuity: both answers occur; the collider opens when conditioned on -/
example : (CG.init [("x", []), ("y", []), ("w", ["x", "y"]), ("d", ["w"])] [("x", "d")]).isDSeparated
      ["x"] ["y"] [] = .ok true ∧
    (CG.init [("x", []), ("y", []), ("w", ["x", "y"]), ("d", ["w"])] [("x", "d")]).isDSeparated
      ["x"] ["y"] ["d"] = .ok false := by decide +kernel

/-- C09, boundary: a node without edges makes the call raise although separation is evident. -/
theorem C09_isolated_node :
    (CG.init [("x", []), ("y", ["x"]), ("w", [])] []).isDSeparated ["x"] ["w"] [] = .error .nodeNotFound := by
  decide +kernel

/-- C10. If `is_d_separated(x, y, z)` answers True then `x` and `y` are independent given `z` in every
discrete Bayesian network on the diagram with explicit latent variables (over any finite set of variables
that contains all nodes of the diagram). -/
theorem C10_dsep_sound (c : Causation α) (A : List (α × α)) (h : IsDiagram c A U) :
    ∃ G, IsExplicit c A U G ∧ ∀ x y z : List α,
      (CG.init c A).isDSeparated x y z = .ok true →
      ∀ (V : Finset α), (∀ a b, G a b → a ∈ V ∧ b ∈ V) →
      ∀ (Ω : α → Type) [∀ i, Fintype (Ω i)] (K : Type) [Field K] [LinearOrder K]
        (M : BayesNet (K := K) V G Ω), M.CondIndep x.toFinset y.toFinset z.toFinset := by
  have hE := C08_explicit_faithful_partial c A h
  have hf := diagram_fresh h
  have hwf := CG.wf_explicit (CG.init c A)
  refine ⟨_, hE, fun x y z hd V hV Ω _ K _ _ M v => ?_⟩
  have hin : ∀ v ∈ x ++ y ++ z, v ∈ (CG.init c A).explicitDag.nodes := by
    by_contra hn
    push Not at hn
    have h1 := MDG.dSeparated_missing hwf hE.acyclic x y z hn
    have h2 : (CG.init c A).explicitDag.dSeparated x y z = .ok true := hd
    rw [h1] at h2; cases h2
  have hinV : ∀ v ∈ x ++ y ++ z, v ∈ V := by
    intro v hv
    obtain ⟨u, hu | hu⟩ := CG.mem_nodes_explicit.1 (hin v hv)
    · exact (hV _ _ hu).2
    · exact (hV _ _ hu).1
  obtain ⟨b, h1, h2⟩ := MDG.dSeparated_eq hwf (CG.simple_explicit hf) hE.acyclic x y z hin
  have hb : b = true := by
    have h3 : (CG.init c A).explicitDag.dSeparated x y z = .ok true := hd
    rw [h1] at h3; cases h3; rfl
  have h4 := h2.1 hb
  refine indep_of_disconnected hE.acyclic M.kernels (fun i j _ hij => (hV i j hij).1) ?_ ?_ ?_ ?_ v
  · intro i hi; exact hinV i (by simp at hi; simp [hi])
  · intro i hi; exact hinV i (by simp at hi; simp [hi])
  · intro i hi; exact hinV i (by simp at hi; simp [hi])
  · intro a ha b hb
    have := h4 a (List.mem_toFinset.1 ha) b (List.mem_toFinset.1 hb)
    have e1 : ({t | t ∈ x.toFinset ∪ y.toFinset ∪ z.toFinset} : Set α) = {t | t ∈ x ++ y ++ z} := by
      ext t; simp [or_assoc]
    have e2 : ({t | t ∈ z.toFinset} : Set α) = {t | t ∈ z} := by ext t; simp
    rw [e1, e2]; exact this

end YL.Props
