import Verif.Lib.Causation

/-! The graph with explicit latent variables. -/

namespace YL

variable {α : Type} [DecidableEq α]

/-- At most one edge between two nodes in one direction. -/
def MDG.Simple (d : MDG α) : Prop := ∀ u v k k', (u, v, k) ∈ d.edges → (u, v, k') ∈ d.edges → k = k'

namespace CG

variable [LatentNames α]

open LatentNames

/-- `a` is the latent variable invented for the `i`-th reported arc and `b` is one of its ends. -/
def LatEdge (g : CG α) (a b : α) : Prop := ∃ e i, (e, i) ∈ g.latentArcs.zipIdx ∧ a = U i ∧ (b = e.1 ∨ b = e.2)

/-- None of the invented names is already in use. -/
def FreshNames (g : CG α) : Prop :=
  (∀ i, (U i : α) ∉ g.dag.nodes) ∧ ∀ i, ¬ Spec.OnEdge g.causation (U i)

theorem mem_edges_explicit_aux (l : List ((α × α) × Nat)) : ∀ (d : MDG α) (t : α × α × EKey),
    t ∈ (l.foldl (fun d e => (d.addEdge (U e.2) e.1.1 .n).addEdge (U e.2) e.1.2 .n) d).edges ↔
      t ∈ d.edges ∨ ∃ e i, (e, i) ∈ l ∧ (t = (U i, e.1, .n) ∨ t = (U i, e.2, .n)) := by
  induction l with
  | nil => intro d t; simp
  | cons e l ih =>
    intro d t
    obtain ⟨e, i⟩ := e
    rw [List.foldl_cons, ih, MDG.mem_edges_addEdge, MDG.mem_edges_addEdge]
    simp only [List.mem_cons, Prod.mk.injEq]
    constructor
    · rintro ((((h | h) | h)) | ⟨e', i', h, h'⟩)
      · exact .inl h
      · exact .inr ⟨e, i, .inl ⟨rfl, rfl⟩, .inl h⟩
      · exact .inr ⟨e, i, .inl ⟨rfl, rfl⟩, .inr h⟩
      · exact .inr ⟨e', i', .inr h, h'⟩
    · rintro (h | ⟨e', i', ⟨rfl, rfl⟩ | h, h'⟩)
      · exact .inl (.inl (.inl h))
      · rcases h' with h' | h'
        · exact .inl (.inl (.inr h'))
        · exact .inl (.inr h')
      · exact .inr ⟨e', i', h, h'⟩

theorem mem_edges_explicit {g : CG α} {u v : α} {k : EKey} :
    (u, v, k) ∈ g.explicitDag.edges ↔
      (Spec.Parent g.causation u v ∧ k = .num 0) ∨ (g.LatEdge u v ∧ k = .n) := by
  unfold explicitDag observedDag
  rw [mem_edges_explicit_aux, mem_edges_observed]
  simp only [Prod.mk.injEq, LatEdge]
  constructor
  · rintro (h | ⟨e, i, h, h' | h'⟩)
    · exact .inl h
    · exact .inr ⟨⟨e, i, h, h'.1, .inl h'.2.1⟩, h'.2.2⟩
    · exact .inr ⟨⟨e, i, h, h'.1, .inr h'.2.1⟩, h'.2.2⟩
  · rintro (h | ⟨⟨e, i, h, rfl, h' | h'⟩, rfl⟩)
    · exact .inl h
    · exact .inr ⟨e, i, h, .inl ⟨rfl, h', rfl⟩⟩
    · exact .inr ⟨e, i, h, .inr ⟨rfl, h', rfl⟩⟩

theorem E_explicit {g : CG α} {u v : α} :
    g.explicitDag.E u v ↔ Spec.Parent g.causation u v ∨ g.LatEdge u v := by
  simp only [MDG.E, mem_edges_explicit]
  constructor
  · rintro ⟨k, h | h⟩
    · exact .inl h.1
    · exact .inr h.1
  · rintro (h | h)
    · exact ⟨_, .inl ⟨h, rfl⟩⟩
    · exact ⟨_, .inr ⟨h, rfl⟩⟩

theorem wf_explicit (g : CG α) : g.explicitDag.WF :=
  MDG.wf_foldl _ (fun _ _ h => MDG.wf_addEdge (MDG.wf_addEdge h _ _ _) _ _ _) _ _ (wf_observed _)

/-- A node is in the explicit graph exactly if it lies on one of its edges. -/
theorem mem_nodes_explicit {g : CG α} {v : α} :
    v ∈ g.explicitDag.nodes ↔ ∃ u, g.explicitDag.E u v ∨ g.explicitDag.E v u := by
  have aux : ∀ (l : List ((α × α) × Nat)) (d : MDG α), (∀ v ∈ d.nodes, ∃ u, d.E u v ∨ d.E v u) →
      ∀ v ∈ (l.foldl (fun d e => (d.addEdge (U e.2) e.1.1 .n).addEdge (U e.2) e.1.2 .n) d).nodes,
        ∃ u, (l.foldl (fun d e => (d.addEdge (U e.2) e.1.1 .n).addEdge (U e.2) e.1.2 .n) d).E u v ∨
          (l.foldl (fun d e => (d.addEdge (U e.2) e.1.1 .n).addEdge (U e.2) e.1.2 .n) d).E v u := by
    intro l
    induction l with
    | nil => intro d h v hv; exact h v hv
    | cons e l ih =>
      intro d h v hv
      refine ih _ ?_ v hv
      have key : ∀ (d : MDG α) (a b : α) (k : EKey), (∀ v ∈ d.nodes, ∃ u, d.E u v ∨ d.E v u) →
          ∀ v ∈ (d.addEdge a b k).nodes, ∃ u, (d.addEdge a b k).E u v ∨ (d.addEdge a b k).E v u := by
        intro d a b k h v hv
        have mono : ∀ x y, d.E x y → (d.addEdge a b k).E x y := by
          rintro x y ⟨k', hk⟩; exact ⟨k', MDG.mem_edges_addEdge.2 (.inl hk)⟩
        have hab : (d.addEdge a b k).E a b := ⟨k, MDG.mem_edges_addEdge.2 (.inr rfl)⟩
        rcases MDG.mem_nodes_addEdge.1 hv with hv | rfl | rfl
        · obtain ⟨u, hu | hu⟩ := h v hv
          · exact ⟨u, .inl (mono _ _ hu)⟩
          · exact ⟨u, .inr (mono _ _ hu)⟩
        · exact ⟨b, .inr hab⟩
        · exact ⟨a, .inl hab⟩
      exact key _ _ _ _ (key _ _ _ _ h)
  constructor
  · apply aux
    intro v hv
    obtain ⟨u, hu⟩ := mem_nodes_observed.1 hv
    exact ⟨u, by rw [observedDag, E_observed, E_observed]; exact hu⟩
  · rintro ⟨u, h | h⟩
    · exact (wf_explicit g).right h
    · exact (wf_explicit g).left h

theorem latEdge_target {g : CG α} (hd : g.dag.WF) {a b : α} (h : g.LatEdge a b) : b ∈ g.dag.nodes := by
  obtain ⟨⟨x, y⟩, i, hi, -, hb⟩ := h
  have := (latentArcsOf_spec hd).2.1 x y (List.fst_mem_of_mem_zipIdx hi)
  rcases hb with rfl | rfl
  · exact hd.left this.1
  · exact hd.right this.1

theorem explicit_no_parent {g : CG α} (hd : g.dag.WF) (hf : g.FreshNames) (i : Nat) (a : α) :
    ¬ g.explicitDag.E a (U i) := by
  rw [E_explicit]
  rintro (h | h)
  · exact hf.2 i ⟨a, .inl h⟩
  · exact hf.1 i (latEdge_target hd h)

theorem simple_explicit {g : CG α} (hf : g.FreshNames) : g.explicitDag.Simple := by
  intro u v k k' h h'
  rw [mem_edges_explicit] at h h'
  rcases h with h | h <;> rcases h' with h' | h'
  · rw [h.2, h'.2]
  · obtain ⟨e, i, -, rfl, -⟩ := h'.1; exact absurd ⟨v, .inr h.1⟩ (hf.2 i)
  · obtain ⟨e, i, -, rfl, -⟩ := h.1; exact absurd ⟨v, .inr h'.1⟩ (hf.2 i)
  · rw [h.2, h'.2]

theorem acyclic_explicit {g : CG α} (hd : g.dag.WF) (hf : g.FreshNames)
    (hac : Spec.Acyclic (Spec.Parent g.causation)) : Spec.Acyclic g.explicitDag.E := by
  have key : ∀ a b, Spec.Reach1 g.explicitDag.E a b → (∃ c, g.explicitDag.E c a) →
      Spec.Reach1 (Spec.Parent g.causation) a b := by
    intro a b h
    induction h using Relation.TransGen.head_induction_on with
    | single e =>
      rintro ⟨c, hc⟩
      rw [E_explicit] at e
      rcases e with e | ⟨_, i, -, rfl, -⟩
      · exact .single e
      · exact absurd hc (explicit_no_parent hd hf i c)
    | head e _ ih =>
      rintro ⟨c, hc⟩
      have := ih ⟨_, e⟩
      rw [E_explicit] at e
      rcases e with e | ⟨_, i, -, rfl, -⟩
      · exact .head e this
      · exact absurd hc (explicit_no_parent hd hf i c)
  intro a h
  have hp : ∃ c, g.explicitDag.E c a := by
    cases h with
    | single e => exact ⟨_, e⟩
    | tail _ e => exact ⟨_, e⟩
  exact hac a (key a a h hp)

end CG
end YL
