import Verif.Lib.Mdg
import Verif.Model.CausalGraph
import Verif.Spec.CausalGraph

/-! Helper lemmas about the `CausalGraph` model. -/

namespace YL

variable {α : Type} [DecidableEq α]

namespace MDG

theorem mem_edges_foldl {β : Type} (f : β → α × α × EKey) (l : List β) : ∀ (g : MDG α) (e : α × α × EKey),
    e ∈ (l.foldl (fun g b => g.addEdge (f b).1 (f b).2.1 (f b).2.2) g).edges ↔
      e ∈ g.edges ∨ ∃ b ∈ l, e = f b := by
  induction l with
  | nil => intro g e; simp
  | cons b l ih =>
    intro g e
    rw [List.foldl_cons, ih, mem_edges_addEdge]
    simp [or_assoc]

theorem mem_nodes_foldl {β : Type} (f : β → α × α × EKey) (l : List β) : ∀ (g : MDG α) (v : α),
    v ∈ (l.foldl (fun g b => g.addEdge (f b).1 (f b).2.1 (f b).2.2) g).nodes ↔
      v ∈ g.nodes ∨ ∃ b ∈ l, v = (f b).1 ∨ v = (f b).2.1 := by
  induction l with
  | nil => intro g e; simp
  | cons b l ih =>
    intro g e
    rw [List.foldl_cons, ih, mem_nodes_addEdge]
    simp [or_assoc]

omit [DecidableEq α] in
theorem wf_foldl {β : Type} (f : MDG α → β → MDG α) (hf : ∀ g b, g.WF → (f g b).WF) (l : List β) :
    ∀ (g : MDG α), g.WF → (l.foldl f g).WF := by
  induction l with
  | nil => intro g h; exact h
  | cons b l ih => intro g h; exact ih _ (hf g b h)

end MDG

namespace CG

omit [DecidableEq α] in
theorem mem_obsPairs {c : Causation α} {u v : α} : (u, v) ∈ obsPairs c ↔ Spec.Parent c u v := by
  simp only [obsPairs, List.mem_flatMap, List.mem_map, Spec.Parent, Prod.mk.injEq, Prod.exists]
  constructor
  · rintro ⟨a, ps, h, x, hx, rfl, rfl⟩; exact ⟨ps, h, hx⟩
  · rintro ⟨ps, h, hx⟩; exact ⟨v, ps, h, u, hx, rfl, rfl⟩

theorem mem_edges_observed {c : Causation α} {u v : α} {k : EKey} :
    (u, v, k) ∈ (observedDagOf c).edges ↔ Spec.Parent c u v ∧ k = .num 0 := by
  unfold observedDagOf
  rw [MDG.mem_edges_foldl (fun e : α × α => (e.1, e.2, EKey.num 0))]
  simp only [MDG.empty, List.not_mem_nil, false_or, Prod.mk.injEq, ← mem_obsPairs]
  constructor
  · rintro ⟨⟨a, b⟩, h, rfl, rfl, rfl⟩; exact ⟨h, rfl⟩
  · rintro ⟨h, rfl⟩; exact ⟨(u, v), h, rfl, rfl, rfl⟩

theorem E_observed {c : Causation α} {u v : α} : (observedDagOf c).E u v ↔ Spec.Parent c u v := by
  simp [MDG.E, mem_edges_observed]

theorem E_observed_eq (c : Causation α) : (observedDagOf c).E = Spec.Parent c := by
  funext u v; exact propext E_observed

theorem mem_nodes_observed {c : Causation α} {v : α} :
    v ∈ (observedDagOf c).nodes ↔ Spec.OnEdge c v := by
  unfold observedDagOf
  rw [MDG.mem_nodes_foldl (fun e : α × α => (e.1, e.2, EKey.num 0))]
  simp only [MDG.empty, List.not_mem_nil, false_or, Prod.exists, mem_obsPairs, Spec.OnEdge]
  constructor
  · rintro ⟨a, b, h, rfl | rfl⟩
    · exact ⟨b, .inr h⟩
    · exact ⟨a, .inl h⟩
  · rintro ⟨u, h | h⟩
    · exact ⟨u, v, h, .inr rfl⟩
    · exact ⟨v, u, h, .inl rfl⟩

theorem wf_observed (c : Causation α) : (observedDagOf c).WF :=
  MDG.wf_foldl _ (fun _ _ h => MDG.wf_addEdge h _ _ _) _ _ MDG.wf_empty

theorem wf_addArc {d : MDG α} (h : d.WF) (e : α × α) : (addArc d e).WF :=
  MDG.wf_addEdge (MDG.wf_addEdge h _ _ _) _ _ _

theorem mem_edges_addArc {d : MDG α} {e : α × α} {t : α × α × EKey} :
    t ∈ (addArc d e).edges ↔ t ∈ d.edges ∨ t = (e.1, e.2, .n) ∨ t = (e.2, e.1, .n) := by
  simp [addArc, MDG.mem_edges_addEdge, or_assoc]

theorem mem_nodes_addArc {d : MDG α} {e : α × α} {v : α} :
    v ∈ (addArc d e).nodes ↔ v ∈ d.nodes ∨ v = e.1 ∨ v = e.2 := by
  simp only [addArc, MDG.mem_nodes_addEdge]; tauto

theorem mem_edges_addArcs (arcs : List (α × α)) : ∀ (d : MDG α) (u v : α) (k : EKey),
    (u, v, k) ∈ (arcs.foldl addArc d).edges ↔
      (u, v, k) ∈ d.edges ∨ (k = .n ∧ Spec.Paired arcs u v) := by
  induction arcs with
  | nil => intro d u v k; simp [Spec.Paired]
  | cons e arcs ih =>
    intro d u v k
    rw [List.foldl_cons, ih, mem_edges_addArc]
    obtain ⟨a, b⟩ := e
    simp only [Spec.Paired, List.mem_cons, Prod.mk.injEq]
    tauto

theorem mem_nodes_addArcs (arcs : List (α × α)) : ∀ (d : MDG α) (v : α),
    v ∈ (arcs.foldl addArc d).nodes ↔ v ∈ d.nodes ∨ ∃ e ∈ arcs, v = e.1 ∨ v = e.2 := by
  induction arcs with
  | nil => intro d v; simp
  | cons e arcs ih =>
    intro d v
    rw [List.foldl_cons, ih, mem_nodes_addArc]
    simp [or_assoc]

theorem wf_addArcs (arcs : List (α × α)) (d : MDG α) (h : d.WF) : (arcs.foldl addArc d).WF :=
  MDG.wf_foldl _ (fun _ e h => wf_addArc h e) _ _ h

theorem wf_init (c : Causation α) (arcs : List (α × α)) : (init c arcs).dag.WF :=
  wf_addArcs _ _ (wf_observed c)

theorem E_init {c : Causation α} {arcs : List (α × α)} {u v : α} :
    (init c arcs).dag.E u v ↔ Spec.Parent c u v ∨ Spec.Paired arcs u v := by
  simp only [MDG.E, init, mem_edges_addArcs, mem_edges_observed]
  constructor
  · rintro ⟨k, h | h⟩
    · exact .inl h.1
    · exact .inr h.2
  · rintro (h | h)
    · exact ⟨_, .inl ⟨h, rfl⟩⟩
    · exact ⟨_, .inr ⟨rfl, h⟩⟩

theorem mem_nodes_init {c : Causation α} {arcs : List (α × α)} {v : α} :
    v ∈ (init c arcs).dag.nodes ↔ Spec.OnEdge c v ∨ ∃ u, Spec.Paired arcs u v := by
  simp only [init, mem_nodes_addArcs, mem_nodes_observed, Spec.Paired]
  constructor
  · rintro (h | ⟨⟨a, b⟩, h, rfl | rfl⟩)
    · exact .inl h
    · exact .inr ⟨b, .inr h⟩
    · exact .inr ⟨a, .inl h⟩
  · rintro (h | ⟨u, h | h⟩)
    · exact .inl h
    · exact .inr ⟨_, h, .inr rfl⟩
    · exact .inr ⟨_, h, .inl rfl⟩

/-! ### the adjacency matrix scan -/

/-- The scan over an arbitrary list of index pairs. -/
theorem scan_spec (P : α × α → Bool) : ∀ (l acc : List (α × α)),
    (∀ e ∈ acc, e ∉ l) → l.Nodup → acc.Nodup →
    let r := l.foldl (fun arcs e => if P e && decide ((e.2, e.1) ∉ arcs) then arcs ++ [e] else arcs) acc
    r.Nodup ∧ (∀ e, e ∈ r → e ∈ acc ∨ (e ∈ l ∧ P e = true)) ∧ (∀ e ∈ acc, e ∈ r) ∧
    (∀ e ∈ l, P e = true → e ∈ r ∨ (e.2, e.1) ∈ r) ∧
    (∀ e ∈ r, e.1 ≠ e.2 → (e.2, e.1) ∈ r → e ∈ acc ∧ (e.2, e.1) ∈ acc) := by
  intro l
  induction l with
  | nil =>
    intro acc _ _ h
    refine ⟨h, fun e he => .inl he, fun e he => he, by simp, fun e h1 _ h2 => ⟨h1, h2⟩⟩
  | cons a l ih =>
    intro acc hdis hnd hacc
    rw [List.nodup_cons] at hnd
    simp only [List.foldl_cons]
    by_cases hc : (P a && decide ((a.2, a.1) ∉ acc)) = true
    · rw [if_pos hc]
      simp only [Bool.and_eq_true, decide_eq_true_eq] at hc
      have ha : a ∉ acc := fun h => hdis a h (by simp)
      obtain ⟨h1, h2, h3, h4, h5⟩ := ih (acc ++ [a]) (by
          intro e he hel
          rcases List.mem_append.1 he with h | h
          · exact hdis e h (List.mem_cons_of_mem _ hel)
          · simp at h; subst h; exact hnd.1 hel) hnd.2 (by
          rw [List.nodup_append]
          exact ⟨hacc, by simp, by intro x hx y hy; simp at hy; subst hy; rintro rfl; exact ha hx⟩)
      refine ⟨h1, ?_, ?_, ?_, ?_⟩
      · intro e he
        rcases h2 e he with h | ⟨h, h'⟩
        · rcases List.mem_append.1 h with h | h
          · exact .inl h
          · simp at h; subst h; exact .inr ⟨by simp, hc.1⟩
        · exact .inr ⟨List.mem_cons_of_mem _ h, h'⟩
      · intro e he; exact h3 e (List.mem_append_left _ he)
      · intro e he hP
        rcases List.mem_cons.1 he with rfl | he
        · exact .inl (h3 _ (by simp))
        · exact h4 e he hP
      · intro e he hne hrev
        obtain ⟨hx, hy⟩ := h5 e he hne hrev
        rw [List.mem_append] at hx hy
        rcases hx with hx | hx <;> rcases hy with hy | hy
        · exact ⟨hx, hy⟩
        · simp at hy
          exfalso; apply hc.2; rw [← hy]; exact hx
        · simp at hx; subst hx
          exact absurd hy hc.2
        · simp at hx hy
          subst hx
          exfalso; apply hne
          have := congrArg Prod.fst hy
          exact this.symm
    · rw [if_neg hc]
      obtain ⟨h1, h2, h3, h4, h5⟩ := ih acc (fun e he hel => hdis e he (List.mem_cons_of_mem _ hel)) hnd.2 hacc
      refine ⟨h1, ?_, h3, ?_, h5⟩
      · intro e he
        rcases h2 e he with h | ⟨h, h'⟩
        · exact .inl h
        · exact .inr ⟨List.mem_cons_of_mem _ h, h'⟩
      · intro e he hP
        rcases List.mem_cons.1 he with rfl | he
        · right
          apply h3
          by_contra hn
          apply hc
          simp [hP, hn]
        · exact h4 e he hP

omit [DecidableEq α] in
theorem nodup_square {l : List α} (h : l.Nodup) :
    (l.flatMap (fun r => l.map (fun c => (r, c)))).Nodup := by
  have key : ∀ m : List α, m.Nodup → (m.flatMap (fun r => l.map (fun c => (r, c)))).Nodup := by
    intro m
    induction m with
    | nil => simp
    | cons a m ih =>
      intro hm
      rw [List.nodup_cons] at hm
      rw [List.flatMap_cons, List.nodup_append]
      refine ⟨?_, ih hm.2, ?_⟩
      · exact List.Nodup.map (fun x y hxy => by simpa using hxy) h
      · intro x hx y hy hxy
        subst hxy
        simp at hx hy
        obtain ⟨c, _, rfl⟩ := hx
        obtain ⟨r, hr, c', _, hrc⟩ := hy
        simp at hrc
        obtain ⟨rfl, _⟩ := hrc
        exact hm.1 hr
  exact key l h

/-- Everything there is to know about `latent_confounding_arcs`. -/
theorem latentArcsOf_spec {d : MDG α} (hd : d.WF) :
    (latentArcsOf d).Nodup ∧
    (∀ a b, (a, b) ∈ latentArcsOf d → d.E a b ∧ d.E b a) ∧
    (∀ a b, d.E a b → d.E b a → Spec.Paired (latentArcsOf d) a b) ∧
    (∀ a b, (a, b) ∈ latentArcsOf d → a ≠ b → (b, a) ∉ latentArcsOf d) := by
  have h := scan_spec (fun e : α × α => d.hasEdge e.1 e.2 && d.hasEdge e.2 e.1)
    (d.nodes.flatMap (fun r => d.nodes.map (fun c => (r, c)))) [] (by simp) (nodup_square hd.nodesNodup)
    (by simp)
  obtain ⟨h1, h2, -, h4, h5⟩ := h
  refine ⟨h1, ?_, ?_, ?_⟩
  · intro a b hab
    rcases h2 _ hab with h | ⟨-, h⟩
    · simp at h
    · simpa using h
  · intro a b e1 e2
    have := h4 (a, b) (by simp [hd.left e1, hd.left e2]) (by simp [e1, e2])
    exact this
  · intro a b hab hne hba
    have := (h5 (a, b) hab hne hba).1
    simp at this

/-! ### connected components -/

theorem connectedComponents_spec (N : List α) (arcs : List (α × α))
    (harcs : ∀ a b, (a, b) ∈ arcs → a ∈ N ∧ b ∈ N) :
    Spec.IsPartitionInto {v | v ∈ N} (Spec.Linked arcs) (connectedComponents N arcs) := by
  set next : α → List α := fun a => N.filter (fun b => (a, b) ∈ arcs ∨ (b, a) ∈ arcs) with hnext
  have hstep : MDG.StepIn N next = Spec.Paired arcs := by
    funext a b
    simp only [MDG.StepIn, hnext, List.mem_filter, decide_eq_true_eq, Spec.Paired, eq_iff_iff]
    constructor
    · rintro ⟨⟨_, h⟩, _⟩; exact h
    · intro h
      have hb : b ∈ N := by
        rcases h with h | h
        · exact (harcs _ _ h).2
        · exact (harcs _ _ h).1
      exact ⟨⟨hb, h⟩, hb⟩
  have hmem : ∀ s v, v ∈ MDG.reachList N next s ↔ Spec.Linked arcs s v := by
    intro s v; rw [MDG.mem_reachList, hstep]; rfl
  have hsymm : ∀ a b, Spec.Linked arcs a b → Spec.Linked arcs b a := by
    intro a b h
    induction h with
    | refl => exact .refl
    | tail _ h ih => exact Relation.ReflTransGen.head h.symm ih
  have hin : ∀ a b, Spec.Linked arcs a b → a ∈ N → b ∈ N := by
    intro a b h ha
    induction h with
    | refl => exact ha
    | tail _ h _ =>
      rcases h with h | h
      · exact (harcs _ _ h).2
      · exact (harcs _ _ h).1
  have key : ∀ (m pre : List α) (cs : List (List α)), N = pre ++ m →
      (∀ c ∈ cs, c ≠ []) → (∀ v, (v ∈ pre → ∃ c ∈ cs, v ∈ c)) →
      (∀ c ∈ cs, ∀ a ∈ c, a ∈ N ∧ ∀ b, b ∈ c ↔ Spec.Linked arcs a b) →
      (cs.Pairwise fun c d => ∀ v, v ∈ c → v ∉ d) →
      Spec.IsPartitionInto {v | v ∈ N} (Spec.Linked arcs)
        (m.foldl (fun (cs : List (List α)) v => if cs.any (fun c => v ∈ c) then cs
          else cs ++ [MDG.reachList N next v]) cs) := by
    intro m
    induction m with
    | nil =>
      intro pre cs hN h1 h2 h3 h4
      simp only [List.append_nil] at hN
      refine ⟨h1, ?_, h4, ?_⟩
      · intro v
        constructor
        · intro hv; exact h2 v (by rw [← hN]; exact hv)
        · rintro ⟨c, hc, hv⟩; exact (h3 c hc v hv).1
      · intro c hc a ha b _
        exact (h3 c hc a ha).2 b
    | cons w m ih =>
      intro pre cs hN h1 h2 h3 h4
      simp only [List.foldl_cons]
      have hwN : w ∈ N := by rw [hN]; simp
      split
      · rename_i hany
        simp only [List.any_eq_true, decide_eq_true_eq] at hany
        refine ih (pre ++ [w]) cs (by rw [hN]; simp) h1 ?_ h3 h4
        intro v hv
        rcases List.mem_append.1 hv with hv | hv
        · exact h2 v hv
        · simp at hv; subst hv; exact hany
      · rename_i hany
        simp only [List.any_eq_true, decide_eq_true_eq, not_exists, not_and] at hany
        refine ih (pre ++ [w]) _ (by rw [hN]; simp) ?_ ?_ ?_ ?_
        · intro c hc
          rcases List.mem_append.1 hc with hc | hc
          · exact h1 c hc
          · simp at hc; subst hc
            exact List.ne_nil_of_mem ((hmem w w).2 .refl)
        · intro v hv
          rcases List.mem_append.1 hv with hv | hv
          · obtain ⟨c, hc, hvc⟩ := h2 v hv
            exact ⟨c, List.mem_append_left _ hc, hvc⟩
          · simp at hv; subst hv
            exact ⟨_, List.mem_append_right _ (by simp), (hmem _ _).2 .refl⟩
        · intro c hc
          rcases List.mem_append.1 hc with hc | hc
          · exact h3 c hc
          · simp at hc; subst hc
            intro a ha
            rw [hmem] at ha
            refine ⟨hin _ _ ha hwN, ?_⟩
            intro b
            rw [hmem]
            exact ⟨fun h => (hsymm _ _ ha).trans h, fun h => ha.trans h⟩
        · rw [List.pairwise_append]
          refine ⟨h4, by simp, ?_⟩
          intro c hc d hd v hv hvd
          simp at hd; subst hd
          rw [hmem] at hvd
          exact hany c hc (((h3 c hc v hv).2 w).2 (hsymm _ _ hvd))
  exact key N [] [] (by simp) (by simp) (by simp) (by simp) (by simp)

end CG
end YL
