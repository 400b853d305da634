import Verif.Lib.Bfs
import Mathlib.Data.List.Nodup
import Mathlib.Data.Finset.Card
import Mathlib.Order.WellFounded
import Mathlib.Data.Fintype.Basic

/-! Basic facts about the `MDG` model: membership, well-formedness, topological sorting. -/

namespace YL

theorem nodup_eraseDups {α : Type} [DecidableEq α] :
    ∀ (n : Nat) (l : List α), l.length ≤ n → l.eraseDups.Nodup
  | 0, l, h => by
    have : l = [] := List.eq_nil_of_length_eq_zero (by omega)
    subst this; simp
  | n + 1, [], _ => by simp
  | n + 1, a :: l, h => by
    rw [List.eraseDups_cons, List.nodup_cons]
    constructor
    · simp
    · apply nodup_eraseDups n
      have := List.length_filter_le (fun b => !b == a) l
      simp at h; omega

namespace MDG

variable {α : Type} [DecidableEq α]

/-- Edge relation of a graph, keys forgotten. -/
def E (g : MDG α) (u v : α) : Prop := ∃ k, (u, v, k) ∈ g.edges

/-- Well-formed: no repeated node, no repeated keyed edge, edge ends are nodes. networkx keeps these by
construction; `wf_*` below prove that the modelled operations do. -/
structure WF (g : MDG α) : Prop where
  nodesNodup : g.nodes.Nodup
  edgesNodup : g.edges.Nodup
  src : ∀ u v k, (u, v, k) ∈ g.edges → u ∈ g.nodes
  tgt : ∀ u v k, (u, v, k) ∈ g.edges → v ∈ g.nodes

omit [DecidableEq α] in
theorem WF.left {g : MDG α} (h : g.WF) {u v} (e : g.E u v) : u ∈ g.nodes :=
  let ⟨k, hk⟩ := e; h.src u v k hk
omit [DecidableEq α] in
theorem WF.right {g : MDG α} (h : g.WF) {u v} (e : g.E u v) : v ∈ g.nodes :=
  let ⟨k, hk⟩ := e; h.tgt u v k hk

@[simp] theorem mem_preds {g : MDG α} {u v : α} : u ∈ g.preds v ↔ g.E u v := by
  simp only [preds, List.mem_eraseDups, List.mem_map, List.mem_filter, E]
  constructor
  · rintro ⟨⟨a, b, k⟩, ⟨h1, h2⟩, rfl⟩
    simp at h2; subst h2; exact ⟨k, h1⟩
  · rintro ⟨k, h⟩; exact ⟨(u, v, k), ⟨h, by simp⟩, rfl⟩

@[simp] theorem mem_succs {g : MDG α} {u v : α} : v ∈ g.succs u ↔ g.E u v := by
  simp only [succs, List.mem_eraseDups, List.mem_map, List.mem_filter, E]
  constructor
  · rintro ⟨⟨a, b, k⟩, ⟨h1, h2⟩, rfl⟩
    simp at h2; subst h2; exact ⟨k, h1⟩
  · rintro ⟨k, h⟩; exact ⟨(u, v, k), ⟨h, by simp⟩, rfl⟩

theorem nodup_preds (g : MDG α) (v : α) : (g.preds v).Nodup := nodup_eraseDups _ _ le_rfl
theorem nodup_succs (g : MDG α) (v : α) : (g.succs v).Nodup := nodup_eraseDups _ _ le_rfl

@[simp] theorem hasEdge_iff {g : MDG α} {u v : α} : g.hasEdge u v = true ↔ g.E u v := by
  simp only [hasEdge, List.any_eq_true, E, decide_eq_true_eq]
  constructor
  · rintro ⟨⟨a, b, k⟩, h, h1, h2⟩
    simp at h1 h2; subst h1 h2; exact ⟨k, h⟩
  · rintro ⟨k, h⟩; exact ⟨(u, v, k), h, rfl, rfl⟩

instance (g : MDG α) (u v : α) : Decidable (g.E u v) :=
  decidable_of_iff (g.hasEdge u v = true) hasEdge_iff

theorem outDegree_eq_zero {g : MDG α} {u : α} : g.outDegree u = 0 ↔ ∀ v, ¬ g.E u v := by
  simp only [outDegree, List.length_eq_zero_iff, List.filter_eq_nil_iff, E, decide_eq_true_eq]
  constructor
  · rintro h v ⟨k, hk⟩; exact h _ hk rfl
  · rintro h ⟨a, b, k⟩ he hh
    simp at hh; subst hh; exact h b ⟨k, he⟩

/-! ### well-formedness of the operations -/

omit [DecidableEq α] in
theorem wf_empty : (empty : MDG α).WF := ⟨by simp [empty], by simp [empty], by simp [empty], by simp [empty]⟩

theorem mem_addNode {g : MDG α} {v w : α} : w ∈ (g.addNode v).nodes ↔ w ∈ g.nodes ∨ w = v := by
  unfold addNode; split
  · constructor
    · exact .inl
    · rintro (h | rfl) <;> assumption
  · simp

@[simp] theorem edges_addNode {g : MDG α} {v : α} : (g.addNode v).edges = g.edges := by
  unfold addNode; split <;> rfl

theorem wf_addNode {g : MDG α} (h : g.WF) (v : α) : (g.addNode v).WF := by
  refine ⟨?_, by simpa using h.edgesNodup, ?_, ?_⟩
  · unfold addNode; split
    · exact h.nodesNodup
    · rename_i hv
      simp only
      rw [List.nodup_append]
      refine ⟨h.nodesNodup, by simp, ?_⟩
      intro a ha b hb; simp at hb; subst hb; rintro rfl; exact hv ha
  · intro u w k hk; simp at hk; exact mem_addNode.2 (.inl (h.src _ _ _ hk))
  · intro u w k hk; simp at hk; exact mem_addNode.2 (.inl (h.tgt _ _ _ hk))

theorem mem_nodes_addEdge {g : MDG α} {u v w : α} {k : EKey} :
    w ∈ (g.addEdge u v k).nodes ↔ w ∈ g.nodes ∨ w = u ∨ w = v := by
  unfold addEdge; simp only
  split <;> simp [mem_addNode, or_assoc]

theorem mem_edges_addEdge {g : MDG α} {u v : α} {k : EKey} {e : α × α × EKey} :
    e ∈ (g.addEdge u v k).edges ↔ e ∈ g.edges ∨ e = (u, v, k) := by
  unfold addEdge; simp only [edges_addNode]
  split
  · simp only [edges_addNode]
    constructor
    · exact .inl
    · rintro (h | rfl) <;> assumption
  · simp

theorem wf_addEdge {g : MDG α} (h : g.WF) (u v : α) (k : EKey) : (g.addEdge u v k).WF := by
  have h2 := wf_addNode (wf_addNode h u) v
  refine ⟨?_, ?_, ?_, ?_⟩
  · unfold addEdge; simp only; split
    · exact h2.nodesNodup
    · exact h2.nodesNodup
  · unfold addEdge; simp only; split
    · exact h2.edgesNodup
    · rename_i hn
      simp only
      rw [List.nodup_append]
      refine ⟨h2.edgesNodup, by simp, ?_⟩
      intro a ha b hb; simp only [List.mem_singleton] at hb; subst hb; rintro rfl; exact hn ha
  · intro a b k' hk
    rcases mem_edges_addEdge.1 hk with hk | hk
    · exact mem_nodes_addEdge.2 (.inl (h.src _ _ _ hk))
    · simp at hk; exact mem_nodes_addEdge.2 (.inr (.inl hk.1))
  · intro a b k' hk
    rcases mem_edges_addEdge.1 hk with hk | hk
    · exact mem_nodes_addEdge.2 (.inl (h.tgt _ _ _ hk))
    · simp at hk; exact mem_nodes_addEdge.2 (.inr (.inr hk.2.1))

theorem mem_edges_removeNodes {g : MDG α} {vs : List α} {u v : α} {k : EKey} :
    (u, v, k) ∈ (g.removeNodes vs).edges ↔ (u, v, k) ∈ g.edges ∧ u ∉ vs ∧ v ∉ vs := by
  simp [removeNodes]

theorem mem_nodes_removeNodes {g : MDG α} {vs : List α} {u : α} :
    u ∈ (g.removeNodes vs).nodes ↔ u ∈ g.nodes ∧ u ∉ vs := by
  simp [removeNodes]

theorem E_removeNodes {g : MDG α} {vs : List α} {u v : α} :
    (g.removeNodes vs).E u v ↔ g.E u v ∧ u ∉ vs ∧ v ∉ vs := by
  simp [E, mem_edges_removeNodes]

theorem wf_removeNodes {g : MDG α} (h : g.WF) (vs : List α) : (g.removeNodes vs).WF := by
  refine ⟨h.nodesNodup.filter _, h.edgesNodup.filter _, ?_, ?_⟩
  · intro u v k hk; rw [mem_edges_removeNodes] at hk
    exact mem_nodes_removeNodes.2 ⟨h.src _ _ _ hk.1, hk.2.1⟩
  · intro u v k hk; rw [mem_edges_removeNodes] at hk
    exact mem_nodes_removeNodes.2 ⟨h.tgt _ _ _ hk.1, hk.2.2⟩

omit [DecidableEq α] in
theorem wf_filterEdges {g : MDG α} (h : g.WF) (p : α × α × EKey → Bool) :
    ({ g with edges := g.edges.filter p } : MDG α).WF := by
  refine ⟨h.nodesNodup, h.edgesNodup.filter _, ?_, ?_⟩
  · intro u v k hk; exact h.src u v k (List.mem_of_mem_filter hk)
  · intro u v k hk; exact h.tgt u v k (List.mem_of_mem_filter hk)

theorem E_cutOut {g : MDG α} {z : List α} {u v : α} : (g.cutOut z).E u v ↔ g.E u v ∧ u ∉ z := by
  simp [E, cutOut]

/-! ### acyclicity of finite graphs -/

omit [DecidableEq α] in
/-- In a finite acyclic graph "is a parent of" is well-founded. -/
theorem acyclic_wellFounded {R : α → α → Prop} (N : Finset α)
    (hN : ∀ a b, R a b → a ∈ N) (hac : Spec.Acyclic R) : WellFounded R := by
  classical
  have key : ∀ n : Nat, ∀ a, (N.filter (fun x => Spec.Reach1 R x a)).card ≤ n → Acc R a := by
    intro n
    induction n with
    | zero =>
      intro a ha
      refine Acc.intro a fun b hb => ?_
      have : b ∈ N.filter (fun x => Spec.Reach1 R x a) := by
        simp [hN _ _ hb]; exact .single hb
      have := Finset.card_pos.2 ⟨b, this⟩
      omega
    | succ n ih =>
      intro a ha
      refine Acc.intro a fun b hb => ih b ?_
      have hlt : (N.filter (fun x => Spec.Reach1 R x b)).card
          < (N.filter (fun x => Spec.Reach1 R x a)).card := by
        apply Finset.card_lt_card
        rw [Finset.ssubset_iff_of_subset]
        · exact ⟨b, by simp [hN _ _ hb]; exact .single hb, by simp; intro _; exact hac b⟩
        · intro x hx
          simp at hx ⊢
          exact ⟨hx.1, hx.2.tail hb⟩
      omega
  exact ⟨fun a => key _ a le_rfl⟩

omit [DecidableEq α] in
theorem acyclic_swap {R : α → α → Prop} (hac : Spec.Acyclic R) : Spec.Acyclic (fun a b => R b a) := by
  intro a h
  exact hac a (Relation.transGen_swap.1 h)

/-- Parents-first induction. -/
theorem WF.parentsWF {g : MDG α} (h : g.WF) (hac : Spec.Acyclic g.E) : WellFounded g.E :=
  acyclic_wellFounded g.nodes.toFinset (fun _ _ e => by simpa using h.left e) hac

/-- Children-first induction. -/
theorem WF.childrenWF {g : MDG α} (h : g.WF) (hac : Spec.Acyclic g.E) :
    WellFounded (fun a b => g.E b a) :=
  acyclic_wellFounded g.nodes.toFinset (fun _ _ e => by simpa using h.right e) (acyclic_swap hac)

/-! ### topological sorting -/

/-- `nextGen` as a recursion. -/
def nextGenRec (g : MDG α) : List α → List α → List α
  | _, [] => []
  | done, u :: gen =>
    (g.succs u).filter (fun c => (g.preds c).all (· ∈ done ++ [u])) ++ nextGenRec g (done ++ [u]) gen

theorem nextGen_eq (g : MDG α) (done gen : List α) : nextGen g done gen = nextGenRec g done gen := by
  have : ∀ (gen done acc : List α),
      (gen.foldl (fun (st : List α × List α) u =>
        (st.1 ++ [u], st.2 ++ (g.succs u).filter (fun c => (g.preds c).all (· ∈ st.1 ++ [u]))))
        (done, acc)).2 = acc ++ nextGenRec g done gen := by
    intro gen
    induction gen with
    | nil => intro done acc; simp [nextGenRec]
    | cons u gen ih => intro done acc; rw [List.foldl_cons, ih]; simp [nextGenRec]
  have h := this gen done []
  rw [List.nil_append] at h
  exact h

theorem mem_nextGenRec (g : MDG α) : ∀ (gen done : List α) (c : α),
    c ∈ nextGenRec g done gen ↔ ∃ g₁ u g₂, gen = g₁ ++ u :: g₂ ∧ g.E u c ∧
      ∀ p, g.E p c → p ∈ done ++ g₁ ++ [u] := by
  intro gen
  induction gen with
  | nil => intro done c; simp [nextGenRec]
  | cons w gen ih =>
    intro done c
    simp only [nextGenRec, List.mem_append, List.mem_filter, mem_succs, List.all_eq_true, mem_preds,
      decide_eq_true_eq, ih]
    constructor
    · rintro (⟨h1, h2⟩ | ⟨g₁, u, g₂, rfl, h1, h2⟩)
      · exact ⟨[], w, gen, rfl, h1, by simpa using h2⟩
      · refine ⟨w :: g₁, u, g₂, by simp, h1, ?_⟩
        intro p hp
        have := h2 p hp
        simp at this ⊢; tauto
    · rintro ⟨g₁, u, g₂, h0, h1, h2⟩
      cases g₁ with
      | nil =>
        simp at h0
        obtain ⟨rfl, rfl⟩ := h0
        left; exact ⟨h1, by intro p hp; simpa using h2 p hp⟩
      | cons a g₁ =>
        simp at h0
        obtain ⟨rfl, rfl⟩ := h0
        right
        refine ⟨g₁, u, g₂, rfl, h1, ?_⟩
        intro p hp
        have := h2 p hp
        simp at this ⊢; tauto

theorem nodup_nextGenRec (g : MDG α) : ∀ (gen done : List α), (done ++ gen).Nodup →
    (nextGenRec g done gen).Nodup := by
  intro gen
  induction gen with
  | nil => intro done _; simp [nextGenRec]
  | cons w gen ih =>
    intro done hnd
    simp only [nextGenRec]
    rw [List.nodup_append]
    refine ⟨(nodup_succs g w).filter _, ih _ (by simpa using hnd), ?_⟩
    intro a ha b hb hab
    subst hab
    rw [mem_nextGenRec] at hb
    obtain ⟨g₁, u, g₂, rfl, h1, -⟩ := hb
    simp only [List.mem_filter, List.all_eq_true, mem_preds, decide_eq_true_eq] at ha
    have hu := ha.2 u h1
    simp [List.nodup_append] at hnd hu
    rcases hu with hu | hu
    · exact (hnd.2.2 u hu).2 u (by simp) rfl
    · exact hnd.2.1.1.2.1 hu.symm

/-- order condition: each node's parents occur before it -/
def ParentsBefore (E : α → α → Prop) (l : List α) : Prop :=
  ∀ l₁ v l₂, l = l₁ ++ v :: l₂ → ∀ u, E u v → u ∈ l₁

omit [DecidableEq α] in
theorem parentsBefore_append {E : α → α → Prop} {l m : List α} (hl : ParentsBefore E l)
    (hm : ∀ v ∈ m, ∀ u, E u v → u ∈ l) : ParentsBefore E (l ++ m) := by
  intro l₁ v l₂ h u hu
  rw [List.append_eq_append_iff] at h
  rcases h with ⟨a, rfl, rfl⟩ | ⟨c, rfl, h⟩
  · exact List.mem_append_left _ (hm v (by simp) u hu)
  · cases c with
    | nil =>
      simp at h ⊢
      exact (by simpa using hm v (by simp [← h]) u hu)
    | cons x c =>
      simp at h
      obtain ⟨rfl, rfl⟩ := h
      exact hl l₁ v c rfl u hu

theorem topoAux_spec {g : MDG α} (hg : g.WF) : ∀ (f : Nat) (done gen : List α),
    (done ++ gen).Nodup → (∀ v ∈ done ++ gen, v ∈ g.nodes) →
    (∀ v ∈ gen, ∀ u, g.E u v → u ∈ done) →
    ParentsBefore g.E done →
    (∀ v ∈ g.nodes, (∀ u, g.E u v → u ∈ done) → v ∈ done ++ gen) →
    g.nodes.length + 1 ≤ f + done.length →
    let out := topoAux g f done gen
    out.Nodup ∧ (∀ v ∈ out, v ∈ g.nodes) ∧ ParentsBefore g.E out ∧
      ∀ v ∈ g.nodes, (∀ u, g.E u v → u ∈ out) → v ∈ out := by
  intro f
  induction f with
  | zero =>
    intro done gen h1 h2 _ _ _ hf
    exfalso
    have hnd : done.Nodup := (List.nodup_append.1 h1).1
    have := List.Subperm.length_le (List.subperm_of_subset hnd
      (fun v hv => h2 v (List.mem_append_left _ hv)))
    omega
  | succ f ih =>
    intro done gen h1 h2 h3 h4 h5 hf
    cases gen with
    | nil =>
      simp only [topoAux]
      simp at h1 h2 h5
      exact ⟨h1, h2, h4, h5⟩
    | cons w gen =>
      simp only [topoAux]
      have hpb : ParentsBefore g.E (done ++ w :: gen) := parentsBefore_append h4 h3
      apply ih
      · rw [nextGen_eq, List.nodup_append]
        refine ⟨h1, nodup_nextGenRec g _ _ h1, ?_⟩
        intro a ha b hb hab
        subst hab
        rw [mem_nextGenRec] at hb
        obtain ⟨g₁, u, g₂, hg', hu, -⟩ := hb
        rcases List.mem_append.1 ha with ha | ha
        · obtain ⟨d₁, d₂, rfl⟩ := List.append_of_mem ha
          have hud := h4 d₁ a d₂ rfl u hu
          rw [List.nodup_append] at h1
          exact h1.2.2 u (by simp [hud]) u (by rw [hg']; simp) rfl
        · have hud := h3 a ha u hu
          rw [List.nodup_append] at h1
          exact h1.2.2 u hud u (by rw [hg']; simp) rfl
      · intro v hv
        rcases List.mem_append.1 hv with hv | hv
        · exact h2 v hv
        · rw [nextGen_eq, mem_nextGenRec] at hv
          obtain ⟨g₁, u, g₂, -, hu, -⟩ := hv
          exact hg.right hu
      · intro v hv u hu
        rw [nextGen_eq, mem_nextGenRec] at hv
        obtain ⟨g₁, x, g₂, hg', hx, hp⟩ := hv
        have := hp u hu
        rw [hg']; simp at this ⊢; tauto
      · exact hpb
      · intro v hv hall
        by_cases hin : v ∈ done ++ w :: gen
        · exact List.mem_append_left _ hin
        · refine List.mem_append_right _ ?_
          rw [nextGen_eq, mem_nextGenRec]
          -- the last parent of `v` in the generation
          have hex : ∃ u ∈ w :: gen, g.E u v := by
            by_contra hcon
            push Not at hcon
            apply hin
            apply h5 v hv
            intro u hu
            rcases List.mem_append.1 (hall u hu) with h | h
            · exact h
            · exact absurd hu (hcon u h)
          have last : ∀ (l : List α), (∃ u ∈ l, g.E u v) → ∃ g₁ u g₂, l = g₁ ++ u :: g₂ ∧ g.E u v ∧
              ∀ x ∈ g₂, ¬ g.E x v := by
            intro l
            induction l with
            | nil => simp
            | cons a l ihl =>
              intro hl
              by_cases hl' : ∃ u ∈ l, g.E u v
              · obtain ⟨g₁, u, g₂, rfl, h, h'⟩ := ihl hl'
                exact ⟨a :: g₁, u, g₂, by simp, h, h'⟩
              · push Not at hl'
                obtain ⟨u, hu, huv⟩ := hl
                rcases List.mem_cons.1 hu with rfl | hu
                · exact ⟨[], u, l, rfl, huv, hl'⟩
                · exact absurd huv (hl' u hu)
          obtain ⟨g₁, u, g₂, hsplit, hu, hlast⟩ := last _ hex
          refine ⟨g₁, u, g₂, hsplit, hu, ?_⟩
          intro p hp
          have := hall p hp
          rw [hsplit] at this
          simp at this ⊢
          rcases this with h | h | h | h
          · exact .inl h
          · exact .inr (.inl h)
          · exact .inr (.inr h)
          · exact absurd hp (hlast p h)
      · simp at hf ⊢; omega

theorem topoOut_spec {g : MDG α} (hg : g.WF) :
    let out := topoAux g (g.nodes.length + 1) [] (g.nodes.filter (fun v => (g.preds v).isEmpty))
    out.Nodup ∧ (∀ v ∈ out, v ∈ g.nodes) ∧ ParentsBefore g.E out ∧
      ∀ v ∈ g.nodes, (∀ u, g.E u v → u ∈ out) → v ∈ out := by
  have hemp : ∀ v, (g.preds v).isEmpty = true ↔ ∀ u, ¬ g.E u v := by
    intro v
    rw [List.isEmpty_iff, List.eq_nil_iff_forall_not_mem]
    simp
  apply topoAux_spec hg
  · simpa using hg.nodesNodup.filter _
  · intro v hv; simp at hv; exact hv.1
  · intro v hv u hu
    rw [List.mem_filter, hemp] at hv
    exact absurd hu (hv.2 u)
  · intro l₁ v l₂ h; simp at h
  · intro v hv h
    simp only [List.nil_append, List.mem_filter, hemp]
    exact ⟨hv, fun u hu => by simpa using h u hu⟩
  · simp

omit [DecidableEq α] in
/-- A list ordered parents-first that is closed under parents rules out cycles. -/
theorem acyclic_of_parentsBefore {E : α → α → Prop} {l : List α} (h : ParentsBefore E l)
    (hcov : ∀ a b, E a b → b ∈ l) (hnd : l.Nodup) : Spec.Acyclic E := by
  -- `u` reaches `v` in ≥ 1 steps implies `u` strictly before `v`
  have key : ∀ u v, Spec.Reach1 E u v → ∀ l₁ l₂, l = l₁ ++ v :: l₂ → u ∈ l₁ := by
    intro u v huv
    induction huv with
    | single e => intro l₁ l₂ hl; exact h l₁ _ l₂ hl _ e
    | @tail b c _ e ih =>
      intro l₁ l₂ hl
      have hb := h l₁ _ l₂ hl _ e
      obtain ⟨m₁, m₂, rfl⟩ := List.append_of_mem hb
      have := ih m₁ (m₂ ++ c :: l₂) (by rw [hl]; simp)
      exact List.mem_append_left _ this
  intro a ha
  obtain ⟨b, -, hb⟩ : ∃ b, True ∧ E b a := by
    cases ha with
    | single e => exact ⟨_, trivial, e⟩
    | tail _ e => exact ⟨_, trivial, e⟩
  obtain ⟨l₁, l₂, hl⟩ := List.append_of_mem (hcov b a hb)
  have := key a a ha l₁ l₂ hl
  rw [hl, List.nodup_append] at hnd
  exact hnd.2.2 a this a (by simp) rfl

/-- `nx.topological_sort` fails exactly on cyclic graphs. -/
theorem topologicalSort_ok_iff {g : MDG α} (hg : g.WF) :
    (∃ l, g.topologicalSort = .ok l) ↔ Spec.Acyclic g.E := by
  obtain ⟨h1, h2, h3, h4⟩ := topoOut_spec hg
  constructor
  · rintro ⟨l, hl⟩
    simp only [topologicalSort] at hl
    split at hl
    · rename_i hall
      refine acyclic_of_parentsBefore h3 ?_ h1
      intro a b e
      simp only [List.all_eq_true, decide_eq_true_eq] at hall
      exact hall b (hg.right e)
    · cases hl
  · intro hac
    refine ⟨_, if_pos ?_⟩
    simp only [List.all_eq_true, decide_eq_true_eq]
    have wf := hg.parentsWF hac
    intro v
    induction v using wf.induction with
    | _ v ih =>
      intro hv
      exact h4 v hv (fun u hu => ih u hu (hg.left hu))

/-- Whatever `nx.topological_sort` returns is a topological order of the graph. -/
theorem topologicalSort_spec {g : MDG α} (hg : g.WF) {l : List α} (hl : g.topologicalSort = .ok l) :
    Spec.IsTopoOrder {v | v ∈ g.nodes} g.E l := by
  obtain ⟨h1, h2, h3, h4⟩ := topoOut_spec hg
  simp only [topologicalSort] at hl
  split at hl
  · rename_i hall
    simp only [List.all_eq_true, decide_eq_true_eq] at hall
    cases hl
    exact ⟨h1, fun v => ⟨h2 v, hall v⟩, h3⟩
  · cases hl

theorem isDag_iff {g : MDG α} (hg : g.WF) : g.isDag = true ↔ Spec.Acyclic g.E := by
  rw [← topologicalSort_ok_iff hg]
  unfold isDag
  split
  · rename_i l h; exact ⟨fun _ => ⟨l, h⟩, fun _ => rfl⟩
  · rename_i e h; constructor
    · intro h'; cases h'
    · rintro ⟨l, hl⟩; rw [h] at hl; cases hl

/-! ### ancestors and descendants -/

theorem stepIn_succs {g : MDG α} (hg : g.WF) : StepIn g.nodes g.succs = g.E := by
  funext a b
  simp only [StepIn, mem_succs, eq_iff_iff]
  exact ⟨fun h => h.1, fun h => ⟨h, hg.right h⟩⟩

theorem stepIn_preds {g : MDG α} (hg : g.WF) : StepIn g.nodes g.preds = fun a b => g.E b a := by
  funext a b
  simp only [StepIn, mem_preds, eq_iff_iff]
  exact ⟨fun h => h.1, fun h => ⟨h, hg.left h⟩⟩

theorem mem_ancestors {g : MDG α} (hg : g.WF) {v : α} {l : List α} (h : g.ancestors v = .ok l) (u : α) :
    u ∈ l ↔ Spec.Reach g.E u v ∧ u ≠ v := by
  unfold ancestors at h
  split at h
  · cases h
    simp only [List.mem_filter, mem_reachList, stepIn_preds hg, decide_eq_true_eq, ne_eq]
    rw [show (fun a b => g.E b a) = Function.swap g.E from rfl, Relation.reflTransGen_swap]
  · cases h

theorem mem_descendants {g : MDG α} (hg : g.WF) {v : α} {l : List α} (h : g.descendants v = .ok l)
    (u : α) : u ∈ l ↔ Spec.Reach g.E v u ∧ u ≠ v := by
  unfold descendants at h
  split at h
  · cases h
    simp only [List.mem_filter, mem_reachList, stepIn_succs hg, decide_eq_true_eq, ne_eq]
  · cases h

end MDG
end YL
