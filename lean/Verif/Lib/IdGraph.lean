import Verif.Model.Id
import Verif.Props.Graph

/-! The graphs met by the ID algorithm are induced subgraphs of the original one. -/

set_option linter.unusedSectionVars false

namespace YL

open Spec Props

variable {α : Type} [DecidableEq α]

/-- `g` is the subgraph of the causation `c` with arcs `A` induced by its own keys. -/
structure Ind (c : Causation α) (A : List (α × α)) (g : CG α) : Prop where
  sync : g.Sync
  sub : ∀ v ∈ g.causation.keys, v ∈ c.keys
  par : ∀ u v, Parent g.causation u v ↔ Parent c u v ∧ u ∈ g.causation.keys ∧ v ∈ g.causation.keys
  arc : ∀ u v, (u, v, EKey.n) ∈ g.dag.edges ↔ Paired A u v ∧ u ∈ g.causation.keys ∧ v ∈ g.causation.keys
  node : ∀ v, v ∈ g.dag.nodes ↔ v ∈ g.causation.keys ∧ (OnEdge c v ∨ ∃ u, Paired A u v)

/-- Every name used is a key of the dictionary. -/
structure Declared (c : Causation α) (A : List (α × α)) : Prop where
  parents : ∀ u v, Parent c u v → u ∈ c.keys
  arcs : ∀ u v, Paired A u v → u ∈ c.keys

theorem parent_key {c : Causation α} {u v : α} (h : Parent c u v) : v ∈ c.keys := by
  obtain ⟨ps, h, _⟩ := h; exact List.mem_map_of_mem (f := (·.1)) h

theorem get_nodup {c : Causation α} (hD : IsDict c) (v : α) : (c.get v).Nodup := by
  unfold Causation.get
  cases h : c.lookup v with
  | none => simp
  | some ps =>
    simp only [Option.getD_some]
    have : (v, ps) ∈ c := by
      clear hD
      induction c with
      | nil => simp at h
      | cons kv c ih =>
        obtain ⟨k, qs⟩ := kv
        by_cases hk : v = k
        · subst hk
          rw [Causation.lk_self] at h
          cases h; simp
        · rw [Causation.lk_ne hk] at h
          exact List.mem_cons_of_mem _ (ih h)
    exact hD.2 _ this

theorem ind_init {c : Causation α} {A : List (α × α)} (hD : IsDict c) (hc : Declared c A) :
    Ind c A (CG.init c A) := by
  refine ⟨CG.sync_init hD.1 (get_nodup hD) A, fun v hv => hv, ?_, ?_, ?_⟩
  · intro u v
    exact ⟨fun h => ⟨h, hc.parents u v h, parent_key h⟩, fun h => h.1⟩
  · intro u v
    simp only [CG.init, CG.mem_edges_addArcs, CG.mem_edges_observed, reduceCtorEq, and_false, true_and, false_or]
    exact ⟨fun h => ⟨h, hc.arcs u v h, hc.arcs v u h.symm⟩, fun h => h.1⟩
  · intro v
    rw [CG.mem_nodes_init]
    refine ⟨fun h => ⟨?_, h⟩, fun h => h.2⟩
    rcases h with ⟨u, h | h⟩ | ⟨u, h⟩
    · exact parent_key h
    · exact hc.parents _ _ h
    · exact hc.arcs v u h.symm

section
variable {c : Causation α} {A : List (α × α)} {g : CG α}

theorem Ind.keyNodup (h : Ind c A g) : g.causation.keys.Nodup := h.sync.keys

theorem Ind.closed (h : Ind c A g) : Closed g := by
  refine ⟨fun u v e => ((h.par u v).1 e).2.1, fun u v k e => ?_⟩
  cases k with
  | n => exact ((h.arc u v).1 e).2
  | num k =>
    have := (h.sync.obs u v k).1 e
    obtain ⟨rfl, hg⟩ := this
    have hp : Parent g.causation u v := (Causation.parent_iff h.sync.keys u v).2 hg
    exact ((h.par u v).1 hp).2

theorem Ind.acyclic (h : Ind c A g) (hac : Acyclic (Parent c)) : Acyclic (Parent g.causation) := fun a ha =>
  hac a (Relation.TransGen.mono (fun _ _ e => ((h.par _ _).1 e).1) _ _ ha)

theorem Ind.nodeKey (h : Ind c A g) {v : α} (hv : v ∈ g.dag.nodes) : v ∈ g.causation.keys := ((h.node v).1 hv).1

/-- `build_sub_graph` on an induced subgraph. -/
theorem Ind.build (h : Ind c A g) {S : List α} (hS : ∀ v ∈ S, v ∈ g.causation.keys) :
    ∃ g', g.buildSubGraph S = .ok g' ∧ Ind c A g' ∧ ∀ v, v ∈ g'.causation.keys ↔ v ∈ S := by
  obtain ⟨g', h1, h2, h3, h4, h5, h6⟩ := C06_buildSubGraph_induced g h.sync h.closed S hS
  refine ⟨g', h1, ⟨h2, fun v hv => h.sub v (hS v ((h4 v).1 hv)), ?_, ?_, ?_⟩, h4⟩
  · intro u v
    rw [h5, h.par, h4, h4]
    exact ⟨fun e => ⟨e.1.1, e.2⟩, fun e => ⟨⟨e.1, hS _ e.2.1, hS _ e.2.2⟩, e.2⟩⟩
  · intro u v
    rw [h6, h.arc, h4, h4]
    exact ⟨fun e => ⟨e.1.1, e.2⟩, fun e => ⟨⟨e.1, hS _ e.2.1, hS _ e.2.2⟩, e.2⟩⟩
  · intro v
    unfold CG.buildSubGraph at h1
    split at h1
    · cases h1
      rw [h4]
      simp only [CG.removeNodes, MDG.mem_nodes_removeNodes, h.node, List.mem_filter, decide_eq_true_eq]
      have := hS v
      tauto
    · cases h1

theorem buildSubGraph_ok {S : List α} {g' : CG α} (h : g.buildSubGraph S = .ok g') :
    ∀ v ∈ S, v ∈ g.causation.keys := by
  unfold CG.buildSubGraph checkNodes at h
  split at h
  · rename_i h'
    split at h'
    · rename_i h''; simpa using h''
    · cases h'
  · cases h

theorem removeIncoming_ok {x : List α} {g' : CG α} (h : g.removeIncoming x = .ok g') :
    ∀ v ∈ x, v ∈ g.causation.keys := by
  unfold CG.removeIncoming checkNodes at h
  split at h
  · cases h
  · rename_i h'
    split at h'
    · rename_i h''; simpa using h''
    · cases h'

/-- In an acyclic synchronised graph the reported arcs are the edges with key `n`. -/
theorem paired_latentArcs (hs : g.Sync) (hac : Acyclic (Parent g.causation)) (a b : α) :
    Paired g.latentArcs a b ↔ (a, b, EKey.n) ∈ g.dag.edges := by
  obtain ⟨_, h2, h3, _⟩ := CG.latentArcsOf_spec hs.wf
  have key : ∀ a b, g.dag.E a b → g.dag.E b a → (a, b, EKey.n) ∈ g.dag.edges := by
    intro a b e1 e2
    rw [hs.E_iff] at e1 e2
    rcases e1 with e1 | e1
    · rcases e2 with e2 | e2
      · exact absurd (Relation.TransGen.single e1 |>.tail e2) (hac a)
      · exact hs.sym _ _ e2
    · exact e1
  constructor
  · rintro (h | h)
    · exact key a b (h2 _ _ h).1 (h2 _ _ h).2
    · exact key a b (h2 _ _ h).2 (h2 _ _ h).1
  · intro h
    exact h3 a b ⟨_, h⟩ ⟨_, hs.sym _ _ h⟩

/-- The components of `g` without the nodes `x`. -/
theorem Ind.comps (h : Ind c A g) (hac : Acyclic (Parent c)) (x : List α) :
    ∃ R : α → α → Prop,
      IsPartitionInto {v | v ∈ g.dag.nodes ∧ v ∉ x} R (g.removeNodes x).cComponents ∧
      R = Relation.ReflTransGen (fun a b => Paired A a b ∧ (a ∈ g.causation.keys ∧ a ∉ x) ∧
        (b ∈ g.causation.keys ∧ b ∉ x)) := by
  have hs := CG.sync_removeNodes h.sync x
  have hac' : Acyclic (Parent (g.removeNodes x).causation) := by
    refine fun a ha => h.acyclic hac a (Relation.TransGen.mono (fun u v e => ?_) _ _ ha)
    rw [Causation.parent_iff hs.keys] at e
    rw [Causation.parent_iff h.sync.keys]
    exact (((Causation.get_removeNodes x g.causation h.sync.parents v).2 u).1 e).1
  have h1 := C04_cComponents_partition (g.removeNodes x) hs.wf
  refine ⟨_, ?_, rfl⟩
  have hp : Paired (g.removeNodes x).latentArcs = fun a b => Paired A a b ∧ (a ∈ g.causation.keys ∧ a ∉ x) ∧
      (b ∈ g.causation.keys ∧ b ∉ x) := by
    funext a b
    refine propext ?_
    rw [paired_latentArcs hs hac']
    simp only [CG.removeNodes, MDG.mem_edges_removeNodes, h.arc]
    tauto
  have hl : Linked (g.removeNodes x).latentArcs = Relation.ReflTransGen (fun a b => Paired A a b ∧
      (a ∈ g.causation.keys ∧ a ∉ x) ∧ (b ∈ g.causation.keys ∧ b ∉ x)) := by
    unfold Linked; rw [hp]
  rw [hl] at h1
  have hn : {v | v ∈ (g.removeNodes x).dag.nodes} = {v | v ∈ g.dag.nodes ∧ v ∉ x} := by
    ext v; simp only [CG.removeNodes, MDG.mem_nodes_removeNodes, Set.mem_setOf_eq]
  rwa [hn] at h1

theorem Ind.comps0 (h : Ind c A g) (hac : Acyclic (Parent c)) :
    IsPartitionInto {v | v ∈ g.dag.nodes} (Relation.ReflTransGen (fun a b => Paired A a b ∧ a ∈ g.causation.keys ∧
        b ∈ g.causation.keys)) g.cComponents := by
  have h1 := C04_cComponents_partition g h.sync.wf
  have hp : Paired g.latentArcs = fun a b => Paired A a b ∧ a ∈ g.causation.keys ∧ b ∈ g.causation.keys := by
    funext a b
    refine propext ?_
    rw [paired_latentArcs h.sync (h.acyclic hac), h.arc]
  unfold Linked at h1
  rwa [hp] at h1

end

theorem mapOk_ok {β γ : Type} {f : β → Except Err γ} : ∀ {l : List β} {r : List γ}, mapOk f l = .ok r →
    List.Forall₂ (fun b c => f b = .ok c) l r := by
  intro l
  induction l with
  | nil => intro r h; cases h; exact .nil
  | cons b l ih =>
    intro r h
    rw [mapOk] at h
    cases hb : f b with
    | error e => rw [hb] at h; cases h
    | ok c =>
      rw [hb] at h
      dsimp only at h
      cases hl : mapOk f l with
      | error e => rw [hl] at h; cases h
      | ok cs => rw [hl] at h; cases h; exact .cons hb (ih hl)

theorem mapOk_err {β γ : Type} {f : β → Except Err γ} : ∀ {l : List β} {e : Err}, mapOk f l = .error e →
    ∃ b ∈ l, f b = .error e := by
  intro l
  induction l with
  | nil => intro e h; cases h
  | cons b l ih =>
    intro e h
    rw [mapOk] at h
    cases hb : f b with
    | error e' => rw [hb] at h; cases h; exact ⟨b, by simp, hb⟩
    | ok c =>
      rw [hb] at h
      dsimp only at h
      cases hl : mapOk f l with
      | error e' =>
        rw [hl] at h; cases h
        obtain ⟨b', h1, h2⟩ := ih hl
        exact ⟨b', by simp [h1], h2⟩
      | ok cs => rw [hl] at h; cases h

theorem mapOk_congr {β γ : Type} {f f' : β → Except Err γ} : ∀ {l : List β}, (∀ b ∈ l, f b = f' b) →
    mapOk f l = mapOk f' l := by
  intro l
  induction l with
  | nil => intro _; rfl
  | cons b l ih =>
    intro h
    rw [mapOk, mapOk, h b (by simp), ih (fun b hb => h b (by simp [hb]))]

theorem setEq_iff {a b : List α} : setEq a b = true ↔ ∀ v, v ∈ a ↔ v ∈ b := by
  unfold setEq
  simp only [Bool.and_eq_true, List.all_eq_true, decide_eq_true_eq]
  exact ⟨fun h v => ⟨h.1 v, h.2 v⟩, fun h => ⟨fun v hv => (h v).1 hv, fun v hv => (h v).2 hv⟩⟩

end YL
