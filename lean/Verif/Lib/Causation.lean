import Verif.Lib.CausalGraph

/-! Lemmas about the parents dictionary and about edits. -/

namespace YL

variable {α : Type} [DecidableEq α]

namespace Causation

theorem lk_self (a : α) (ps : List α) (c : Causation α) : List.lookup a ((a, ps) :: c) = some ps := by
  simp

theorem lk_ne {a v : α} (h : v ≠ a) (ps : List α) (c : Causation α) :
    List.lookup v ((a, ps) :: c) = List.lookup v c := by
  have hb : (v == a) = false := by simpa using h
  simp only [List.lookup_cons, hb]

theorem lookup_map (c : Causation α) (k v : α) (f : List α → List α) :
    (c.map (fun p => if p.1 = k then (p.1, f p.2) else p)).lookup v =
      if v = k then (c.lookup k).map f else c.lookup v := by
  induction c with
  | nil => simp
  | cons p c ih =>
    obtain ⟨a, ps⟩ := p
    rw [List.map_cons]
    by_cases hak : a = k
    · subst hak
      simp only [if_true]
      by_cases hva : v = a
      · subst hva; rw [lk_self, if_pos rfl, lk_self]; rfl
      · rw [lk_ne hva, ih, if_neg hva, if_neg hva, lk_ne hva]
    · simp only [hak, if_false]
      by_cases hva : v = a
      · subst hva; rw [lk_self, if_neg hak, lk_self]
      · rw [lk_ne hva, ih, lk_ne hva, lk_ne (fun h => hak h.symm)]

theorem lookup_eq_none {c : Causation α} {k : α} : c.lookup k = none ↔ k ∉ c.keys := by
  induction c with
  | nil => simp [keys]
  | cons p c ih =>
    obtain ⟨a, ps⟩ := p
    by_cases h : k = a
    · subst h; rw [lk_self]; simp [keys]
    · rw [lk_ne h, ih]; simp [keys, h]

theorem lookup_append (c : Causation α) (k v : α) :
    (c ++ [(k, [])]).lookup v = (c.lookup v).or (if v = k then some [] else none) := by
  induction c with
  | nil =>
    by_cases h : v = k
    · subst h; rw [List.nil_append, lk_self]; simp
    · rw [List.nil_append, lk_ne h]; simp [h]
  | cons p c ih =>
    obtain ⟨a, ps⟩ := p
    rw [List.cons_append]
    by_cases h : v = a
    · subst h; rw [lk_self, lk_self]; rfl
    · rw [lk_ne h, lk_ne h, ih]

theorem get_touch (c : Causation α) (k v : α) : (c.touch k).get v = c.get v := by
  unfold touch
  split
  · rfl
  · rename_i hk
    simp only [get, lookup_append]
    cases hv : c.lookup v with
    | some _ => simp
    | none => by_cases h : v = k <;> simp [h]

theorem lookup_touch_self (c : Causation α) (k : α) : (c.touch k).lookup k = some (c.get k) := by
  unfold touch
  split
  · rename_i hk
    cases hl : c.lookup k with
    | some _ => simp [get, hl]
    | none => rw [lookup_eq_none] at hl; exact absurd hk hl
  · rename_i hk
    rw [← lookup_eq_none] at hk
    simp [lookup_append, hk, get]

@[simp] theorem get_modify (c : Causation α) (k v : α) (f : List α → List α) :
    (c.modify k f).get v = if v = k then f (c.get k) else c.get v := by
  unfold modify
  conv_lhs => unfold get
  rw [lookup_map]
  split
  · rw [lookup_touch_self]; simp
  · rw [← get_touch c k v]; rfl

theorem keys_touch (c : Causation α) (k : α) :
    (c.touch k).keys = if k ∈ c.keys then c.keys else c.keys ++ [k] := by
  unfold touch; split <;> simp [keys]

theorem keys_modify (c : Causation α) (k : α) (f : List α → List α) :
    (c.modify k f).keys = if k ∈ c.keys then c.keys else c.keys ++ [k] := by
  rw [← keys_touch]
  unfold modify keys
  rw [List.map_map]
  apply List.map_congr_left
  intro p _
  simp only [Function.comp]
  split <;> rfl

theorem nodup_keys_modify {c : Causation α} (h : c.keys.Nodup) (k : α) (f : List α → List α) :
    (c.modify k f).keys.Nodup := by
  rw [keys_modify]; split
  · exact h
  · rw [List.nodup_append]
    refine ⟨h, by simp, ?_⟩
    rename_i hk
    intro a ha b hb; simp at hb; subst hb; rintro rfl; exact hk ha

theorem parent_iff {c : Causation α} (h : c.keys.Nodup) (u v : α) :
    Spec.Parent c u v ↔ u ∈ c.get v := by
  induction c with
  | nil => simp [Spec.Parent, get]
  | cons p c ih =>
    obtain ⟨a, ps⟩ := p
    simp only [keys, List.map_cons, List.nodup_cons] at h
    have ih' := ih h.2
    by_cases hva : v = a
    · subst hva
      simp only [get, List.lookup_cons, beq_self_eq_true, Option.getD_some]
      constructor
      · rintro ⟨qs, hq, hu⟩
        rcases List.mem_cons.1 hq with hq | hq
        · simp at hq; subst hq; exact hu
        · exact absurd (List.mem_map_of_mem (f := (·.1)) hq) h.1
      · intro hu; exact ⟨ps, by simp, hu⟩
    · have hb : (v == a) = false := by simpa using hva
      have : get ((a, ps) :: c) v = get c v := by simp [get, List.lookup_cons, hb]
      rw [this, ← ih']
      constructor
      · rintro ⟨qs, hq, hu⟩
        rcases List.mem_cons.1 hq with hq | hq
        · simp at hq; exact absurd hq.1 hva
        · exact ⟨qs, hq, hu⟩
      · rintro ⟨qs, hq, hu⟩; exact ⟨qs, List.mem_cons_of_mem _ hq, hu⟩

theorem lookup_del (c : Causation α) (k v : α) :
    (c.del k).lookup v = if v = k then none else c.lookup v := by
  induction c with
  | nil => simp [del]
  | cons p c ih =>
    obtain ⟨a, ps⟩ := p
    simp only [del] at ih
    by_cases hak : a = k
    · subst hak
      simp only [del, List.filter_cons, ne_eq, not_true_eq_false, decide_false, Bool.false_eq_true, if_false, ih]
      by_cases hva : v = a
      · simp [hva]
      · rw [lk_ne hva]
    · simp only [del, List.filter_cons, ne_eq, hak, not_false_eq_true, decide_true, if_true, List.lookup_cons, ih]
      by_cases hva : v = a
      · subst hva; simp [hak]
      · have hb : (v == a) = false := by simpa using hva
        simp [hb]

theorem lookup_mapSnd (c : Causation α) (f : List α → List α) (v : α) :
    List.lookup v (c.map (fun p => (p.1, f p.2))) = (c.lookup v).map f := by
  induction c with
  | nil => simp
  | cons p c ih =>
    obtain ⟨a, ps⟩ := p
    by_cases hva : v = a
    · subst hva; simp
    · have hb : (v == a) = false := by simpa using hva
      simp [List.lookup_cons, hb, ih]

theorem get_removeNode (c : Causation α) (k v : α) :
    (c.removeNode k).get v = if v = k then [] else (c.get v).erase k := by
  unfold removeNode get
  rw [lookup_mapSnd (c.del k) (·.erase k), lookup_del]
  split
  · simp
  · cases c.lookup v <;> simp

theorem keys_removeNode (c : Causation α) (k : α) :
    (c.removeNode k).keys = c.keys.filter (· ≠ k) := by
  simp only [removeNode, keys, del, List.map_map, List.filter_map]
  rfl

theorem keys_removeNodes (ns : List α) : ∀ (c : Causation α),
    (ns.foldl removeNode c).keys = c.keys.filter (· ∉ ns) := by
  induction ns with
  | nil => intro c; simp
  | cons a ns ih =>
    intro c
    rw [List.foldl_cons, ih, keys_removeNode, List.filter_filter]
    apply List.filter_congr
    intro x _
    simp [Bool.and_comm]

theorem get_removeNodes (ns : List α) : ∀ (c : Causation α), (∀ v, (c.get v).Nodup) → ∀ v,
    ((ns.foldl removeNode c).get v).Nodup ∧
    ∀ u, u ∈ (ns.foldl removeNode c).get v ↔ u ∈ c.get v ∧ u ∉ ns ∧ v ∉ ns := by
  induction ns with
  | nil => intro c h v; simp [h v]
  | cons a ns ih =>
    intro c h v
    rw [List.foldl_cons]
    have h' : ∀ v, ((c.removeNode a).get v).Nodup := by
      intro v; rw [get_removeNode]; split
      · simp
      · exact (h v).erase _
    refine ⟨(ih _ h' v).1, fun u => ?_⟩
    rw [(ih _ h' v).2 u, get_removeNode]
    split
    · rename_i hva; subst hva; simp
    · rename_i hva
      rw [(h v).mem_erase_iff]
      simp [hva]; tauto

end Causation

namespace CG

/-- The dictionary and the networkx graph describe the same causal graph. -/
structure Sync (g : CG α) : Prop where
  keys : g.causation.keys.Nodup
  parents : ∀ v, (g.causation.get v).Nodup
  wf : g.dag.WF
  obs : ∀ u v k, (u, v, EKey.num k) ∈ g.dag.edges ↔ k = 0 ∧ u ∈ g.causation.get v
  sym : ∀ u v, (u, v, EKey.n) ∈ g.dag.edges → (v, u, EKey.n) ∈ g.dag.edges

theorem Sync.parent {g : CG α} (h : g.Sync) {u v : α} :
    Spec.Parent g.causation u v ↔ (u, v, EKey.num 0) ∈ g.dag.edges := by
  rw [Causation.parent_iff h.keys, h.obs]; simp

theorem Sync.E_iff {g : CG α} (h : g.Sync) {u v : α} :
    g.dag.E u v ↔ Spec.Parent g.causation u v ∨ (u, v, EKey.n) ∈ g.dag.edges := by
  rw [h.parent]
  constructor
  · rintro ⟨k, hk⟩
    cases k with
    | num k =>
      have := (h.obs u v k).1 hk
      obtain ⟨rfl, _⟩ := this
      exact .inl hk
    | n => exact .inr hk
  · rintro (h | h)
    · exact ⟨_, h⟩
    · exact ⟨_, h⟩

theorem sync_init {c : Causation α} (hk : c.keys.Nodup) (hp : ∀ v, (c.get v).Nodup)
    (A : List (α × α)) : (init c A).Sync := by
  refine ⟨hk, hp, wf_init c A, ?_, ?_⟩
  · intro u v k
    simp only [init, mem_edges_addArcs, mem_edges_observed, EKey.num.injEq, reduceCtorEq, false_and,
      or_false, Causation.parent_iff hk]
    tauto
  · intro u v h
    simp only [init, mem_edges_addArcs, mem_edges_observed, reduceCtorEq, and_false, true_and, false_or] at h ⊢
    exact h.symm

theorem sync_addObs {g : CG α} (h : g.Sync) {e : α × α} (hn : e.1 ∉ g.causation.get e.2) :
    (g.addObs e).Sync := by
  obtain ⟨a, b⟩ := e
  refine ⟨Causation.nodup_keys_modify h.keys b (· ++ [a]), ?_, MDG.wf_addEdge h.wf _ _ _, ?_, ?_⟩
  · intro v
    simp only [addObs, Causation.get_modify]
    split
    · rw [List.nodup_append]
      refine ⟨h.parents _, by simp, ?_⟩
      intro x hx y hy; simp at hy; subst hy; rintro rfl; exact hn hx
    · exact h.parents v
  · intro u v k
    simp only [addObs, MDG.mem_edges_addEdge, h.obs, Causation.get_modify, Prod.mk.injEq, EKey.num.injEq]
    split
    · rename_i hv; subst hv; simp; tauto
    · rename_i hv; simp [hv]
  · intro u v
    simp only [addObs, MDG.mem_edges_addEdge, Prod.mk.injEq, reduceCtorEq, and_false, or_false]
    exact h.sym u v

theorem sync_addArc {g : CG α} (h : g.Sync) (e : α × α) : ({ g with dag := addArc g.dag e } : CG α).Sync := by
  refine ⟨h.keys, h.parents, wf_addArc h.wf e, ?_, ?_⟩
  · intro u v k
    simp only [mem_edges_addArc, h.obs, Prod.mk.injEq, reduceCtorEq, and_false, or_false]
  · intro u v
    simp only [mem_edges_addArc, Prod.mk.injEq, and_true]
    rintro (h' | ⟨rfl, rfl⟩ | ⟨rfl, rfl⟩)
    · exact .inl (h.sym _ _ h')
    · right; right; exact ⟨rfl, rfl⟩
    · right; left; exact ⟨rfl, rfl⟩

theorem sync_removeNodes {g : CG α} (h : g.Sync) (ns : List α) : (g.removeNodes ns).Sync := by
  have hg := Causation.get_removeNodes ns g.causation h.parents
  refine ⟨?_, fun v => (hg v).1, MDG.wf_removeNodes h.wf ns, ?_, ?_⟩
  · simp only [removeNodes, Causation.keys_removeNodes]; exact h.keys.filter _
  · intro u v k
    simp only [removeNodes, MDG.mem_edges_removeNodes, h.obs, (hg v).2]
    tauto
  · intro u v
    simp only [removeNodes, MDG.mem_edges_removeNodes]
    rintro ⟨h1, h2, h3⟩; exact ⟨h.sym _ _ h1, h3, h2⟩

theorem removeObs_ok {g : CG α} (h : g.Sync) {e : α × α} (he : e.1 ∈ g.causation.get e.2) :
    ∃ g', g.removeObs e = .ok g' ∧ g'.Sync ∧
      (∀ u v, u ∈ g'.causation.get v ↔ u ∈ g.causation.get v ∧ (u, v) ≠ e) ∧
      (∀ u v, (u, v, EKey.n) ∈ g'.dag.edges ↔ (u, v, EKey.n) ∈ g.dag.edges) ∧
      g'.dag.nodes = g.dag.nodes ∧ g'.causation.keys = g.causation.keys := by
  obtain ⟨a, b⟩ := e
  have hmem : (a, b, EKey.num 0) ∈ g.dag.edges := (h.obs a b 0).2 ⟨rfl, he⟩
  refine ⟨⟨g.causation.modify b (·.erase a),
    { g.dag with edges := g.dag.edges.filter (· ≠ (a, b, .num 0)) }⟩, ?_, ?_, ?_, ?_, rfl, ?_⟩
  · simp [removeObs, MDG.removeEdge, hmem]
  · refine ⟨Causation.nodup_keys_modify h.keys b (·.erase a), ?_, MDG.wf_filterEdges h.wf _, ?_, ?_⟩
    · intro v; simp only [Causation.get_modify]; split
      · exact (h.parents _).erase _
      · exact h.parents v
    · intro u v k
      simp only [List.mem_filter, h.obs, Causation.get_modify, ne_eq, Prod.mk.injEq, EKey.num.injEq,
        decide_eq_true_eq]
      split
      · rename_i hv; subst hv
        rw [(h.parents v).mem_erase_iff]; tauto
      · rename_i hv; simp [hv]
    · intro u v hu
      simp only [List.mem_filter, ne_eq, Prod.mk.injEq, reduceCtorEq, and_false, not_false_eq_true,
        decide_true, and_true] at hu ⊢
      exact h.sym _ _ hu
  · intro u v
    simp only [Causation.get_modify, ne_eq, Prod.mk.injEq]
    split
    · rename_i hv; subst hv
      rw [(h.parents v).mem_erase_iff]; tauto
    · rename_i hv; simp [hv]
  · intro u v; simp
  · rw [Causation.keys_modify, if_pos]
    by_contra hb
    rw [← Causation.lookup_eq_none] at hb
    simp [Causation.get, hb] at he

theorem removeObs_err {g : CG α} (h : g.Sync) {e : α × α} (he : e.1 ∉ g.causation.get e.2) :
    g.removeObs e = .error .networkx := by
  have : (e.1, e.2, EKey.num 0) ∉ g.dag.edges := by rw [h.obs]; tauto
  simp [removeObs, MDG.removeEdge, this]

/-- Removing a list of distinct existing observed edges succeeds and removes exactly those. -/
theorem removeObsEdges_ok : ∀ (es : List (α × α)) (g : CG α), g.Sync → es.Nodup →
    (∀ e ∈ es, e.1 ∈ g.causation.get e.2) →
    ∃ g', g.removeObsEdges es = (g', none) ∧ g'.Sync ∧
      (∀ u v, u ∈ g'.causation.get v ↔ u ∈ g.causation.get v ∧ (u, v) ∉ es) ∧
      (∀ u v, (u, v, EKey.n) ∈ g'.dag.edges ↔ (u, v, EKey.n) ∈ g.dag.edges) ∧
      g'.dag.nodes = g.dag.nodes ∧ g'.causation.keys = g.causation.keys := by
  intro es
  induction es with
  | nil => intro g h _ _; exact ⟨g, rfl, h, by simp, by simp, rfl, rfl⟩
  | cons e es ih =>
    intro g h hnd hin
    rw [List.nodup_cons] at hnd
    obtain ⟨g1, h1, h2, h3, h4, h5, h6⟩ := removeObs_ok h (hin e (by simp))
    obtain ⟨g2, k1, k2, k3, k4, k5, k6⟩ := ih g1 h2 hnd.2 (by
      intro e' he'
      rw [h3]
      refine ⟨hin e' (List.mem_cons_of_mem _ he'), ?_⟩
      rintro rfl; exact hnd.1 he')
    refine ⟨g2, ?_, k2, ?_, ?_, by rw [k5, h5], by rw [k6, h6]⟩
    · simp [removeObsEdges, h1, k1]
    · intro u v; rw [k3, h3]; simp; tauto
    · intro u v; rw [k4, h4]

theorem sync_removeArc {g : CG α} (h : g.Sync) (e : α × α) :
    (g.removeArc e).Sync ∧
    (∀ u v, (u, v, EKey.n) ∈ (g.removeArc e).dag.edges ↔
      (u, v, EKey.n) ∈ g.dag.edges ∧ (u, v) ≠ e ∧ (v, u) ≠ e) := by
  have hn : ∀ u v, (u, v, EKey.n) ∈ (g.removeArc e).dag.edges ↔
      (u, v, EKey.n) ∈ g.dag.edges ∧ (u, v) ≠ e ∧ (v, u) ≠ e := by
    obtain ⟨a, b⟩ := e
    intro u v
    simp [removeArc, MDG.removeEdges]; tauto
  refine ⟨⟨h.keys, h.parents, MDG.wf_filterEdges h.wf _, ?_, ?_⟩, hn⟩
  · intro u v k
    simp only [removeArc, MDG.removeEdges, List.mem_filter]
    simp [h.obs]
  · intro u v hu
    rw [hn] at hu ⊢
    exact ⟨h.sym _ _ hu.1, hu.2.2, hu.2.1⟩

theorem removeArcs_spec : ∀ (es : List (α × α)) (g : CG α), g.Sync →
    (es.foldl removeArc g).Sync ∧ (es.foldl removeArc g).causation = g.causation ∧
    (es.foldl removeArc g).dag.nodes = g.dag.nodes ∧
    ∀ u v, (u, v, EKey.n) ∈ (es.foldl removeArc g).dag.edges ↔
      (u, v, EKey.n) ∈ g.dag.edges ∧ (u, v) ∉ es ∧ (v, u) ∉ es := by
  intro es
  induction es with
  | nil => intro g h; exact ⟨h, rfl, rfl, by simp⟩
  | cons e es ih =>
    intro g h
    obtain ⟨h1, h2⟩ := sync_removeArc h e
    obtain ⟨k1, k2, k3, k4⟩ := ih _ h1
    refine ⟨k1, by simpa [removeArc] using k2, by simpa [removeArc, MDG.removeEdges] using k3, ?_⟩
    intro u v
    rw [List.foldl_cons, k4, h2]; simp; tauto

end CG
end YL
