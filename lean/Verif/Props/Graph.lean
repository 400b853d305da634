import Verif.Lib.Causation

/-!
# C01-C08: `CausalGraph`
-/

namespace YL.Props

open YL Spec

variable {α : Type} [DecidableEq α]

/-- C01. `ancestors(x)` is exactly `x` together with everything that reaches `x` along observed edges. -/
theorem C01_ancestors_exact (g : CG α) (x : List α) (a : α) :
    a ∈ g.ancestors x ↔ ∃ v ∈ x, Reach (Parent g.causation) a v := by
  simp only [CG.ancestors, ancestorsOfIter, List.mem_flatMap]
  apply exists_congr; intro v
  apply and_congr_right; intro _
  rw [List.mem_cons]
  cases h : g.observedDag.ancestors v with
  | ok l =>
    rw [MDG.mem_ancestors (CG.wf_observed _) h]
    rw [CG.E_observed_eq]
    constructor
    · rintro (rfl | h)
      · exact .refl
      · exact h.1
    · intro h; by_cases hav : a = v
      · exact .inl hav
      · exact .inr ⟨h, hav⟩
  | error e =>
    simp only [List.not_mem_nil, or_false]
    constructor
    · rintro rfl; exact .refl
    · intro hr
      unfold MDG.ancestors at h
      split at h
      · cases h
      · rename_i hn
        rcases hr.cases_tail with rfl | ⟨c, _, hc⟩
        · rfl
        · exfalso; apply hn
          exact CG.mem_nodes_observed.2 ⟨c, .inl hc⟩

/-- C01. `descendents(x)` is exactly `x` together with everything reached from `x` along observed edges. -/
theorem C01_descendents_exact (g : CG α) (x : List α) (a : α) :
    a ∈ g.descendents x ↔ ∃ v ∈ x, Reach (Parent g.causation) v a := by
  simp only [CG.descendents, descendentsOfIter, List.mem_flatMap]
  apply exists_congr; intro v
  apply and_congr_right; intro _
  rw [List.mem_cons]
  cases h : g.observedDag.descendants v with
  | ok l =>
    rw [MDG.mem_descendants (CG.wf_observed _) h]
    rw [CG.E_observed_eq]
    constructor
    · rintro (rfl | h)
      · exact .refl
      · exact h.1
    · intro h; by_cases hav : a = v
      · exact .inl hav
      · exact .inr ⟨h, hav⟩
  | error e =>
    simp only [List.not_mem_nil, or_false]
    constructor
    · rintro rfl; exact .refl
    · intro hr
      unfold MDG.descendants at h
      split at h
      · cases h
      · rename_i hn
        rcases hr.cases_head with rfl | ⟨c, hc, _⟩
        · rfl
        · exfalso; apply hn
          exact CG.mem_nodes_observed.2 ⟨c, .inr hc⟩

/-- non-vacuity: a chain, an isolated node, an unknown name -/
example : (CG.init [("a", []), ("b", ["a"]), ("c", ["b"]), ("d", [])] [("a", "c")]).ancestors ["c", "zz"]
    = ["c", "b", "a", "zz"] := by decide

/-- C02. `is_dag` is True exactly when no observed directed walk returns to its start. -/
theorem C02_isDag_iff (g : CG α) : g.isDag = true ↔ Acyclic (Parent g.causation) := by
  unfold CG.isDag CG.observedDag
  rw [MDG.isDag_iff (CG.wf_observed _), CG.E_observed_eq]

/-- C02. When the graph is acyclic `topo_order` lists every node that has an observed edge exactly once,
parents before children; on a cyclic graph it fails. -/
theorem C02_topoOrder (g : CG α) :
    (Acyclic (Parent g.causation) → ∃ l, g.topoOrder = .ok l ∧
      IsTopoOrder {v | OnEdge g.causation v} (Parent g.causation) l) ∧
    (¬ Acyclic (Parent g.causation) → g.topoOrder = .error .unfeasible) := by
  constructor
  · intro h
    rw [← CG.E_observed_eq, ← MDG.topologicalSort_ok_iff (CG.wf_observed _)] at h
    obtain ⟨l, hl⟩ := h
    refine ⟨l, hl, ?_⟩
    have := MDG.topologicalSort_spec (CG.wf_observed _) hl
    rw [CG.E_observed_eq] at this
    simpa only [CG.mem_nodes_observed] using this
  · intro h
    rw [← CG.E_observed_eq, ← MDG.topologicalSort_ok_iff (CG.wf_observed _)] at h
    unfold CG.topoOrder CG.observedDag
    unfold MDG.topologicalSort at h ⊢
    simp only at h ⊢
    split at h
    · exact absurd ⟨_, rfl⟩ h
    · rename_i hn; rw [if_neg hn]

example : (CG.init [("c", ["a", "b"]), ("a", []), ("b", ["a"])]).topoOrder = .ok ["a", "b", "c"] := by
  decide
example : (CG.init [("a", ["b"]), ("b", ["a"])]).topoOrder = .error .unfeasible := by decide

/-- C02, finding: a declared node without any observed edge is missing from `topo_order`. -/
theorem C02_topoOrder_omits_isolated :
    (CG.init [("x", []), ("y", ["x"]), ("z", [])]).topoOrder = .ok ["x", "y"] := by decide

/-- C03. `latent_confounding_arcs` reports every declared arc exactly once and nothing else. -/
theorem C03_latentArcs_exact (c : Causation α) (A : List (α × α)) (hac : Acyclic (Parent c))
    (hA : ∀ a, (a, a) ∉ A) :
    let arcs := (CG.init c A).latentArcs
    arcs.Nodup ∧ (∀ a b, Paired arcs a b ↔ Paired A a b) ∧ ∀ a b, (a, b) ∈ arcs → (b, a) ∉ arcs := by
  obtain ⟨h1, h2, h3, h4⟩ := CG.latentArcsOf_spec (CG.wf_init c A)
  have hne : ∀ a, ¬ Paired A a a := by rintro a (h | h) <;> exact hA a h
  have hE : ∀ a b, (CG.init c A).dag.E a b → (CG.init c A).dag.E b a → Paired A a b := by
    intro a b e1 e2
    rw [CG.E_init] at e1 e2
    rcases e1 with e1 | e1
    · rcases e2 with e2 | e2
      · exact absurd (Relation.TransGen.single e1 |>.tail e2) (hac a)
      · exact e2.symm
    · exact e1
  refine ⟨h1, ?_, ?_⟩
  · intro a b
    constructor
    · rintro (h | h)
      · exact hE a b (h2 _ _ h).1 (h2 _ _ h).2
      · exact hE a b (h2 _ _ h).2 (h2 _ _ h).1
    · intro h
      exact h3 a b (CG.E_init.2 (.inr h)) (CG.E_init.2 (.inr h.symm))
  · intro a b h
    refine h4 a b h ?_
    rintro rfl
    exact hne a (hE a a (h2 _ _ h).1 (h2 _ _ h).2)

example : (CG.init [("x", []), ("m", ["x"]), ("y", ["m"])] [("y", "x"), ("x", "y"), ("m", "x")]).latentArcs
    = [("x", "m"), ("x", "y")] := by decide

/-- C03, finding: on a cyclic causation an observed two-cycle is reported as a latent arc. -/
theorem C03_two_cycle_reported :
    (CG.init [("a", ["b"]), ("b", ["a"])]).latentArcs = [("b", "a")] := by decide

/-- C04. `c_components` partitions the nodes of the graph into the classes linked by reported arcs. -/
theorem C04_cComponents_partition (g : CG α) (hg : g.dag.WF) :
    IsPartitionInto {v | v ∈ g.dag.nodes} (Linked g.latentArcs) g.cComponents := by
  apply CG.connectedComponents_spec
  intro a b h
  have := (CG.latentArcsOf_spec hg).2.1 a b h
  exact ⟨hg.left this.1, hg.right this.1⟩

/-- C04. For a graph built from an acyclic causation and declared arcs, the classes are those of the
declared arcs; the nodes are the ends of observed edges and of arcs. -/
theorem C04_cComponents_declared (c : Causation α) (A : List (α × α)) (hac : Acyclic (Parent c))
    (hA : ∀ a, (a, a) ∉ A) :
    IsPartitionInto {v | OnEdge c v ∨ ∃ u, Paired A u v} (Linked A) (CG.init c A).cComponents := by
  have h := C04_cComponents_partition (CG.init c A) (CG.wf_init c A)
  have hp : Paired (CG.init c A).latentArcs = Paired A := by
    funext a b; exact propext ((C03_latentArcs_exact c A hac hA).2.1 a b)
  have hl : Linked (CG.init c A).latentArcs = Linked A := by unfold Linked; rw [hp]
  rw [hl] at h
  simpa only [CG.mem_nodes_init] using h

example : (CG.init [("x", []), ("m", ["x"]), ("y", ["m"])] [("x", "y")]).cComponents
    = [["x", "y"], ["m"]] := by decide

/-! ### C05 -/

/-- The model state `g` represents the abstract graph `a`: the dictionary and the networkx graph both
hold exactly its observed edges, and the networkx graph exactly its latent arcs. -/
structure Represents (g : CG α) (a : AbsGraph α) : Prop where
  dict : ∀ u v, Parent g.causation u v ↔ a.obs u v
  dagObs : ∀ u v k, (u, v, EKey.num k) ∈ g.dag.edges ↔ k = 0 ∧ a.obs u v
  dagLat : ∀ u v, (u, v, EKey.n) ∈ g.dag.edges ↔ a.lat u v

theorem repr_get {g : CG α} {a : AbsGraph α} (hs : g.Sync) (hr : Represents g a) (u v : α) :
    u ∈ g.causation.get v ↔ a.obs u v := by
  rw [← Causation.parent_iff hs.keys]; exact hr.dict u v

theorem repr_mk {g : CG α} {a : AbsGraph α} (hs : g.Sync)
    (h1 : ∀ u v, u ∈ g.causation.get v ↔ a.obs u v)
    (h2 : ∀ u v, (u, v, EKey.n) ∈ g.dag.edges ↔ a.lat u v) : Represents g a := by
  refine ⟨?_, ?_, h2⟩
  · intro u v; rw [Causation.parent_iff hs.keys]; exact h1 u v
  · intro u v k; rw [hs.obs, h1]

theorem addObs_fold : ∀ (es : List (α × α)) (g : CG α) (a : AbsGraph α), g.Sync → Represents g a →
    es.Nodup → (∀ e ∈ es, ¬ a.obs e.1 e.2) →
    (es.foldl CG.addObs g).Sync ∧
    Represents (es.foldl CG.addObs g) ⟨fun u v => a.obs u v ∨ (u, v) ∈ es, a.lat⟩ := by
  intro es
  induction es with
  | nil => intro g a hs hr _ _; exact ⟨hs, by simpa using hr⟩
  | cons e es ih =>
    intro g a hs hr hnd hn
    rw [List.nodup_cons] at hnd
    have hnew : e.1 ∉ g.causation.get e.2 := by rw [repr_get hs hr]; exact hn e (by simp)
    have hs' := CG.sync_addObs hs hnew
    have hr' : Represents (g.addObs e) ⟨fun u v => a.obs u v ∨ (u, v) = e, a.lat⟩ := by
      obtain ⟨x, y⟩ := e
      apply repr_mk hs'
      · intro u v
        simp only [CG.addObs, Causation.get_modify]
        split
        · rename_i hv; subst hv; simp [repr_get hs hr]
        · rename_i hv; simp [repr_get hs hr, hv]
      · intro u v
        simp only [CG.addObs, MDG.mem_edges_addEdge, hr.dagLat]; simp
    obtain ⟨k1, k2⟩ := ih _ _ hs' hr' hnd.2 (by
      rintro e' he' (h | h)
      · exact hn e' (List.mem_cons_of_mem _ he') h
      · simp only [Prod.mk.eta] at h; subst h; exact hnd.1 he')
    refine ⟨k1, ?_⟩
    simp only [List.foldl_cons]
    convert k2 using 2
    funext u v; simp; tauto

theorem sync_addArcs (es : List (α × α)) : ∀ g : CG α, g.Sync →
    ({ g with dag := es.foldl CG.addArc g.dag } : CG α).Sync := by
  induction es with
  | nil => intro g h; exact h
  | cons e es ih => intro g h; exact ih _ (CG.sync_addArc h e)

theorem removeObs_refines : ∀ (es : List (α × α)) (g : CG α) (a : AbsGraph α), g.Sync → Represents g a →
    (g.removeObsEdges es).1.Sync ∧ Represents (g.removeObsEdges es).1 (a.removeObs es).1 ∧
    ((a.removeObs es).2 = true ↔ (g.removeObsEdges es).2 ≠ none) := by
  intro es
  induction es with
  | nil => intro g a hs hr; exact ⟨hs, hr, by simp [AbsGraph.removeObs, CG.removeObsEdges]⟩
  | cons e es ih =>
    intro g a hs hr
    by_cases he : a.obs e.1 e.2
    · obtain ⟨g', h1, h2, h3, h4, -, -⟩ := CG.removeObs_ok hs ((repr_get hs hr _ _).2 he)
      have hr' : Represents g' ⟨fun u v => a.obs u v ∧ (u, v) ≠ e, a.lat⟩ :=
        repr_mk h2 (fun u v => by rw [h3, repr_get hs hr]) (fun u v => by rw [h4, hr.dagLat])
      have := ih g' _ h2 hr'
      simpa [CG.removeObsEdges, h1, AbsGraph.removeObs, he] using this
    · have := CG.removeObs_err hs (e := e) (fun h => he ((repr_get hs hr _ _).1 h))
      simp [CG.removeObsEdges, this, AbsGraph.removeObs, he, hs, hr]

theorem step_refines (g : CG α) (a : AbsGraph α) (hs : g.Sync) (hr : Represents g a) (op : Edit α)
    (hl : a.Legal op) :
    (g.step op).1.Sync ∧ Represents (g.step op).1 (a.step op).1 ∧
    ((a.step op).2 = true ↔ (g.step op).2 ≠ none) := by
  have harcs : ∀ es : List (α × α), ({ g with dag := es.foldl CG.addArc g.dag } : CG α).Sync ∧
      Represents ({ g with dag := es.foldl CG.addArc g.dag } : CG α)
        ⟨a.obs, fun u v => a.lat u v ∨ Paired es u v⟩ := by
    intro es
    have h := sync_addArcs es g hs
    exact ⟨h, repr_mk h (fun u v => repr_get hs hr u v) (fun u v => by simp [CG.mem_edges_addArcs, hr.dagLat])⟩
  have hrem : ∀ es : List (α × α), (es.foldl CG.removeArc g).Sync ∧
      Represents (es.foldl CG.removeArc g) ⟨a.obs, fun u v => a.lat u v ∧ ¬ Paired es u v⟩ := by
    intro es
    obtain ⟨h1, h2, -, h4⟩ := CG.removeArcs_spec es g hs
    refine ⟨h1, repr_mk h1 (fun u v => by rw [h2]; exact repr_get hs hr u v) (fun u v => ?_)⟩
    rw [h4, hr.dagLat]; simp [Paired]
  cases op with
  | addNodes ns =>
    have hc : (g.addNodes ns).causation = g.causation := by
      have hmem : ∀ (l : List α) (d : MDG α) (v : α), (v ∈ d.nodes ∨ v ∈ l) → v ∈ (l.foldl MDG.addNode d).nodes := by
        intro l
        induction l with
        | nil => intro d v h; simpa using h
        | cons w l ih =>
          intro d v h
          rw [List.foldl_cons]
          apply ih
          rw [MDG.mem_addNode]
          simp at h; tauto
      simp only [CG.addNodes]
      have : ∀ (l : List α) (c : Causation α), (∀ v ∈ l, v ∈ (g.dag.addNodes ns).nodes) →
          l.foldl (fun c v => if v ∉ (g.dag.addNodes ns).nodes then c.modify v (fun _ => []) else c) c = c := by
        intro l
        induction l with
        | nil => intro c _; rfl
        | cons w l ih =>
          intro c h
          rw [List.foldl_cons, if_neg (by simpa using h w (by simp))]
          exact ih c (fun v hv => h v (List.mem_cons_of_mem _ hv))
      exact this ns _ (fun v hv => hmem ns g.dag v (.inr hv))
    have hd : (g.addNodes ns).dag = g.dag.addNodes ns := rfl
    have he : ∀ (l : List α) (d : MDG α), (l.foldl MDG.addNode d).edges = d.edges := by
      intro l; induction l with
      | nil => intro d; rfl
      | cons w l ih => intro d; rw [List.foldl_cons, ih]; simp
    have he' : (g.addNodes ns).dag.edges = g.dag.edges := he ns g.dag
    have hwf : (g.addNodes ns).dag.WF := MDG.wf_foldl _ (fun _ b h => MDG.wf_addNode h b) ns g.dag hs.wf
    have hs' : (g.addNodes ns).Sync :=
      ⟨by rw [hc]; exact hs.keys, by rw [hc]; exact hs.parents, hwf,
        by rw [hc, he']; exact hs.obs, by rw [he']; exact hs.sym⟩
    refine ⟨hs', ?_, by simp [AbsGraph.step, CG.step]⟩
    exact repr_mk hs' (by simp only [CG.step]; rw [hc]; exact repr_get hs hr)
      (by simp only [CG.step]; rw [he']; exact hr.dagLat)
  | addEdgesFrom es o =>
    cases o with
    | true =>
      obtain ⟨h1, h2⟩ := addObs_fold es g a hs hr hl.1 hl.2
      exact ⟨h1, h2, by simp [AbsGraph.step, CG.step]⟩
    | false =>
      obtain ⟨h1, h2⟩ := harcs es
      exact ⟨h1, h2, by simp [AbsGraph.step, CG.step]⟩
  | addEdge s t o =>
    cases o with
    | true =>
      obtain ⟨h1, h2⟩ := addObs_fold [(s, t)] g a hs hr (by simp) (by simpa [AbsGraph.Legal] using hl)
      refine ⟨h1, ?_, by simp [AbsGraph.step, CG.step]⟩
      simpa [AbsGraph.step, CG.step, CG.addEdge] using h2
    | false => exact hl.elim
  | removeNodes ns =>
    have h1 := CG.sync_removeNodes hs ns
    refine ⟨h1, ?_, by simp [AbsGraph.step, CG.step]⟩
    apply repr_mk h1
    · intro u v
      have := (Causation.get_removeNodes ns g.causation hs.parents v).2 u
      simp only [CG.step, CG.removeNodes, AbsGraph.step, this, repr_get hs hr]
    · intro u v
      simp only [CG.step, CG.removeNodes, AbsGraph.step, MDG.mem_edges_removeNodes, hr.dagLat]
  | removeEdge e o =>
    cases o with
    | true => exact removeObs_refines [e] g a hs hr
    | false =>
      obtain ⟨h1, h2⟩ := hrem [e]
      exact ⟨h1, h2, by simp [AbsGraph.step, CG.step, CG.removeEdgesFrom]⟩
  | removeEdgesFrom es o =>
    cases o with
    | true => exact removeObs_refines es g a hs hr
    | false =>
      obtain ⟨h1, h2⟩ := hrem es
      exact ⟨h1, h2, by simp [AbsGraph.step, CG.step, CG.removeEdgesFrom]⟩

theorem run_refines (ops : List (Edit α)) : ∀ (g : CG α) (a : AbsGraph α), g.Sync → Represents g a →
    a.LegalHistory ops →
    (g.run ops).1.Sync ∧ Represents (g.run ops).1 (a.run ops).1 ∧
      (g.run ops).2.map (fun r => decide (r ≠ none)) = (a.run ops).2 := by
  induction ops with
  | nil => intro g a hs hr _; exact ⟨hs, hr, rfl⟩
  | cons op ops ih =>
    intro g a hs hr hl
    obtain ⟨h1, h2, h3⟩ := step_refines g a hs hr op hl.1
    obtain ⟨k1, k2, k3⟩ := ih _ _ h1 h2 hl.2
    refine ⟨k1, k2, ?_⟩
    simp only [CG.run, AbsGraph.run, List.map_cons, k3]
    congr 1
    rw [Bool.eq_iff_iff, h3]; simp

/-- C05, part proved: for every history of in-place edits (failed calls included) that never re-adds an
existing observed edge and does not call `add_edge(observed=False)`, both the dictionary and the networkx
graph hold exactly the observed edges and latent arcs of the abstract graph, and exactly the calls that
ask for the removal of a missing observed edge raise. Missing: re-added edges and one-way arcs, for which
the claim is false (`C05_readd_desync`, `C05_one_way_arc`). -/
theorem C05_history_in_step_partial (c : Causation α) (A : List (α × α)) (hk : c.keys.Nodup)
    (hp : ∀ v ps, (v, ps) ∈ c → ps.Nodup) (ops : List (Edit α))
    (hl : (AbsGraph.mk (Parent c) (Paired A)).LegalHistory ops) :
    let g := ((CG.init c A).run ops).1
    let a := ((AbsGraph.mk (Parent c) (Paired A)).run ops)
    (∀ u v, Parent g.causation u v ↔ a.1.obs u v) ∧
    (∀ u v k, (u, v, EKey.num k) ∈ g.dag.edges ↔ k = 0 ∧ a.1.obs u v) ∧
    (∀ u v, (u, v, EKey.n) ∈ g.dag.edges ↔ a.1.lat u v) ∧
    ((CG.init c A).run ops).2.map (fun r => decide (r ≠ none)) = a.2 := by
  have hget : ∀ v, (c.get v).Nodup := by
    intro v
    unfold Causation.get
    cases h : c.lookup v with
    | none => simp
    | some ps =>
      have : (v, ps) ∈ c := by
        clear hl hp hk
        induction c with
        | nil => simp at h
        | cons p c ih =>
          obtain ⟨b, qs⟩ := p
          by_cases hv : v = b
          · subst hv; rw [Causation.lk_self] at h; simp at h; subst h; simp
          · rw [Causation.lk_ne hv] at h; exact List.mem_cons_of_mem _ (ih h)
      simpa using hp v ps this
  have hs := CG.sync_init hk hget A
  have hr : Represents (CG.init c A) ⟨Parent c, Paired A⟩ :=
    repr_mk hs (fun u v => (Causation.parent_iff hk u v).symm)
      (fun u v => by simp [CG.init, CG.mem_edges_addArcs, CG.mem_edges_observed])
  obtain ⟨h1, h2, h3⟩ := run_refines ops _ _ hs hr hl
  exact ⟨h2.dict, h2.dagObs, h2.dagLat, h3⟩

/-- non-vacuity: a legal history that adds, fails, removes and re-adds -/
example : (AbsGraph.mk (Parent [("x", []), ("y", ["x"])]) (Paired [("x", "y")])).LegalHistory
    [.addEdge "z" "y" true, .removeEdge ("z", "x") true, .removeEdge ("x", "y") true,
     .addEdge "x" "y" true, .removeNodes ["z"]] := by
  simp [AbsGraph.LegalHistory, AbsGraph.Legal, AbsGraph.step, AbsGraph.removeObs, Parent]

/-- C05: as long as the observed edges have no two-cycle and no self-loop, the arcs reported after the history are
exactly those of the abstract graph. -/
theorem C05_reported_arcs (g : CG α) (a : AbsGraph α) (hwf : g.dag.WF) (hr : Represents g a)
    (hsym : ∀ u v, a.lat u v → a.lat v u) (h2 : ∀ u v, a.obs u v → ¬ a.obs v u) (u v : α) :
    Paired g.latentArcs u v ↔ a.lat u v := by
  obtain ⟨-, k2, k3, -⟩ := CG.latentArcsOf_spec hwf
  have hE : ∀ u v, g.dag.E u v ↔ a.obs u v ∨ a.lat u v := by
    intro u v
    constructor
    · rintro ⟨k, hk⟩
      cases k with
      | num k => exact .inl ((hr.dagObs _ _ _).1 hk).2
      | n => exact .inr ((hr.dagLat _ _).1 hk)
    · rintro (h | h)
      · exact ⟨.num 0, (hr.dagObs _ _ _).2 ⟨rfl, h⟩⟩
      · exact ⟨.n, (hr.dagLat _ _).2 h⟩
  have hboth : ∀ u v, g.dag.E u v → g.dag.E v u → a.lat u v := by
    intro u v h h'
    rw [hE] at h h'
    rcases h with h | h
    · rcases h' with h' | h'
      · exact absurd h' (h2 _ _ h)
      · exact hsym _ _ h'
    · exact h
  constructor
  · rintro (h | h)
    · exact hboth _ _ (k2 _ _ h).1 (k2 _ _ h).2
    · exact hboth _ _ (k2 _ _ h).2 (k2 _ _ h).1
  · intro h
    exact k3 u v ((hE _ _).2 (.inr h)) ((hE _ _).2 (.inr (hsym _ _ h)))

/-- C05, violation: adding an observed edge twice and removing it once leaves the parent in the
dictionary although the networkx graph has lost the edge. -/
theorem C05_readd_desync :
    let g := ((CG.init [("x", []), ("y", ["x"])]).run [.addEdge "x" "y" true, .removeEdge ("x", "y") true]).1
    g.causation.get "y" = ["x"] ∧ g.dag.edges = [] := by decide

/-- C05, violation: `add_edge(s, t, observed=False)` adds one direction only and the arc is never
reported by `latent_confounding_arcs`. -/
theorem C05_one_way_arc :
    ((CG.init [("x", []), ("y", ["x"])]).run [.addEdge "x" "y" false]).1.latentArcs = [] ∧
    ((CG.init [("x", []), ("y", ["x"])]).run [.addEdgesFrom [("x", "y")] false]).1.latentArcs = [("x", "y")] := by
  decide

/-- C05, violation: in-place `add_nodes` never enters the nodes in `causation`, `new=True` does. -/
theorem C05_add_nodes_in_place :
    ((CG.init [("x", []), ("y", ["x"])]).addNodes ["z"]).causation.keys = ["x", "y"] ∧
    ((CG.init [("x", []), ("y", ["x"])]).addNodesNew ["z"]).causation.keys = ["x", "y", "z"] := by decide

/-- C05, violation: `add_edges_from(new=True)` lets networkx choose the key, so next to a latent arc the
new observed edge cannot be removed any more, while after the in-place call it can. -/
theorem C05_add_edges_new_key :
    let g := CG.init [("x", []), ("y", []), ("z", ["x"])] [("x", "y")]
    (g.addEdgesFromNew [("x", "y")]).removeEdgesFromNew [("x", "y")] = .error .networkx ∧
    ((g.addEdgesFrom [("x", "y")]).removeEdgesFromNew [("x", "y")]).isOk = true := by decide

/-! ### C06 -/

/-- Every name that occurs as a parent or at the end of an arc is a key of the dictionary. -/
def Closed (g : CG α) : Prop :=
  (∀ u v, Parent g.causation u v → u ∈ g.causation.keys) ∧
  (∀ u v k, (u, v, k) ∈ g.dag.edges → u ∈ g.causation.keys ∧ v ∈ g.causation.keys)

/-- C06. `build_sub_graph(S)` succeeds for every set `S` of declared nodes and returns the induced
subgraph: keys, observed edges and latent arcs are those inside `S`. -/
theorem C06_buildSubGraph_induced (g : CG α) (hs : g.Sync) (hc : Closed g) (S : List α)
    (hS : ∀ v ∈ S, v ∈ g.causation.keys) :
    ∃ g', g.buildSubGraph S = .ok g' ∧ g'.Sync ∧ Closed g' ∧
      (∀ v, v ∈ g'.causation.keys ↔ v ∈ S) ∧
      (∀ u v, Parent g'.causation u v ↔ Parent g.causation u v ∧ u ∈ S ∧ v ∈ S) ∧
      (∀ u v k, (u, v, k) ∈ g'.dag.edges ↔ (u, v, k) ∈ g.dag.edges ∧ u ∈ S ∧ v ∈ S) := by
  have hchk : checkNodes g.causation.keys S = .ok () := by
    unfold checkNodes; rw [if_pos]; simpa using hS
  have hs' := CG.sync_removeNodes hs (g.causation.keys.filter (· ∉ S))
  have hkeys : ∀ v, v ∈ (g.removeNodes (g.causation.keys.filter (· ∉ S))).causation.keys ↔ v ∈ S := by
    intro v
    simp only [CG.removeNodes, Causation.keys_removeNodes, List.mem_filter, decide_eq_true_eq]
    constructor
    · rintro ⟨h1, h2⟩; by_contra h; exact h2 ⟨h1, h⟩
    · intro h; exact ⟨hS v h, fun h' => h'.2 h⟩
  have hpar : ∀ u v, Parent (g.removeNodes (g.causation.keys.filter (· ∉ S))).causation u v ↔
      Parent g.causation u v ∧ u ∈ S ∧ v ∈ S := by
    intro u v
    rw [Causation.parent_iff hs'.keys, Causation.parent_iff hs.keys]
    simp only [CG.removeNodes]
    rw [(Causation.get_removeNodes _ g.causation hs.parents v).2 u]
    apply and_congr_right
    intro hu
    have hu' : Parent g.causation u v := (Causation.parent_iff hs.keys u v).2 hu
    have h1 := hc.1 u v hu'
    have h2 : v ∈ g.causation.keys := by
      obtain ⟨ps, h, _⟩ := hu'; exact List.mem_map_of_mem (f := (·.1)) h
    simp [h1, h2]
  have hedge : ∀ u v k, (u, v, k) ∈ (g.removeNodes (g.causation.keys.filter (· ∉ S))).dag.edges ↔
      (u, v, k) ∈ g.dag.edges ∧ u ∈ S ∧ v ∈ S := by
    intro u v k
    simp only [CG.removeNodes, MDG.mem_edges_removeNodes]
    apply and_congr_right
    intro hu
    obtain ⟨h1, h2⟩ := hc.2 u v k hu
    simp [h1, h2]
  refine ⟨_, by unfold CG.buildSubGraph; rw [hchk], hs', ⟨?_, ?_⟩, hkeys, hpar, hedge⟩
  · intro u v h; rw [hkeys]; exact ((hpar u v).1 h).2.1
  · intro u v k h; rw [hkeys, hkeys]; exact ((hedge u v k).1 h).2

/-- C06. A subset with an unknown name is rejected. -/
theorem C06_buildSubGraph_rejects (g : CG α) (S : List α) (h : ∃ v ∈ S, v ∉ g.causation.keys) :
    g.buildSubGraph S = .error .assertion := by
  unfold CG.buildSubGraph checkNodes
  rw [if_neg]
  simpa using h

example : (CG.init [("x", []), ("m", ["x"]), ("y", ["m", "x"])] [("x", "y"), ("m", "y")]).buildSubGraph ["x", "y"]
    = .ok ⟨[("x", []), ("y", ["x"])], ⟨["x", "y"], [("x", "y", .num 0), ("x", "y", .n), ("y", "x", .n)]⟩⟩ := by
  decide

/-- C06, violation on repeated parents: only one occurrence is removed, the removed node stays a parent. -/
theorem C06_repeated_parent_survives :
    ((CG.init [("x", []), ("y", ["x", "x"])]).removeNodes ["x"]).causation = [("y", ["x"])] := by decide

/-! ### C07 -/

theorem mem_obs_list {g : CG α} (hs : g.Sync) (p : α × α × EKey → Bool) (u v : α)
    (hp : ∀ u v, p (u, v, .n) = false) :
    (u, v) ∈ (g.dag.edges.filter p).map (fun e => (e.1, e.2.1)) ↔
      u ∈ g.causation.get v ∧ p (u, v, .num 0) = true := by
  simp only [List.mem_map, List.mem_filter, Prod.exists, Prod.mk.injEq]
  constructor
  · rintro ⟨a, b, k, ⟨h1, h2⟩, rfl, rfl⟩
    cases k with
    | num k => obtain ⟨rfl, h⟩ := (hs.obs _ _ _).1 h1; exact ⟨h, h2⟩
    | n => rw [hp] at h2; cases h2
  · rintro ⟨h1, h2⟩
    exact ⟨u, v, .num 0, ⟨(hs.obs _ _ _).2 ⟨rfl, h1⟩, h2⟩, rfl, rfl⟩

theorem nodup_obs_list {g : CG α} (hs : g.Sync) (p : α × α × EKey → Bool)
    (hp : ∀ u v, p (u, v, .n) = false) :
    ((g.dag.edges.filter p).map (fun e => (e.1, e.2.1))).Nodup := by
  refine List.Nodup.map_on ?_ (hs.wf.edgesNodup.filter _)
  rintro ⟨a, b, k⟩ h ⟨a', b', k'⟩ h' heq
  simp only [Prod.mk.injEq] at heq
  obtain ⟨rfl, rfl⟩ := heq
  rw [List.mem_filter] at h h'
  have z : ∀ k, (a, b, k) ∈ g.dag.edges → p (a, b, k) = true → k = .num 0 := by
    intro k hk hpk
    cases k with
    | num k => rw [((hs.obs _ _ _).1 hk).1]
    | n => rw [hp] at hpk; cases hpk
  rw [z k h.1 h.2, z k' h'.1 h'.2]

/-- C07. `remove_outgoing_edges(x, new=True)` succeeds for declared nodes, removes exactly the observed
edges out of `x`, and keeps the keys and every latent arc. -/
theorem C07_removeOutgoing_exact (g : CG α) (hs : g.Sync) (x : List α)
    (hx : ∀ v ∈ x, v ∈ g.causation.keys) :
    ∃ g', g.removeOutgoing x = .ok g' ∧ g'.Sync ∧ g'.causation.keys = g.causation.keys ∧
      g'.dag.nodes = g.dag.nodes ∧
      (∀ u v, Parent g'.causation u v ↔ Parent g.causation u v ∧ u ∉ x) ∧
      (∀ u v, (u, v, EKey.n) ∈ g'.dag.edges ↔ (u, v, EKey.n) ∈ g.dag.edges) := by
  have hchk : checkNodes g.causation.keys x = .ok () := by
    unfold checkNodes; rw [if_pos]; simpa using hx
  set p : α × α × EKey → Bool := fun e => decide (e.1 ∈ x ∧ e.2.2 = .num 0) with hpdef
  have hpn : ∀ u v, p (u, v, .n) = false := by intro u v; simp [hpdef]
  obtain ⟨g', h1, h2, h3, h4, h5, h6⟩ := CG.removeObsEdges_ok
    ((g.dag.edges.filter p).map (fun e => (e.1, e.2.1))) g hs (nodup_obs_list hs p hpn)
    (fun e he => ((mem_obs_list hs p e.1 e.2 hpn).1 he).1)
  refine ⟨g', ?_, h2, h6, h5, ?_, h4⟩
  · unfold CG.removeOutgoing
    rw [hchk]
    simp only [CG.removeEdgesFromNew, CG.removeEdgesFrom, if_true]
    rw [h1]
  · intro u v
    rw [Causation.parent_iff h2.keys, Causation.parent_iff hs.keys, h3, mem_obs_list hs p u v hpn]
    simp [hpdef]; tauto

/-- C07. `remove_incoming_edges(x, new=True)` succeeds for declared nodes, removes exactly the observed
edges into `x` and exactly the latent arcs with an end in `x`. -/
theorem C07_removeIncoming_exact (g : CG α) (hs : g.Sync) (x : List α)
    (hx : ∀ v ∈ x, v ∈ g.causation.keys) :
    ∃ g', g.removeIncoming x = .ok g' ∧ g'.Sync ∧ g'.causation.keys = g.causation.keys ∧
      g'.dag.nodes = g.dag.nodes ∧
      (∀ u v, Parent g'.causation u v ↔ Parent g.causation u v ∧ v ∉ x) ∧
      (∀ u v, (u, v, EKey.n) ∈ g'.dag.edges ↔ (u, v, EKey.n) ∈ g.dag.edges ∧ u ∉ x ∧ v ∉ x) := by
  have hchk : checkNodes g.causation.keys x = .ok () := by
    unfold checkNodes; rw [if_pos]; simpa using hx
  set p : α × α × EKey → Bool := fun e => decide (e.2.2 ≠ .n) && decide (e.2.1 ∈ x) with hpdef
  have hpn : ∀ u v, p (u, v, .n) = false := by intro u v; simp [hpdef]
  obtain ⟨g', h1, h2, h3, h4, h5, h6⟩ := CG.removeObsEdges_ok
    ((g.dag.edges.filter p).map (fun e => (e.1, e.2.1))) g hs (nodup_obs_list hs p hpn)
    (fun e he => ((mem_obs_list hs p e.1 e.2 hpn).1 he).1)
  set u := ((g.dag.edges.filter (fun e => e.2.1 ∈ x)).filter (fun e => e.2.2 = .n)).map
    (fun e => (e.1, e.2.1)) with hu
  obtain ⟨k1, k2, k3, k4⟩ := CG.removeArcs_spec u g' h2
  have hmem : ∀ a b, (a, b) ∈ u ↔ (a, b, EKey.n) ∈ g.dag.edges ∧ b ∈ x := by
    intro a b
    simp only [hu, List.mem_map, List.mem_filter, Prod.exists, Prod.mk.injEq, decide_eq_true_eq]
    constructor
    · rintro ⟨c, d, k, ⟨⟨h, h'⟩, rfl⟩, rfl, rfl⟩; exact ⟨h, h'⟩
    · rintro ⟨h, h'⟩; exact ⟨a, b, .n, ⟨⟨h, h'⟩, rfl⟩, rfl, rfl⟩
  refine ⟨u.foldl CG.removeArc g', ?_, k1, by rw [k2, h6], by rw [k3, h5], ?_, ?_⟩
  · unfold CG.removeIncoming
    rw [hchk]
    simp only [CG.removeEdgesFromNew, CG.removeEdgesFrom, if_true, List.filter_filter]
    simp only [hpdef] at h1
    rw [h1]
    simp [hu, List.filter_filter]
  · intro a b
    rw [k2, Causation.parent_iff h2.keys, Causation.parent_iff hs.keys, h3, mem_obs_list hs p a b hpn]
    simp [hpdef]; tauto
  · intro a b
    rw [k4, h4, hmem, hmem]
    constructor
    · rintro ⟨h, h', h''⟩
      exact ⟨h, fun ha => h'' ⟨hs.sym _ _ h, ha⟩, fun hb => h' ⟨h, hb⟩⟩
    · rintro ⟨h, h', h''⟩
      exact ⟨h, fun hb => h'' hb.2, fun ha => h' ha.2⟩

/-- C07. The in-place call (`new=False`) of `remove_edges_from` reaches the state that the `new=True`
call returns, whenever the latter does not raise. -/
theorem C07_new_eq_in_place (g g' : CG α) (es : List (α × α)) (o : Bool)
    (h : g.removeEdgesFromNew es o = .ok g') : g.removeEdgesFrom es o = (g', none) := by
  unfold CG.removeEdgesFromNew at h
  split at h
  · rename_i heq; cases h; exact heq
  · cases h

example : (CG.init [("w", []), ("x", ["w"]), ("y", ["x", "w"])] [("x", "y"), ("w", "y")]).removeIncoming ["x"]
    = .ok ⟨[("w", []), ("x", []), ("y", ["x", "w"])],
      ⟨["w", "x", "y"], [("x", "y", .num 0), ("w", "y", .num 0), ("w", "y", .n), ("y", "w", .n)]⟩⟩ := by
  decide

/-- Graphs built by the constructor from a proper dictionary are synchronised, and closed if the
parents and arc ends are keys: the hypotheses of C06 and C07 are met. -/
theorem init_sync_closed (c : Causation α) (A : List (α × α)) (hk : c.keys.Nodup)
    (hp : ∀ v, (c.get v).Nodup) (h1 : ∀ u v, Parent c u v → u ∈ c.keys)
    (h2 : ∀ u v, Paired A u v → u ∈ c.keys) : (CG.init c A).Sync ∧ Closed (CG.init c A) := by
  refine ⟨CG.sync_init hk hp A, h1, ?_⟩
  intro u v k h
  have : (CG.init c A).dag.E u v := ⟨k, h⟩
  rw [CG.E_init] at this
  rcases this with h | h
  · refine ⟨h1 _ _ h, ?_⟩
    obtain ⟨ps, hps, _⟩ := h; exact List.mem_map_of_mem (f := (·.1)) hps
  · exact ⟨h2 _ _ h, h2 _ _ h.symm⟩

end YL.Props
