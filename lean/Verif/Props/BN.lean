import Verif.Model.BN
import Verif.Lib.CausalGraph
import Mathlib.Algebra.Order.Ring.Rat
import Mathlib.Data.String.Basic
import Mathlib.Tactic.FieldSimp
import Mathlib.Tactic.Ring
import Mathlib.Tactic.NormNum

set_option linter.unusedSectionVars false

/-! Properties of `ylearn/bayesian`: the structure graph and its blankets (C70), node states (C75), collectors (C77). -/

namespace YL.Props

open YL Spec BN

variable {α : Type} [LinearOrder α]

/-! ### C70: acceptance -/

theorem bn_linked_iff (g : MDG α) (u v : α) : Linked (arcs g) u v ↔ Relation.ReflTransGen (Adj g.E) u v := by
  have h : Paired (arcs g) = Adj g.E := by
    funext a b
    have : ∀ a b : α, (a, b) ∈ arcs g ↔ g.E a b := by
      intro a b
      simp only [arcs, List.mem_map, MDG.E]
      constructor
      · rintro ⟨⟨x, y, k⟩, h1, h2⟩
        cases h2
        exact ⟨k, h1⟩
      · rintro ⟨k, h⟩; exact ⟨(a, b, k), h, rfl⟩
    simp only [Paired, Adj, this]
  unfold Linked
  rw [h]

theorem bn_arcs_nodes {g : MDG α} (hg : g.WF) (a b : α) (h : (a, b) ∈ arcs g) : a ∈ g.nodes ∧ b ∈ g.nodes := by
  simp only [arcs, List.mem_map] at h
  obtain ⟨⟨x, y, k⟩, h1, h2⟩ := h
  cases h2
  exact ⟨hg.src _ _ _ h1, hg.tgt _ _ _ h1⟩

theorem numWeak_le_one {g : MDG α} (hg : g.WF) :
    numWeak g ≤ 1 ↔ ∀ u ∈ g.nodes, ∀ v ∈ g.nodes, Relation.ReflTransGen (Adj g.E) u v := by
  obtain ⟨h1, h2, h3, h4⟩ := CG.connectedComponents_spec g.nodes (arcs g) (bn_arcs_nodes hg)
  unfold numWeak
  generalize hcs : connectedComponents g.nodes (arcs g) = cs at *
  constructor
  · intro hl u hu v hv
    obtain ⟨c, hc, huc⟩ := (h2 u).1 hu
    obtain ⟨d, hd, hvd⟩ := (h2 v).1 hv
    have hcd : c = d := by
      match cs, hl with
      | [], _ => simp at hc
      | [x], _ => simp at hc hd; rw [hc, hd]
    subst hcd
    exact (bn_linked_iff g u v).1 ((h4 c hc u huc v hv).1 hvd)
  · intro hall
    match cs with
    | [] => simp
    | [x] => simp
    | c :: d :: r =>
      exfalso
      obtain ⟨a, ha⟩ := List.exists_mem_of_ne_nil c (h1 c (by simp))
      obtain ⟨b, hb⟩ := List.exists_mem_of_ne_nil d (h1 d (by simp))
      have haN : a ∈ g.nodes := (h2 a).2 ⟨c, by simp, ha⟩
      have hbN : b ∈ g.nodes := (h2 b).2 ⟨d, by simp, hb⟩
      have hbc : b ∈ c := (h4 c (by simp) a ha b hbN).2 ((bn_linked_iff g a b).2 (hall a haN b hbN))
      have := (List.pairwise_cons.1 h3).1 d (by simp) b hbc
      exact this hb

theorem numWeak_eq_zero {g : MDG α} (hg : g.WF) : numWeak g = 0 ↔ g.nodes = [] := by
  obtain ⟨h1, h2, h3, h4⟩ := CG.connectedComponents_spec g.nodes (arcs g) (bn_arcs_nodes hg)
  unfold numWeak
  generalize hcs : connectedComponents g.nodes (arcs g) = cs at *
  rw [List.length_eq_zero_iff]
  constructor
  · rintro rfl
    rw [List.eq_nil_iff_forall_not_mem]
    intro v hv
    obtain ⟨c, hc, _⟩ := (h2 v).1 hv
    simp at hc
  · intro hn
    rw [List.eq_nil_iff_forall_not_mem]
    intro c hc
    obtain ⟨a, ha⟩ := List.exists_mem_of_ne_nil c (h1 c hc)
    have := (h2 a).2 ⟨c, hc, ha⟩
    simp [hn] at this

/-- A graph is usable as the structure of a Bayesian network: no directed cycle, and in one piece. -/
def ValidStructure (N : Set α) (E : α → α → Prop) : Prop :=
  Acyclic E ∧ ∀ u ∈ N, ∀ v ∈ N, Relation.ReflTransGen (Adj E) u v

/-- C70. `DAG(graph)` accepts exactly the graphs without a directed cycle whose nodes are all linked to each other;
every other graph is refused with ValueError. -/
theorem C70_accepted_iff (a : GraphArg α) (h : a.graph.WF) :
    (ValidStructure {v | v ∈ a.graph.nodes} a.graph.E → ∃ g, mkDag a = .ok g) ∧
    (¬ ValidStructure {v | v ∈ a.graph.nodes} a.graph.E → mkDag a = .error .value) := by
  unfold mkDag ValidStructure
  have hw : ¬ numWeak a.graph > 1 ↔ ∀ u ∈ {v | v ∈ a.graph.nodes}, ∀ v ∈ {v | v ∈ a.graph.nodes},
      Relation.ReflTransGen (Adj a.graph.E) u v := by
    rw [Nat.not_lt]; exact numWeak_le_one h
  constructor
  · rintro ⟨h1, h2⟩
    rw [if_pos ((MDG.isDag_iff h).2 h1), if_neg (hw.2 h2)]
    cases a <;> exact ⟨_, rfl⟩
  · intro hn
    by_cases hd : a.graph.isDag = true
    · rw [if_pos hd, if_pos]
      by_contra hc
      exact hn ⟨(MDG.isDag_iff h).1 hd, hw.1 hc⟩
    · rw [if_neg hd]

theorem ofEdges_spec (es : List (α × α)) : (ofEdges es).WF ∧
    (∀ v, v ∈ (ofEdges es).nodes ↔ ∃ u, (u, v) ∈ es ∨ (v, u) ∈ es) ∧ ∀ u v, (ofEdges es).E u v ↔ (u, v) ∈ es := by
  suffices H : ∀ (es : List (α × α)) (g : MDG α), g.WF →
      (es.foldl (fun g e => g.addEdge e.1 e.2 (.num 0)) g).WF ∧
      (∀ v, v ∈ (es.foldl (fun g e => g.addEdge e.1 e.2 (.num 0)) g).nodes ↔
        v ∈ g.nodes ∨ ∃ u, (u, v) ∈ es ∨ (v, u) ∈ es) ∧
      ∀ u v, (es.foldl (fun g e => g.addEdge e.1 e.2 (.num 0)) g).E u v ↔ g.E u v ∨ (u, v) ∈ es by
    obtain ⟨h1, h2, h3⟩ := H es MDG.empty MDG.wf_empty
    refine ⟨h1, fun v => (h2 v).trans ?_, fun u v => (h3 u v).trans ?_⟩
    · simp [MDG.empty]
    · simp [MDG.empty, MDG.E]
  intro es
  induction es with
  | nil => intro g hg; simp [hg]
  | cons e es ih =>
    intro g hg
    obtain ⟨h1, h2, h3⟩ := ih (g.addEdge e.1 e.2 (.num 0)) (MDG.wf_addEdge hg _ _ _)
    refine ⟨h1, fun v => ?_, fun u v => ?_⟩
    · refine (h2 v).trans ?_
      rw [MDG.mem_nodes_addEdge]
      obtain ⟨a, b⟩ := e
      simp only [List.mem_cons, Prod.mk.injEq]
      constructor
      · rintro ((h | rfl | rfl) | ⟨u, h | h⟩)
        · exact .inl h
        · exact .inr ⟨b, .inr (.inl ⟨rfl, rfl⟩)⟩
        · exact .inr ⟨a, .inl (.inl ⟨rfl, rfl⟩)⟩
        · exact .inr ⟨u, .inl (.inr h)⟩
        · exact .inr ⟨u, .inr (.inr h)⟩
      · rintro (h | ⟨u, (⟨rfl, rfl⟩ | h) | ⟨rfl, rfl⟩ | h⟩)
        · exact .inl (.inl h)
        · exact .inl (.inr (.inr rfl))
        · exact .inr ⟨u, .inl h⟩
        · exact .inl (.inr (.inl rfl))
        · exact .inr ⟨u, .inr h⟩
    · refine (h3 u v).trans ?_
      obtain ⟨a, b⟩ := e
      simp only [MDG.E, MDG.mem_edges_addEdge, List.mem_cons, Prod.mk.injEq]
      constructor
      · rintro (⟨k, h | ⟨h1, h2, _⟩⟩ | h)
        · exact .inl ⟨k, h⟩
        · exact .inr (.inl ⟨h1, h2⟩)
        · exact .inr (.inr h)
      · rintro (⟨k, h⟩ | ⟨h1, h2⟩ | h)
        · exact .inl ⟨k, .inl h⟩
        · exact .inl ⟨.num 0, .inr ⟨h1, h2, rfl⟩⟩
        · exact .inr h

/-- C70. The accepted object has exactly the edges of the argument and, as soon as the argument has an edge, exactly
its nodes. -/
theorem C70_structure_kept (a : GraphArg α) (h : a.graph.WF) (g : MDG α) (hg : mkDag a = .ok g) :
    g.WF ∧ ValidStructure {v | v ∈ g.nodes} g.E ∧ (∀ u v, g.E u v ↔ a.graph.E u v) ∧
    ((∃ u v, a.graph.E u v) → ∀ v, v ∈ g.nodes ↔ v ∈ a.graph.nodes) := by
  have hv : ValidStructure {v | v ∈ a.graph.nodes} a.graph.E := by
    by_contra hn
    rw [(C70_accepted_iff a h).2 hn] at hg; cases hg
  have hE : ∀ u v, (u, v) ∈ arcs a.graph ↔ a.graph.E u v := by
    intro u v
    simp only [arcs, List.mem_map, MDG.E]
    constructor
    · rintro ⟨⟨x, y, k⟩, h1, h2⟩
      cases h2
      exact ⟨k, h1⟩
    · rintro ⟨k, h⟩; exact ⟨(u, v, k), h, rfl⟩
  unfold mkDag at hg
  rw [if_pos ((MDG.isDag_iff h).2 hv.1), if_neg (by rw [Nat.not_lt]; exact (numWeak_le_one h).2 hv.2)] at hg
  cases a with
  | other g0 => cases hg; exact ⟨h, hv, fun _ _ => Iff.rfl, fun _ _ => Iff.rfl⟩
  | nx g0 =>
    simp only [GraphArg.graph] at *
    cases hg
    obtain ⟨h1, h2, h3⟩ := ofEdges_spec (arcs g0)
    have h3' : (ofEdges (arcs g0)).E = g0.E := by funext u v; exact propext ((h3 u v).trans (hE u v))
    have hsub : ∀ v, v ∈ (ofEdges (arcs g0)).nodes → v ∈ g0.nodes := by
      intro v hv'
      obtain ⟨u, hu | hu⟩ := (h2 v).1 hv'
      · exact h.right ((hE _ _).1 hu)
      · exact h.left ((hE _ _).1 hu)
    refine ⟨h1, ⟨h3' ▸ hv.1, fun u hu v hv' => ?_⟩, fun u v => by rw [h3'], fun ⟨p, q, hpq⟩ v => ⟨hsub v, fun hvN => ?_⟩⟩
    · rw [h3']; exact hv.2 u (hsub u hu) v (hsub v hv')
    · rw [h2]
      -- a node linked to the edge `p → q` is on an edge
      have hr := hv.2 v hvN p (h.left hpq)
      rcases Relation.ReflTransGen.cases_head hr with rfl | ⟨w, hw, _⟩
      · exact ⟨q, .inr ((hE _ _).2 hpq)⟩
      · rcases hw with hw | hw
        · exact ⟨w, .inr ((hE _ _).2 hw)⟩
        · exact ⟨w, .inl ((hE _ _).2 hw)⟩

/-- C70, violation: a networkx graph of a single node is accepted, but the node is lost and every query that needs the
topological order raises ValueError. -/
theorem C70_single_node_refuted : mkDag (.nx ⟨["x"], []⟩ : GraphArg String) = .ok ⟨[], []⟩ ∧
    topoNodes (⟨[], []⟩ : MDG String) = .error .value := by decide +kernel

/-- non-vacuity: a chain with a fork is accepted; two pieces, or a cycle, are refused -/
example : (mkDag (.nx ⟨["a", "b", "c"], [("a", "b", .num 0), ("a", "c", .num 0)]⟩ : GraphArg String)).isOk = true ∧
    mkDag (.nx ⟨["a", "b", "c"], [("a", "b", .num 0)]⟩ : GraphArg String) = .error .value ∧
    mkDag (.nx ⟨["a", "b"], [("a", "b", .num 0), ("b", "a", .num 0)]⟩ : GraphArg String) = .error .value := by
  decide +kernel

/-! ### C70: parents, children, blankets -/

theorem insertionSort_lt {l : List α} (h : l.Nodup) : (l.insertionSort (· ≤ ·)).Pairwise (· < ·) := by
  have h1 := List.pairwise_insertionSort (· ≤ ·) l
  have h2 : (l.insertionSort (· ≤ ·)).Nodup := (List.perm_insertionSort (· ≤ ·) l).nodup_iff.2 h
  exact (h1.and h2).imp (fun ⟨a, b⟩ => lt_of_le_of_ne a b)

theorem mem_insertionSort' {l : List α} {v : α} : v ∈ l.insertionSort (· ≤ ·) ↔ v ∈ l :=
  (List.perm_insertionSort (· ≤ ·) l).mem_iff

/-- `l` is the answer to a query for the set `S`: without `topo` the members in increasing order, with `topo` the members
with parents before children; no repetition. -/
def AnswersSet (N : Set α) (E : α → α → Prop) (S : Set α) (topo : Bool) (l : List α) : Prop :=
  l.Nodup ∧ (∀ v, v ∈ l ↔ v ∈ S) ∧
  (if topo then ∃ order, IsTopoOrder N E order ∧ l.Sublist order else l.Pairwise (· < ·))

theorem topoNodes_ok {g : MDG α} (hg : g.WF) (hv : ValidStructure {v | v ∈ g.nodes} g.E) (hne : g.nodes ≠ []) :
    ∃ l, topoNodes g = .ok l ∧ IsTopoOrder {v | v ∈ g.nodes} g.E l := by
  obtain ⟨l, hl⟩ := (MDG.topologicalSort_ok_iff hg).2 hv.1
  refine ⟨l, ?_, MDG.topologicalSort_spec hg hl⟩
  unfold topoNodes
  rw [if_pos, hl]
  refine ⟨(MDG.isDag_iff hg).2 hv.1, ?_⟩
  have h1 := (numWeak_le_one hg).2 hv.2
  have h2 := mt (numWeak_eq_zero hg).1 hne
  omega

theorem sortNodes_ok {g : MDG α} (hg : g.WF) (hv : ValidStructure {v | v ∈ g.nodes} g.E) (hne : g.nodes ≠ [])
    (ns : List α) (hnd : ns.Nodup) (hsub : ∀ v ∈ ns, v ∈ g.nodes) (topo : Bool) :
    ∃ l, sortNodes g ns topo = .ok l ∧ AnswersSet {v | v ∈ g.nodes} g.E {v | v ∈ ns} topo l := by
  cases topo with
  | false =>
    refine ⟨_, rfl, ?_, fun v => mem_insertionSort', insertionSort_lt hnd⟩
    exact (List.perm_insertionSort (· ≤ ·) ns).nodup_iff.2 hnd
  | true =>
    obtain ⟨l, h1, h2⟩ := topoNodes_ok hg hv hne
    refine ⟨l.filter (· ∈ ns), by simp [sortNodes, h1], h2.1.filter _, fun v => ?_, l, h2, List.filter_sublist⟩
    simp only [List.mem_filter, decide_eq_true_eq, Set.mem_setOf_eq]
    exact ⟨fun h => h.2, fun h => ⟨(h2.2.1 v).2 (hsub v h), h⟩⟩

theorem sortNodes_false (g : MDG α) (ns : List α) : sortNodes g ns false = .ok (ns.insertionSort (· ≤ ·)) := rfl

theorem gather_ok {β : Type} (f : α → Except Err (List β)) (h : α → List β) : ∀ (l : List α),
    (∀ v ∈ l, f v = .ok (h v)) → gather f l = .ok (l.flatMap h)
  | [], _ => rfl
  | v :: vs, hf => by
    rw [gather, hf v (by simp)]
    dsimp only
    rw [gather_ok f h vs (fun w hw => hf w (List.mem_cons_of_mem _ hw))]
    simp

theorem gather_error {β : Type} (f : α → Except Err (List β)) (e : Err) : ∀ (l : List α),
    (∀ v ∈ l, f v = .error e ∨ ∃ r, f v = .ok r) → (∃ v ∈ l, f v = .error e) → gather f l = .error e
  | [], _, h => by simp at h
  | v :: vs, hf, hex => by
    rw [gather]
    rcases hf v (by simp) with h1 | ⟨r, h1⟩
    · rw [h1]
    · rw [h1]
      dsimp only
      rw [gather_error f e vs (fun w hw => hf w (List.mem_cons_of_mem _ hw))]
      obtain ⟨w, hw, hw'⟩ := hex
      rcases List.mem_cons.1 hw with rfl | hw
      · rw [h1] at hw'; cases hw'
      · exact ⟨w, hw, hw'⟩

section blankets

variable {g : MDG α} (hg : g.WF) (hv : ValidStructure {v | v ∈ g.nodes} g.E)

theorem getParents_false {v : α} (h : v ∈ g.nodes) :
    getParents g v false = .ok ((g.preds v).insertionSort (· ≤ ·)) := by rw [getParents, if_pos h, sortNodes_false]

theorem getChildren_false {v : α} (h : v ∈ g.nodes) :
    getChildren g v false = .ok ((g.succs v).insertionSort (· ≤ ·)) := by rw [getChildren, if_pos h, sortNodes_false]

include hg hv

/-- C70. `get_parents`: the direct causes, each once, in increasing order (or in topological order when asked); an
unknown node is refused. -/
theorem C70_parents_exact (v : α) (topo : Bool) :
    (v ∈ g.nodes → ∃ l, getParents g v topo = .ok l ∧ AnswersSet {v | v ∈ g.nodes} g.E {u | g.E u v} topo l) ∧
    (v ∉ g.nodes → getParents g v topo = .error .networkx) := by
  refine ⟨fun hm => ?_, fun hm => by rw [getParents, if_neg hm]⟩
  rw [getParents, if_pos hm]
  obtain ⟨l, h1, h2⟩ := sortNodes_ok hg hv (List.ne_nil_of_mem hm) (g.preds v) (MDG.nodup_preds g v)
    (fun u hu => hg.left (MDG.mem_preds.1 hu)) topo
  refine ⟨l, h1, ?_⟩
  have : {u | u ∈ g.preds v} = {u | g.E u v} := by ext u; simp
  rwa [this] at h2

/-- C70. `get_children`: the direct effects. -/
theorem C70_children_exact (v : α) (topo : Bool) :
    (v ∈ g.nodes → ∃ l, getChildren g v topo = .ok l ∧ AnswersSet {v | v ∈ g.nodes} g.E {u | g.E v u} topo l) ∧
    (v ∉ g.nodes → getChildren g v topo = .error .networkx) := by
  refine ⟨fun hm => ?_, fun hm => by rw [getChildren, if_neg hm]⟩
  rw [getChildren, if_pos hm]
  obtain ⟨l, h1, h2⟩ := sortNodes_ok hg hv (List.ne_nil_of_mem hm) (g.succs v) (MDG.nodup_succs g v)
    (fun u hu => hg.right (MDG.mem_succs.1 hu)) topo
  refine ⟨l, h1, ?_⟩
  have : {u | u ∈ g.succs v} = {u | g.E v u} := by ext u; simp
  rwa [this] at h2

/-- C70. `get_upstream_blanket`: all parents of the given nodes; with `return_self` also the nodes themselves (without it a
given node is still listed when it is a parent of another given node). -/
theorem C70_upstream_exact (ns : List α) (hns : ∀ v ∈ ns, v ∈ g.nodes) (hne : g.nodes ≠ []) (self topo : Bool) :
    ∃ l, upstream g ns self topo = .ok l ∧
      AnswersSet {v | v ∈ g.nodes} g.E {u | (∃ x ∈ ns, g.E u x) ∨ (self = true ∧ u ∈ ns)} topo l := by
  have h1 : gather (fun v => getParents g v false) ns = .ok (ns.flatMap fun v => (g.preds v).insertionSort (· ≤ ·)) :=
    gather_ok _ _ ns (fun v hm => getParents_false (hns v hm))
  unfold upstream
  rw [h1]
  dsimp only
  generalize hb : (if self = true then ((ns.flatMap fun v => (g.preds v).insertionSort (· ≤ ·)) ++ ns).eraseDups
    else (ns.flatMap fun v => (g.preds v).insertionSort (· ≤ ·)).eraseDups) = bl
  have hnd : bl.Nodup := by
    rw [← hb]
    split_ifs
    · exact nodup_eraseDups _ _ le_rfl
    · first | exact nodup_eraseDups _ _ le_rfl | exact (nodup_eraseDups _ _ le_rfl).filter _
  have hsub : ∀ u ∈ bl, u ∈ g.nodes := by
    intro u hu
    rw [← hb] at hu
    have : (∃ x ∈ ns, g.E u x) ∨ u ∈ ns := by cases self <;> simp [mem_insertionSort'] at hu <;> grind
    rcases this with ⟨x, _, h⟩ | h
    · exact hg.left h
    · exact hns u h
  obtain ⟨l, h2, h3⟩ := sortNodes_ok hg hv hne bl hnd hsub topo
  subst hb
  refine ⟨l, h2, ?_⟩
  convert h3 using 1
  ext u
  cases self <;> simp [mem_insertionSort']

/-- C70. `get_downstream_blanket`: all children of the given nodes. -/
theorem C70_downstream_exact (ns : List α) (hns : ∀ v ∈ ns, v ∈ g.nodes) (hne : g.nodes ≠ []) (self topo : Bool) :
    ∃ l, downstream g ns self topo = .ok l ∧
      AnswersSet {v | v ∈ g.nodes} g.E {u | (∃ x ∈ ns, g.E x u) ∨ (self = true ∧ u ∈ ns)} topo l := by
  have h1 : gather (fun v => getChildren g v false) ns = .ok (ns.flatMap fun v => (g.succs v).insertionSort (· ≤ ·)) :=
    gather_ok _ _ ns (fun v hm => getChildren_false (hns v hm))
  unfold downstream
  rw [h1]
  dsimp only
  generalize hb : (if self = true then ((ns.flatMap fun v => (g.succs v).insertionSort (· ≤ ·)) ++ ns).eraseDups
    else (ns.flatMap fun v => (g.succs v).insertionSort (· ≤ ·)).eraseDups) = bl
  have hnd : bl.Nodup := by
    rw [← hb]
    split_ifs
    · exact nodup_eraseDups _ _ le_rfl
    · first | exact nodup_eraseDups _ _ le_rfl | exact (nodup_eraseDups _ _ le_rfl).filter _
  have hsub : ∀ u ∈ bl, u ∈ g.nodes := by
    intro u hu
    rw [← hb] at hu
    have : (∃ x ∈ ns, g.E x u) ∨ u ∈ ns := by cases self <;> simp [mem_insertionSort'] at hu <;> grind
    rcases this with ⟨x, _, h⟩ | h
    · exact hg.right h
    · exact hns u h
  obtain ⟨l, h2, h3⟩ := sortNodes_ok hg hv hne bl hnd hsub topo
  subst hb
  refine ⟨l, h2, ?_⟩
  convert h3 using 1
  ext u
  cases self <;> simp [mem_insertionSort']

/-- The Markov blanket of a set of nodes: parents, children and the other parents of the children, without the nodes
themselves. -/
def MarkovBlanket (E : α → α → Prop) (X : Set α) : Set α :=
  {u | u ∉ X ∧ ((∃ x ∈ X, E u x) ∨ (∃ x ∈ X, E x u) ∨ ∃ x ∈ X, ∃ c, E x c ∧ E u c)}

/-- C70. `get_markov_blanket`: exactly the Markov blanket, with or without the given nodes. -/
theorem C70_markov_exact (ns : List α) (hns : ∀ v ∈ ns, v ∈ g.nodes) (hne : g.nodes ≠ []) (self topo : Bool) :
    ∃ l, markov g ns self topo = .ok l ∧ AnswersSet {v | v ∈ g.nodes} g.E
      (MarkovBlanket g.E {v | v ∈ ns} ∪ {u | self = true ∧ u ∈ ns}) topo l := by
  have h1 : gather (fun v => getParents g v false) ns = .ok (ns.flatMap fun v => (g.preds v).insertionSort (· ≤ ·)) :=
    gather_ok _ _ ns (fun v hm => getParents_false (hns v hm))
  have h2 : gather (fun v => getChildren g v false) ns = .ok (ns.flatMap fun v => (g.succs v).insertionSort (· ≤ ·)) :=
    gather_ok _ _ ns (fun v hm => getChildren_false (hns v hm))
  generalize hps : (ns.flatMap fun v => (g.preds v).insertionSort (· ≤ ·)) = ps at h1
  generalize hcs : (ns.flatMap fun v => (g.succs v).insertionSort (· ≤ ·)) = cs at h2
  have mps : ∀ u, u ∈ ps ↔ ∃ x ∈ ns, g.E u x := by intro u; rw [← hps]; simp [mem_insertionSort']
  have mcs : ∀ u, u ∈ cs ↔ ∃ x ∈ ns, g.E x u := by intro u; rw [← hcs]; simp [mem_insertionSort']
  have h3 : gather (fun c => getParents g c false) cs.eraseDups =
      .ok (cs.eraseDups.flatMap fun v => (g.preds v).insertionSort (· ≤ ·)) := by
    refine gather_ok _ _ _ (fun c hc => getParents_false ?_)
    obtain ⟨x, _, hx⟩ := (mcs c).1 (List.mem_eraseDups.1 hc)
    exact hg.right hx
  generalize hos : (cs.eraseDups.flatMap fun v => (g.preds v).insertionSort (· ≤ ·)) = os at h3
  have mos : ∀ u, u ∈ os ↔ ∃ c, (∃ x ∈ ns, g.E x c) ∧ g.E u c := by
    intro u; rw [← hos]; simp only [List.mem_flatMap, List.mem_eraseDups, mcs, mem_insertionSort', MDG.mem_preds]
  unfold markov
  rw [h1]; dsimp only
  rw [h2]; dsimp only
  rw [h3]; dsimp only
  generalize hb : (if self = true then (ps ++ cs ++ os ++ ns).eraseDups
      else ((ps ++ cs ++ os).eraseDups).filter (· ∉ ns)) = bl
  have hnd : bl.Nodup := by
    rw [← hb]
    split_ifs
    · exact nodup_eraseDups _ _ le_rfl
    · first | exact nodup_eraseDups _ _ le_rfl | exact (nodup_eraseDups _ _ le_rfl).filter _
  have hsub : ∀ u ∈ bl, u ∈ g.nodes := by
    intro u hu
    rw [← hb] at hu
    have : u ∈ ps ∨ u ∈ cs ∨ u ∈ os ∨ u ∈ ns := by
      cases self <;> simp at hu <;> grind
    rcases this with h | h | h | h
    · obtain ⟨x, _, hx⟩ := (mps u).1 h; exact hg.left hx
    · obtain ⟨x, _, hx⟩ := (mcs u).1 h; exact hg.right hx
    · obtain ⟨c, _, hx⟩ := (mos u).1 h; exact hg.left hx
    · exact hns u h
  obtain ⟨l, h4, h5⟩ := sortNodes_ok hg hv hne bl hnd hsub topo
  subst hb
  refine ⟨l, h4, ?_⟩
  convert h5 using 1
  ext u
  simp only [MarkovBlanket, Set.mem_union, Set.mem_setOf_eq]
  cases self
  · simp [mps, mcs, mos]
    grind
  · simp [mps, mcs, mos]
    grind

theorem foldl_erase {l : List α} (hl : l.Nodup) : ∀ (ns : List α),
    (ns.foldl (fun b n => b.erase n) l) = l.filter (· ∉ ns) := by
  intro ns
  induction ns generalizing l with
  | nil => simp
  | cons n ns ih =>
    rw [List.foldl_cons, ih (hl.erase n), hl.erase_eq_filter, List.filter_filter]
    congr 1
    funext a
    simp [bne_iff_ne, Bool.and_comm]
    by_cases h : a = n <;> simp [h]

/-- What `get_blanket(…, return_self=False)` is meant to return. -/
def Blanket (E : α → α → Prop) (X : Set α) : Kind → Set α
  | .markov => MarkovBlanket E X
  | .downstream => {u | u ∉ X ∧ ∃ x ∈ X, E x u}
  | .upstream => {u | u ∉ X ∧ ∃ x ∈ X, E u x}

/-- C70. `get_blanket` for a list of nodes (or a one-letter name): the blanket of the requested kind, with or without the
nodes themselves. -/
theorem C70_blanket_exact (chars : α → List α) (ns : NodesArg α) (hc : ns.iter chars = ns.toList)
    (hns : ∀ v ∈ ns.toList, v ∈ g.nodes) (hne : g.nodes ≠ []) (kind : Kind) (self topo : Bool) :
    ∃ l, getBlanket chars g ns kind self topo = .ok l ∧ AnswersSet {v | v ∈ g.nodes} g.E
      (Blanket g.E {v | v ∈ ns.toList} kind ∪ {u | self = true ∧ u ∈ ns.toList}) topo l := by
  have key : ∀ (b : List α) (S : Set α), AnswersSet {v | v ∈ g.nodes} g.E S topo b →
      S = Blanket g.E {v | v ∈ ns.toList} kind ∪ {v | v ∈ ns.toList} →
      AnswersSet {v | v ∈ g.nodes} g.E (Blanket g.E {v | v ∈ ns.toList} kind ∪ {u | self = true ∧ u ∈ ns.toList}) topo
        (if self then b else (ns.iter chars).foldl (fun b n => b.erase n) b) := by
    intro b S ⟨h1, h2, h3⟩ hS
    have hnot : ∀ u, u ∈ Blanket g.E {v | v ∈ ns.toList} kind → u ∉ ns.toList := by
      intro u hu
      cases kind <;> exact hu.1
    cases self with
    | true => exact ⟨h1, by simpa [hS] using h2, h3⟩
    | false =>
      rw [hc]
      simp only [Bool.false_eq_true, if_false]
      rw [foldl_erase hg hv h1]
      refine ⟨h1.filter _, fun u => ?_, ?_⟩
      · simp only [List.mem_filter, h2, hS, Set.mem_union, Set.mem_setOf_eq, decide_eq_true_eq]
        constructor
        · rintro ⟨h | h, h'⟩
          · exact .inl h
          · exact absurd h h'
        · rintro (h | ⟨h, _⟩)
          · exact ⟨.inl h, hnot u h⟩
          · exact absurd h (by simp)
      · cases topo with
        | true =>
          obtain ⟨o, ho, hs⟩ := h3
          exact ⟨o, ho, List.filter_sublist.trans hs⟩
        | false => exact h3.sublist List.filter_sublist
  unfold getBlanket
  cases kind with
  | markov =>
    obtain ⟨b, h1, h2⟩ := C70_markov_exact hg hv ns.toList hns hne true topo
    simp only [h1]
    exact ⟨_, rfl, key b _ h2 (by simp [Blanket])⟩
  | downstream =>
    obtain ⟨b, h1, h2⟩ := C70_downstream_exact hg hv ns.toList hns hne true topo
    simp only [h1]
    refine ⟨_, rfl, key b _ h2 ?_⟩
    ext u; simp only [Blanket, Set.mem_union, Set.mem_setOf_eq, true_and]; grind
  | upstream =>
    obtain ⟨b, h1, h2⟩ := C70_upstream_exact hg hv ns.toList hns hne true topo
    simp only [h1]
    refine ⟨_, rfl, key b _ h2 ?_⟩
    ext u; simp only [Blanket, Set.mem_union, Set.mem_setOf_eq, true_and]; grind

end blankets

/-- the characters of a name, as one-letter names -/
def chars (s : String) : List String := s.toList.map (fun c => String.ofList [c])

/-- A collider `a → c ← b` with a further child `d`. -/
def bnDemo : MDG String := ⟨["a", "c", "b", "d"], [("a", "c", .num 0), ("b", "c", .num 0), ("c", "d", .num 0)]⟩

/-- non-vacuity: the graph meets the hypotheses, and the blankets are the expected ones -/
example : (mkDag (.other bnDemo)).isOk = true ∧
    getBlanket chars bnDemo (.many ["a"]) .markov false false = .ok ["b", "c"] ∧
    getBlanket chars bnDemo (.one "a") .markov true true = .ok ["a", "b", "c"] ∧
    getBlanket chars bnDemo (.many ["c"]) .upstream false false = .ok ["a", "b"] ∧
    getBlanket chars bnDemo (.many ["c"]) .downstream false false = .ok ["d"] := by decide +kernel

/-- C70, violation: `get_blanket('ab', return_self=False)` for a node whose name has more than one character does not
remove the node from its own blanket, because `for n in nodes` then runs over the characters; a list of one name works. -/
theorem C70_blanket_str_refuted :
    let g : MDG String := ⟨["ab", "c"], [("ab", "c", .num 0)]⟩
    getBlanket chars g (.one "ab") .markov false false = .ok ["ab", "c"] ∧
    getBlanket chars g (.many ["ab"]) .markov false false = .ok ["c"] := by decide +kernel

/-- C70, violation: `get_upstream_blanket(return_self=False)` may list a given node, where `get_markov_blanket` and
`get_blanket` do not. -/
theorem C70_upstream_lists_given_node_refuted :
    let g : MDG String := ⟨["a", "b"], [("a", "b", .num 0)]⟩
    upstream g ["a", "b"] false false = .ok ["a"] ∧ getBlanket chars g (.many ["a", "b"]) .upstream false false = .ok [] := by
  decide +kernel

/-! ### C73: the loss weight of `do` -/

/-- C73. With the default (Markov) blanket, `do` on a proper, non-empty part of the nodes has a non-empty blanket: its loss is
never divided by zero. -/
theorem C73_do_weight_pos {g : MDG α} (hg : g.WF) (hv : ValidStructure {v | v ∈ g.nodes} g.E) (ivs : List α)
    (hns : ∀ v ∈ ivs, v ∈ g.nodes) (hne : ivs ≠ []) (hprop : ∃ v ∈ g.nodes, v ∉ ivs) (n : Nat) (hn : 0 < n) :
    ∃ w > 0, doWeight g ivs .markov n = .ok w := by
  obtain ⟨x, hx⟩ := List.exists_mem_of_ne_nil ivs hne
  obtain ⟨y, hy, hyn⟩ := hprop
  obtain ⟨l, h1, h2, h3, h4⟩ := C70_blanket_exact hg hv (fun v => [v]) (.many ivs) rfl hns
    (List.ne_nil_of_mem hy) .markov false false
  unfold doWeight
  rw [h1]
  dsimp only
  have hpos : 0 < l.length := by
    -- the link from `x` to `y` leaves the set somewhere
    have hlink := hv.2 x (hns x hx) y hy
    have : ∃ u, u ∈ MarkovBlanket g.E {v | v ∈ ivs} := by
      clear h1 h2 h3 h4
      have H : ∀ z, Relation.ReflTransGen (Adj g.E) x z → z ∈ ivs ∨ ∃ u, u ∈ MarkovBlanket g.E {v | v ∈ ivs} := by
        intro z hz
        induction hz with
        | refl => exact .inl hx
        | @tail b c _ hbc ih =>
          rcases ih with hb | h
          · by_cases hc : c ∈ ivs
            · exact .inl hc
            · refine .inr ⟨c, hc, ?_⟩
              rcases hbc with h | h
              · exact .inr (.inl ⟨b, hb, h⟩)
              · exact .inl ⟨b, hb, h⟩
          · exact .inr h
      exact (H y hlink).resolve_left hyn
    obtain ⟨u, hu⟩ := this
    exact List.length_pos_of_mem ((h3 u).2 (.inl hu))
  have := Nat.mul_pos hpos hn
  exact ⟨_, this, by rw [if_neg (by omega)]⟩

/-- C73, violation: intervening on every node, or on a root with `blanket='upstream'`, makes `do` raise
ZeroDivisionError. -/
theorem C73_do_zero_division_refuted :
    let g : MDG String := ⟨["a", "b"], [("a", "b", .num 0)]⟩
    doWeight g ["a", "b"] .markov 100 = .error .exception ∧ doWeight g ["a"] .upstream 100 = .error .exception ∧
    doWeight g ["a"] .markov 100 = .ok 100 := by decide +kernel

/-! ### C75: categorical node states -/

section category

variable {R : Type} [LinearOrder R]

theorem encode_append (l₁ l₂ : List R) (v : R) : encode (l₁ ++ l₂) v = encode l₁ v + encode l₂ v := by
  simp [encode]

theorem encode_split {l₁ l₂ : List R} {v : R} (h : (l₁ ++ v :: l₂).Pairwise (· < ·)) :
    encode (l₁ ++ v :: l₂) v = l₁.length := by
  rw [List.pairwise_append] at h
  obtain ⟨_, h2, h3⟩ := h
  rw [encode_append]
  have e1 : encode l₁ v = l₁.length := by
    unfold encode
    rw [List.filter_eq_self.2 (fun a ha => by simpa using h3 a ha v (by simp))]
  have e2 : encode (v :: l₂) v = 0 := by
    unfold encode
    rw [List.length_eq_zero_iff, List.filter_eq_nil_iff]
    intro a ha
    rcases List.mem_cons.1 ha with rfl | ha
    · simp
    · simpa using ((List.pairwise_cons.1 h2).1 a ha).le
  omega

/-- C75. For the distinct values of a column (at least two): `encode` numbers the classes `0 … n-1` in increasing order and
`decode` is its inverse, in both directions. -/
theorem C75_roundtrip (values : List R) (hnd : values.Nodup) (h2 : 2 ≤ values.length) :
    ∃ classes, mkCategory values = .ok classes ∧
      (∀ v ∈ values, encode classes v < values.length ∧ decode classes (encode classes v) = .ok v) ∧
      (∀ i < values.length, ∃ v ∈ values, decode classes i = .ok v ∧ encode classes v = i) ∧
      (∀ v ∈ values, ∀ w ∈ values, v < w ↔ encode classes v < encode classes w) := by
  refine ⟨values.insertionSort (· ≤ ·), by rw [mkCategory, if_neg (by omega)], ?_⟩
  have hs := insertionSort_lt hnd
  have hlen : (values.insertionSort (· ≤ ·)).length = values.length := List.length_insertionSort _ _
  have hm : ∀ v, v ∈ values ↔ v ∈ values.insertionSort (· ≤ ·) := fun v => mem_insertionSort'.symm
  generalize values.insertionSort (· ≤ ·) = cl at hs hlen hm
  refine ⟨fun v hv => ?_, fun i hi => ?_, fun v hv w hw => ?_⟩
  · obtain ⟨l₁, l₂, rfl⟩ := List.append_of_mem ((hm v).1 hv)
    rw [encode_split hs]
    refine ⟨by rw [← hlen]; simp, ?_⟩
    simp [decode]
  · have hi' : i < cl.length := by omega
    refine ⟨cl[i], (hm _).2 (List.getElem_mem hi'), by simp [decode, hi'], ?_⟩
    have hsplit : cl = cl.take i ++ cl[i] :: cl.drop (i + 1) := by simp
    have : encode (cl.take i ++ cl[i] :: cl.drop (i + 1)) cl[i] = (cl.take i).length :=
      encode_split (by rw [← hsplit]; exact hs)
    rw [← hsplit] at this
    rw [this]; simp; omega
  · have hmono : ∀ v ∈ cl, ∀ w, v < w → encode cl v < encode cl w := by
      intro v hv w hvw
      obtain ⟨l₁, l₂, rfl⟩ := List.append_of_mem hv
      rw [encode_split hs, encode_append]
      rw [List.pairwise_append] at hs
      have e1 : encode l₁ w = l₁.length := by
        unfold encode
        rw [List.filter_eq_self.2 (fun a ha => by simpa using (hs.2.2 a ha v (by simp)).trans hvw)]
      have e2 : 0 < encode (v :: l₂) w := by
        unfold encode
        exact List.length_pos_of_mem (List.mem_filter.2 ⟨List.mem_cons_self, by simpa using hvw⟩)
      omega
    refine ⟨hmono v ((hm v).1 hv) w, fun h => ?_⟩
    rcases lt_trichotomy v w with h' | h' | h'
    · exact h'
    · subst h'; omega
    · have := hmono w ((hm w).1 hw) v h'; omega

/-- C75. A column with fewer than two distinct values cannot be a categorical node. -/
theorem C75_constant_refused (values : List R) (h : values.length < 2) : mkCategory values = .error .assertion := by
  rw [mkCategory, if_pos h]

/-- C75, violation: a value that is not a class is not refused: it is silently taken for the next larger class (or for a
class number beyond the last one). -/
theorem C75_unknown_value_refuted :
    mkCategory ["c", "a"] = .ok ["a", "c"] ∧ encode ["a", "c"] "b" = 1 ∧ decode ["a", "c"] 1 = .ok "c" ∧
    encode ["a", "c"] "z" = 2 ∧ decode ["a", "c"] 2 = .error .index := by decide +kernel

end category

/-! ### C77: the collectors -/

section collectors

variable {K : Type} [DivisionRing K]

theorem accumulate_first (heap : Nat → K) (first : Nat) (rs : List Nat) (h : first ∉ rs) :
    accumulate heap first rs = Function.update heap first (heap first + (rs.map heap).sum) := by
  induction rs generalizing heap with
  | nil => simp [accumulate]
  | cons r rs ih =>
    simp only [List.mem_cons, not_or] at h
    rw [accumulate, ih _ h.2, Function.update_idem, Function.update_self]
    congr 1
    have : rs.map (Function.update heap first (heap first + heap r)) = rs.map heap := by
      apply List.map_congr_left
      intro a ha
      exact Function.update_of_ne (fun hh : a = first => h.2 (hh ▸ ha)) _ _
    rw [this, List.map_cons, List.sum_cons, add_assoc]

/-- C77. If every draw yields a fresh tensor, the collected value of a numerical outcome is the mean of the draws, and no
tensor but the first is touched. -/
theorem C77_collector_mean (heap : Nat → K) (r : Nat) (rs : List Nat) (hfresh : r ∉ rs) :
    ∃ h, numberCollector heap (r :: rs) =
      .ok (((r :: rs).map heap).sum / (((r :: rs).length : ℕ) : K), h) ∧ ∀ s, s ≠ r → h s = heap s := by
  refine ⟨accumulate heap r rs, ?_, fun s hs => ?_⟩
  · simp [numberCollector, accumulate_first heap r rs hfresh]
  · rw [accumulate_first heap r rs hfresh, Function.update_of_ne hs]

/-- C77. If every draw yields the same tensor (the outcome is an intervened node: the value of the condition is returned by
reference), the collected value after `n + 1` draws of the constant `c` is `2ⁿ·c / (n + 1)` instead of `c`, and the tensor
of the condition itself is overwritten. -/
theorem C77_collector_alias (heap : Nat → K) (r n : Nat) :
    ∃ h, numberCollector heap (r :: List.replicate n r) = .ok (2 ^ n * heap r / ((n + 1 : ℕ) : K), h) ∧
      h r = 2 ^ n * heap r := by
  have key : ∀ (n : Nat) (heap : Nat → K), accumulate heap r (List.replicate n r) r = 2 ^ n * heap r := by
    intro n
    induction n with
    | zero => intro heap; simp [accumulate]
    | succ n ih =>
      intro heap
      rw [List.replicate_succ, accumulate, ih, Function.update_self, pow_succ, mul_assoc, two_mul]
  refine ⟨accumulate heap r (List.replicate n r), ?_, key n heap⟩
  simp [numberCollector, key]

/-- C77, violation: an intervened node set to 1, predicted from 100 draws, does not come out as 1. -/
theorem C77_intervened_outcome_refuted :
    ∃ (v : ℚ) (h : Nat → ℚ), numberCollector (fun _ => (1 : ℚ)) (0 :: List.replicate 99 0) = .ok (v, h) ∧ v ≠ 1 := by
  obtain ⟨h, h1, h2⟩ := C77_collector_alias (fun _ => (1 : ℚ)) 0 99
  exact ⟨_, h, h1, by norm_num⟩

end collectors

end YL.Props
