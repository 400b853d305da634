import Verif.Lib.Explicit

/-! The leaf-pruning loop of `nx.d_separated` keeps exactly the ancestors of the kept nodes. -/

namespace YL.MDG

variable {α : Type} [DecidableEq α]

structure PruneInv (g : MDG α) (keep : List α) (h : MDG α) (q : List α) : Prop where
  wf : h.WF
  sub : ∀ v ∈ h.nodes, v ∈ g.nodes
  edges : ∀ u v k, (u, v, k) ∈ h.edges ↔ (u, v, k) ∈ g.edges ∧ u ∈ h.nodes ∧ v ∈ h.nodes
  removed : ∀ v ∈ g.nodes, v ∉ h.nodes → ∀ k ∈ keep, ¬ Spec.Reach g.E v k
  queue : ∀ v ∈ q, h.outDegree v = 0
  leaves : ∀ v ∈ h.nodes, h.outDegree v = 0 → v ∈ keep ∨ v ∈ q

theorem PruneInv.E {g : MDG α} {keep : List α} {h : MDG α} {q : List α} (hi : PruneInv g keep h q)
    {u v : α} : h.E u v ↔ g.E u v ∧ u ∈ h.nodes ∧ v ∈ h.nodes := by
  simp [MDG.E, hi.edges]

/-- nodes that still have an outgoing edge -/
def busy (h : MDG α) : Finset α := h.nodes.toFinset.filter (fun v => h.outDegree v ≠ 0)

theorem outDegree_one {h : MDG α} (hw : h.WF) (hs : h.Simple) {v leaf : α} (hne : h.outDegree v ≠ 0)
    (hall : ∀ w, h.E v w → w = leaf) : h.outDegree v = 1 := by
  unfold outDegree at *
  set l := h.edges.filter (fun e => e.1 = v) with hl
  have hmem : ∀ e ∈ l, e.1 = v ∧ e.2.1 = leaf ∧ e ∈ h.edges := by
    rintro ⟨a, b, k⟩ he
    simp [hl] at he
    obtain ⟨h1, rfl⟩ := he
    exact ⟨rfl, hall b ⟨k, h1⟩, h1⟩
  have hnd : l.Nodup := hw.edgesNodup.filter _
  match l, hne, hmem, hnd with
  | [], hne, _, _ => simp at hne
  | [_], _, _, _ => rfl
  | e :: e' :: l, _, hmem, hnd =>
    exfalso
    obtain ⟨a, b, k⟩ := e
    obtain ⟨a', b', k'⟩ := e'
    obtain ⟨h1, h2, h3⟩ := hmem (a, b, k) (by simp)
    obtain ⟨h1', h2', h3'⟩ := hmem (a', b', k') (by simp)
    simp only at h1 h2 h1' h2'
    subst h1 h2 h1' h2'
    have := hs _ _ _ _ h3 h3'
    subst this
    simp at hnd

theorem PruneInv.simple {g : MDG α} {keep : List α} {h : MDG α} {q : List α} (hi : PruneInv g keep h q)
    (hs : g.Simple) : h.Simple := by
  intro u v k k' h1 h2
  exact hs u v k k' ((hi.edges _ _ _).1 h1).1 ((hi.edges _ _ _).1 h2).1

theorem pruneStep_inv {g : MDG α} {keep : List α} {h : MDG α} {leaf : α} {q : List α} (hg : g.WF)
    (hs : g.Simple)
    (hi : PruneInv g keep h (leaf :: q)) :
    PruneInv g keep (pruneStep h keep leaf q).1 (pruneStep h keep leaf q).2 ∧
    (pruneStep h keep leaf q).2.length + (busy (pruneStep h keep leaf q).1).card
      ≤ q.length + (busy h).card := by
  unfold pruneStep
  by_cases hk : leaf ∈ keep
  · rw [if_pos hk]
    refine ⟨⟨hi.wf, hi.sub, hi.edges, hi.removed, fun v hv => hi.queue v (by simp [hv]), ?_⟩, le_rfl⟩
    intro v hv h0
    rcases hi.leaves v hv h0 with h | h
    · exact .inl h
    · rcases List.mem_cons.1 h with rfl | h
      · exact .inl hk
      · exact .inr h
  rw [if_neg hk]
  by_cases hn : leaf ∈ h.nodes
  · rw [if_pos hn]
    have hl0 : ∀ v, ¬ h.E leaf v := outDegree_eq_zero.1 (hi.queue leaf (by simp))
    have hE : ∀ u v, (h.removeNodes [leaf]).E u v ↔ h.E u v ∧ v ≠ leaf := by
      intro u v
      rw [E_removeNodes]
      simp only [List.mem_singleton]
      constructor
      · rintro ⟨h1, -, h3⟩; exact ⟨h1, h3⟩
      · rintro ⟨h1, h3⟩; exact ⟨h1, by rintro rfl; exact hl0 _ h1, h3⟩
    have hzero : ∀ p, (h.removeNodes [leaf]).outDegree p = 0 ↔ ∀ v, h.E p v → v = leaf := by
      intro p
      rw [outDegree_eq_zero]
      simp only [hE, not_and, not_not]
    have hz' : ∀ p, h.outDegree p = 0 → (h.removeNodes [leaf]).outDegree p = 0 := by
      intro p hp; rw [hzero]; intro v hv; exact absurd hv (outDegree_eq_zero.1 hp v)
    have happ : ∀ p, p ∈ (h.preds leaf).filter (fun p => h.outDegree p = 1) →
        h.E p leaf ∧ ∀ v, h.E p v → v = leaf := by
      intro p hp
      simp only [List.mem_filter, mem_preds, decide_eq_true_eq] at hp
      refine ⟨hp.1, ?_⟩
      intro v hv
      obtain ⟨k, hk⟩ := hp.1
      obtain ⟨k', hk'⟩ := hv
      have hlen := hp.2
      unfold outDegree at hlen
      rw [List.length_eq_one_iff] at hlen
      obtain ⟨e, he⟩ := hlen
      have h1 : (p, leaf, k) ∈ h.edges.filter (fun e => e.1 = p) := by simp [hk]
      have h2 : (p, v, k') ∈ h.edges.filter (fun e => e.1 = p) := by simp [hk']
      rw [he] at h1 h2
      simp only [List.mem_singleton] at h1 h2
      rw [← h1] at h2
      exact (Prod.mk.inj (Prod.mk.inj h2).2).1
    refine ⟨⟨wf_removeNodes hi.wf _, ?_, ?_, ?_, ?_, ?_⟩, ?_⟩
    · intro v hv; exact hi.sub v (mem_nodes_removeNodes.1 hv).1
    · intro u v k
      rw [mem_edges_removeNodes, hi.edges, mem_nodes_removeNodes, mem_nodes_removeNodes]
      tauto
    · intro v hv hnv k hkk
      by_cases hvh : v ∈ h.nodes
      · have hvl : v = leaf := by
          by_contra hne
          exact hnv (mem_nodes_removeNodes.2 ⟨hvh, by simpa using hne⟩)
        subst hvl
        intro hr
        rcases hr.cases_head with rfl | ⟨w, hw, hwk⟩
        · exact hk hkk
        · by_cases hwh : w ∈ h.nodes
          · exact hl0 w (hi.E.2 ⟨hw, hvh, hwh⟩)
          · exact hi.removed w (hg.right hw) hwh k hkk hwk
      · exact hi.removed v hv hvh k hkk
    · intro v hv
      rcases List.mem_append.1 hv with hv | hv
      · exact hz' v (hi.queue v (by simp [hv]))
      · exact (hzero v).2 (happ v hv).2
    · intro v hv h0
      obtain ⟨hvh, hvl⟩ := mem_nodes_removeNodes.1 hv
      simp only [List.mem_singleton] at hvl
      by_cases h0' : h.outDegree v = 0
      · rcases hi.leaves v hvh h0' with h | h
        · exact .inl h
        · rcases List.mem_cons.1 h with rfl | h
          · exact absurd rfl hvl
          · exact .inr (List.mem_append_left _ h)
      · right
        refine List.mem_append_right _ ?_
        have hall := (hzero v).1 h0
        have h1 := outDegree_one hi.wf (hi.simple hs) h0' hall
        simp only [List.mem_filter, mem_preds, h1, decide_true, and_true]
        have : ¬ ∀ w, ¬ h.E v w := fun h => h0' (outDegree_eq_zero.2 h)
        push Not at this
        obtain ⟨w, hw⟩ := this
        rw [← hall w hw]; exact hw
    · rw [List.length_append]
      set ap := (h.preds leaf).filter (fun p => h.outDegree p = 1) with hap
      have hapnd : ap.Nodup := (nodup_preds h leaf).filter _
      have hle : ap.toFinset.card + (busy (h.removeNodes [leaf])).card ≤ (busy h).card := by
        rw [← Finset.card_union_of_disjoint]
        · apply Finset.card_le_card
          intro v hv
          rw [Finset.mem_union] at hv
          rcases hv with hv | hv
          · rw [List.mem_toFinset] at hv
            have := happ v hv
            simp only [busy, Finset.mem_filter, List.mem_toFinset, ne_eq, outDegree_eq_zero]
            exact ⟨hi.wf.left this.1, fun hh => hh _ this.1⟩
          · simp only [busy, Finset.mem_filter, List.mem_toFinset, ne_eq] at hv ⊢
            exact ⟨(mem_nodes_removeNodes.1 hv.1).1, fun hh => hv.2 (hz' v hh)⟩
        · rw [Finset.disjoint_left]
          intro v hv hv'
          rw [List.mem_toFinset] at hv
          simp only [busy, Finset.mem_filter, ne_eq] at hv'
          exact hv'.2 ((hzero v).2 (happ v hv).2)
      rw [List.toFinset_card_of_nodup hapnd] at hle
      simp only
      omega
  · rw [if_neg hn]
    refine ⟨⟨hi.wf, hi.sub, hi.edges, hi.removed, fun v hv => hi.queue v (by simp [hv]), ?_⟩, le_rfl⟩
    intro v hv h0
    rcases hi.leaves v hv h0 with h | h
    · exact .inl h
    · rcases List.mem_cons.1 h with rfl | h
      · exact absurd hv hn
      · exact .inr h

theorem pruneLoop_spec {g : MDG α} (hg : g.WF) (hs : g.Simple) (keep : List α) : ∀ (f : Nat) (h : MDG α)
    (q : List α), PruneInv g keep h q → q.length + (busy h).card ≤ f →
    PruneInv g keep (pruneLoop keep f h q) [] := by
  intro f
  induction f with
  | zero =>
    intro h q hi hf
    have : q = [] := List.eq_nil_of_length_eq_zero (by omega)
    subst this; exact hi
  | succ f ih =>
    intro h q hi hf
    cases q with
    | nil => exact hi
    | cons leaf q =>
      simp only [pruneLoop]
      obtain ⟨h1, h2⟩ := pruneStep_inv hg hs hi
      apply ih _ _ h1
      simp only [List.length_cons] at hf
      omega

theorem pruneLeaves_inv {g : MDG α} (hg : g.WF) (hs : g.Simple) (keep : List α) :
    PruneInv g keep (g.pruneLeaves keep) [] := by
  apply pruneLoop_spec hg hs
  · refine ⟨hg, fun v hv => hv, ?_, fun v hv hn => absurd hv hn, ?_, ?_⟩
    · intro u v k
      exact ⟨fun h => ⟨h, hg.src _ _ _ h, hg.tgt _ _ _ h⟩, fun h => h.1⟩
    · intro v hv; simpa using (List.mem_filter.1 hv).2
    · intro v hv h0; exact .inr (by simp [hv, h0])
  · have h1 := List.length_filter_le (fun v => decide (g.outDegree v = 0)) g.nodes
    have h2 : (busy g).card ≤ g.nodes.length :=
      (Finset.card_filter_le _ _).trans (List.toFinset_card_le _)
    omega

/-- Pruning keeps exactly the nodes with a descendant in `keep`, and all edges between kept nodes. -/
theorem mem_pruneLeaves {g : MDG α} (hg : g.WF) (hs : g.Simple) (hac : Spec.Acyclic g.E) (keep : List α)
    (v : α) : v ∈ (g.pruneLeaves keep).nodes ↔ v ∈ g.nodes ∧ ∃ k ∈ keep, Spec.Reach g.E v k := by
  have hi := pruneLeaves_inv hg hs keep
  constructor
  · intro hv
    refine ⟨hi.sub v hv, ?_⟩
    induction v using (hg.childrenWF hac).induction with
    | _ v ih =>
      by_cases h0 : (g.pruneLeaves keep).outDegree v = 0
      · rcases hi.leaves v hv h0 with h | h
        · exact ⟨v, h, .refl⟩
        · simp at h
      · rw [outDegree_eq_zero] at h0
        push Not at h0
        obtain ⟨w, hw⟩ := h0
        obtain ⟨h1, h2, h3⟩ := hi.E.1 hw
        obtain ⟨k, hk, hr⟩ := ih w h1 h3
        exact ⟨k, hk, hr.head h1⟩
  · rintro ⟨hv, k, hk, hr⟩
    by_contra hn
    exact hi.removed v hv hn k hk hr

/-- The edges among which `nx.d_separated` looks for a connection: the source is not conditioned on and
the target is an ancestor of a mentioned node. -/
def SepEdge (E : α → α → Prop) (T Z : Set α) (u v : α) : Prop :=
  E u v ∧ u ∉ Z ∧ ∃ t ∈ T, Spec.Reach E v t

theorem E_pruned {g : MDG α} (hg : g.WF) (hs : g.Simple) (hac : Spec.Acyclic g.E) (keep z : List α)
    (u v : α) : ((g.pruneLeaves keep).cutOut z).E u v ↔
      SepEdge g.E {t | t ∈ keep} {t | t ∈ z} u v := by
  have hi := pruneLeaves_inv hg hs keep
  rw [E_cutOut, hi.E, mem_pruneLeaves hg hs hac, mem_pruneLeaves hg hs hac]
  constructor
  · rintro ⟨⟨h1, -, -, h2⟩, h3⟩; exact ⟨h1, h3, h2⟩
  · rintro ⟨h1, h3, k, hk, hr⟩
    exact ⟨⟨h1, ⟨hg.left h1, k, hk, hr.head h1⟩, hg.right h1, k, hk, hr⟩, h3⟩

/-- What `nx.d_separated` computes on a well-formed DAG without parallel edges. -/
theorem dSeparated_eq {g : MDG α} (hg : g.WF) (hs : g.Simple) (hac : Spec.Acyclic g.E) (x y z : List α)
    (hin : ∀ v ∈ x ++ y ++ z, v ∈ g.nodes) :
    ∃ b, g.dSeparated x y z = .ok b ∧
      (b = true ↔ ∀ a ∈ x, ∀ c ∈ y, ¬ Relation.ReflTransGen
        (Spec.Adj (SepEdge g.E {t | t ∈ x ++ y ++ z} {t | t ∈ z})) a c) := by
  have heq : g.dSeparated x y z = .ok (!(x.any (fun a => y.any (fun b => b ∈ reachList
      ((g.pruneLeaves (x ++ y ++ z)).cutOut z).nodes ((g.pruneLeaves (x ++ y ++ z)).cutOut z).nbrs a)))) := by
    unfold dSeparated
    rw [if_pos ((isDag_iff hg).2 hac), if_pos (by simpa only [List.all_eq_true, decide_eq_true_eq] using hin)]
  refine ⟨_, heq, ?_⟩
  · have hi := pruneLeaves_inv hg hs (x ++ y ++ z)
    have hwf : ((g.pruneLeaves (x ++ y ++ z)).cutOut z).WF := wf_filterEdges hi.wf _
    have hstep : StepIn ((g.pruneLeaves (x ++ y ++ z)).cutOut z).nodes
        ((g.pruneLeaves (x ++ y ++ z)).cutOut z).nbrs =
        Spec.Adj (SepEdge g.E {t | t ∈ x ++ y ++ z} {t | t ∈ z}) := by
      funext a b
      have e1 := E_pruned hg hs hac (x ++ y ++ z) z a b
      have e2 := E_pruned hg hs hac (x ++ y ++ z) z b a
      simp only [StepIn, nbrs, Spec.Adj, eq_iff_iff, ← e1, ← e2]
      rw [List.mem_append, mem_preds, mem_succs]
      constructor
      · rintro ⟨h, -⟩; exact h.symm
      · intro h
        refine ⟨h.symm, ?_⟩
        rcases h with h | h
        · exact hwf.right h
        · exact hwf.left h
    simp only [Bool.not_eq_true', List.any_eq_false, List.any_eq_true, decide_eq_true_eq, mem_reachList,
      hstep, not_exists, not_and]

theorem dSeparated_missing {g : MDG α} (hg : g.WF) (hac : Spec.Acyclic g.E) (x y z : List α)
    (hin : ∃ v ∈ x ++ y ++ z, v ∉ g.nodes) : g.dSeparated x y z = .error .nodeNotFound := by
  unfold dSeparated
  rw [if_pos ((isDag_iff hg).2 hac), if_neg]
  simp only [List.all_eq_true, decide_eq_true_eq]
  push Not; exact hin

end YL.MDG
