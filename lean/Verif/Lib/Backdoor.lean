import Verif.Model.Backdoor
import Verif.Lib.Adjust
import Verif.Lib.Powerset
import Verif.Spec.Estimand
import Verif.Props.DSep

/-! The graph without the edges out of the treatment, and the search for adjustment sets. -/

set_option linter.unusedSectionVars false

namespace YL

open Spec LatentNames

variable {α : Type} [DecidableEq α] [LatentNames α]

namespace CG

theorem both_ways {g : CG α} (hs : g.Sync) (hac : Acyclic (Parent g.causation)) (u v : α) :
    (g.dag.hasEdge u v && g.dag.hasEdge v u) = decide ((u, v, EKey.n) ∈ g.dag.edges) := by
  have h1 : ∀ a b, g.dag.hasEdge a b = true ↔ g.dag.E a b := by
    intro a b
    simp only [MDG.hasEdge, List.any_eq_true, decide_eq_true_eq, MDG.E, Prod.exists]
    constructor
    · rintro ⟨x, y, k, h, rfl, rfl⟩; exact ⟨k, h⟩
    · rintro ⟨k, h⟩; exact ⟨a, b, k, h, rfl, rfl⟩
  rw [Bool.eq_iff_iff, Bool.and_eq_true, h1, h1, hs.E_iff, hs.E_iff, decide_eq_true_eq]
  constructor
  · rintro ⟨h | h, h' | h'⟩
    · exact absurd (Relation.TransGen.single h |>.tail h') (hac u)
    · exact hs.sym _ _ h'
    · exact h
    · exact h
  · intro h; exact ⟨.inr h, .inr (hs.sym _ _ h)⟩

theorem latentArcs_eq {g g' : CG α} (hs : g.Sync) (hs' : g'.Sync) (hac : Acyclic (Parent g.causation))
    (hac' : Acyclic (Parent g'.causation)) (hn : g'.dag.nodes = g.dag.nodes)
    (he : ∀ u v, (u, v, EKey.n) ∈ g'.dag.edges ↔ (u, v, EKey.n) ∈ g.dag.edges) :
    g'.latentArcs = g.latentArcs := by
  unfold latentArcs latentArcsOf
  rw [hn]
  congr 1
  funext arcs e
  have h1 := both_ways hs hac e.1 e.2
  have h2 := both_ways hs' hac' e.1 e.2
  have : (g'.dag.hasEdge e.1 e.2 && g'.dag.hasEdge e.2 e.1) = (g.dag.hasEdge e.1 e.2 && g.dag.hasEdge e.2 e.1) := by
    rw [h1, h2]; simp [he]
  rw [this]

end CG

theorem isDict_get {c : Causation α} (h : IsDict c) (v : α) : (c.get v).Nodup := by
  unfold Causation.get
  cases hl : c.lookup v with
  | none => simp
  | some ps =>
    have : (v, ps) ∈ c := by
      rw [List.lookup_eq_some_iff] at hl
      obtain ⟨l₁, l₂, rfl, _⟩ := hl
      simp
    exact h.2 _ this

theorem isDict_sync {c : Causation α} (h : IsDict c) (A : List (α × α)) : (CG.init c A).Sync :=
  CG.sync_init h.1 (isDict_get h) A

/-- The graph on which back-door separation is decided. -/
theorem removeOutgoing_explicit {c : Causation α} {A : List (α × α)} (hD : IsDict c) (h : IsDiagram c A U)
    {X : List α} (hX : ∀ x ∈ X, x ∈ c.keys) :
    ∃ gm, (CG.init c A).removeOutgoing X = .ok gm ∧ gm.FreshNames ∧
      gm.explicitDag.E = CutOut (CG.init c A).explicitDag.E {x | x ∈ X} := by
  have hs := isDict_sync hD A
  obtain ⟨gm, h1, h2, h3, h4, h5, h6⟩ := Props.C07_removeOutgoing_exact (CG.init c A) hs X hX
  have hac' : Acyclic (Parent gm.causation) := fun a ha =>
    h.acyclic a (Relation.TransGen.mono (fun _ _ h => ((h5 _ _).1 h).1) _ _ ha)
  have hla := CG.latentArcs_eq hs h2 h.acyclic hac' h4 h6
  have hf := Props.diagram_fresh h
  refine ⟨gm, h1, ⟨fun i hi => hf.1 i (h4 ▸ hi), ?_⟩, ?_⟩
  · rintro i ⟨u, hu | hu⟩
    · exact hf.2 i ⟨u, .inl ((h5 _ _).1 hu).1⟩
    · exact hf.2 i ⟨u, .inr ((h5 _ _).1 hu).1⟩
  · funext a b
    rw [eq_iff_iff, CG.E_explicit, CutOut, CG.E_explicit, h5]
    have hLat : gm.LatEdge a b ↔ (CG.init c A).LatEdge a b := by
      unfold CG.LatEdge; rw [hla]
    rw [hLat]
    have hLX : (CG.init c A).LatEdge a b → a ∉ X := by
      rintro ⟨e, i, _, rfl, _⟩ hx
      exact (h.fresh i).1 (hX _ hx)
    constructor
    · rintro (h | h)
      · exact ⟨.inl h.1, h.2⟩
      · exact ⟨.inr h, hLX h⟩
    · rintro ⟨h | h, h'⟩
      · exact .inl ⟨h, h'⟩
      · exact .inr h

/-- d-separation after deleting the edges out of the treatment. -/
theorem modified_dsep {c : Causation α} {A : List (α × α)} (h : IsDiagram c A U) {X : List α} {gm : CG α}
    (hf : gm.FreshNames) (hE : gm.explicitDag.E = CutOut (CG.init c A).explicitDag.E {x | x ∈ X})
    (x y z : List α) (hxz : ∀ a ∈ x, a ∉ z) (hyz : ∀ a ∈ y, a ∉ z) (b : Bool)
    (hb : gm.explicitDag.dSeparated x y z = .ok b) :
    (b = true ↔ DSep (CutOut (CG.init c A).explicitDag.E {x | x ∈ X}) {a | a ∈ x} {a | a ∈ y} {a | a ∈ z}) := by
  have hac := acyclic_cutOut (Props.C08_explicit_faithful_partial c A h).acyclic {x | x ∈ X}
  have hwf := CG.wf_explicit gm
  have hac' : Acyclic gm.explicitDag.E := hE ▸ hac
  have hin : ∀ v ∈ x ++ y ++ z, v ∈ gm.explicitDag.nodes := by
    by_contra hn
    push Not at hn
    rw [MDG.dSeparated_missing hwf hac' x y z hn] at hb
    cases hb
  obtain ⟨b', h1, h2⟩ := MDG.dSeparated_eq hwf (CG.simple_explicit hf) hac' x y z hin
  rw [h1] at hb; cases hb
  have hd := dsep_iff_not_connected hac' {a | a ∈ x} {a | a ∈ y} {a | a ∈ z} hxz hyz
  have : ({a | a ∈ x} ∪ {a | a ∈ y} ∪ {a | a ∈ z} : Set α) = {t | t ∈ x ++ y ++ z} := by
    ext t; simp [or_assoc]
  rw [this] at hd
  rw [← hE]
  exact h2.trans hd.symm

theorem modified_ok {c : Causation α} {A : List (α × α)} (h : IsDiagram c A U) {X : List α} {gm : CG α}
    (hf : gm.FreshNames) (hE : gm.explicitDag.E = CutOut (CG.init c A).explicitDag.E {x | x ∈ X})
    (x y z : List α)
    (hin : ∀ v ∈ x ++ y ++ z, ∃ u, Adj (CutOut (CG.init c A).explicitDag.E {x | x ∈ X}) u v) :
    ∃ b, gm.explicitDag.dSeparated x y z = .ok b := by
  have hac := acyclic_cutOut (Props.C08_explicit_faithful_partial c A h).acyclic {x | x ∈ X}
  have hac' : Acyclic gm.explicitDag.E := hE ▸ hac
  obtain ⟨b, h1, _⟩ := MDG.dSeparated_eq (CG.wf_explicit gm) (CG.simple_explicit hf) hac' x y z
    (fun v hv => by
      obtain ⟨u, hu⟩ := hin v hv
      exact CG.mem_nodes_explicit.2 ⟨u, by rw [hE]; exact hu⟩)
  exact ⟨b, h1⟩

theorem firstSep_ok {sep : List α → Except Err Bool} : ∀ (l : List (List α)) (r : List (List α)),
    firstSep sep l = .ok r → (r = [] ∧ ∀ i ∈ l, sep i = .ok false) ∨
      ∃ l₁ i l₂, l = l₁ ++ i :: l₂ ∧ r = [i] ∧ sep i = .ok true ∧ ∀ j ∈ l₁, sep j = .ok false := by
  intro l
  induction l with
  | nil => intro r h; simp only [firstSep] at h; cases h; exact .inl ⟨rfl, by simp⟩
  | cons i l ih =>
    intro r h
    rw [firstSep] at h
    cases hi : sep i with
    | error e => rw [hi] at h; cases h
    | ok b =>
      rw [hi] at h
      cases b with
      | true => cases h; exact .inr ⟨[], i, l, rfl, rfl, hi, by simp⟩
      | false =>
        rcases ih r h with ⟨h1, h2⟩ | ⟨l₁, j, l₂, rfl, h2, h3, h4⟩
        · exact .inl ⟨h1, by simpa [hi] using h2⟩
        · exact .inr ⟨i :: l₁, j, l₂, rfl, h2, h3, by simpa [hi] using h4⟩

/-- the call answered True -/
def okTrue : Except Err Bool → Bool
  | .ok b => b
  | .error _ => false

theorem allSep_ok {sep : List α → Except Err Bool} : ∀ (l : List (List α)) (r : List (List α)),
    allSep sep l = .ok r → (∀ i ∈ l, ∃ b, sep i = .ok b) ∧ r = l.filter (fun i => okTrue (sep i)) := by
  intro l
  induction l with
  | nil => intro r h; simp only [allSep] at h; cases h; simp
  | cons i l ih =>
    intro r h
    rw [allSep] at h
    cases hi : sep i with
    | error e => rw [hi] at h; cases h
    | ok b =>
      rw [hi] at h
      cases hl : allSep sep l with
      | error e => rw [hl] at h; cases h
      | ok r' =>
        rw [hl] at h
        simp only [Except.ok.injEq] at h
        obtain ⟨h1, h2⟩ := ih r' hl
        refine ⟨by simpa [hi] using h1, ?_⟩
        rw [← h, h2, List.filter_cons, hi]
        cases b <;> simp [okTrue]

theorem firstSep_total {sep : List α → Except Err Bool} : ∀ (l : List (List α)),
    (∀ i ∈ l, ∃ b, sep i = .ok b) → ∃ r, firstSep sep l = .ok r := by
  intro l
  induction l with
  | nil => intro _; exact ⟨[], rfl⟩
  | cons i l ih =>
    intro h
    obtain ⟨b, hb⟩ := h i (by simp)
    obtain ⟨r, hr⟩ := ih (fun j hj => h j (by simp [hj]))
    rw [firstSep, hb]
    cases b
    · exact ⟨r, hr⟩
    · exact ⟨_, rfl⟩

theorem allSep_total {sep : List α → Except Err Bool} : ∀ (l : List (List α)),
    (∀ i ∈ l, ∃ b, sep i = .ok b) → ∃ r, allSep sep l = .ok r := by
  intro l
  induction l with
  | nil => intro _; exact ⟨[], rfl⟩
  | cons i l ih =>
    intro h
    obtain ⟨b, hb⟩ := h i (by simp)
    obtain ⟨r, hr⟩ := ih (fun j hj => h j (by simp [hj]))
    rw [allSep, hb]
    simp only [hr]
    exact ⟨_, rfl⟩

theorem desSet_spec (c : Causation α) : ∀ (X : List α) (r : List α), desSet (CG.observedDagOf c) X = .ok r →
    ∀ v, v ∈ r ↔ ∃ x ∈ X, v ≠ x ∧ Reach (Parent c) x v := by
  intro X
  induction X with
  | nil => intro r h v; simp only [desSet] at h; cases h; simp
  | cons t X ih =>
    intro r h v
    rw [desSet] at h
    cases hd : (CG.observedDagOf c).descendants t with
    | error e => rw [hd] at h; cases h
    | ok l =>
      rw [hd] at h
      cases hr : desSet (CG.observedDagOf c) X with
      | error e => rw [hr] at h; cases h
      | ok l' =>
        rw [hr] at h
        simp only [Except.ok.injEq] at h
        have ht : t ∈ (CG.observedDagOf c).nodes := by
          by_contra hn
          unfold MDG.descendants at hd
          rw [if_neg hn] at hd; cases hd
        have hl := MDG.mem_descendants (CG.wf_observed c) hd v
        rw [CG.E_observed_eq] at hl
        subst h
        rw [List.mem_append, ih l' hr, hl]
        simp only [List.mem_cons, exists_eq_or_imp]
        tauto

end YL
