import Verif.Model.IV
import Verif.Props.Backdoor
import Verif.Lib.FrontAdjust

/-!
# C24: instrumental variables
-/

set_option linter.unusedSectionVars false

namespace YL.Props

open YL Spec LatentNames

variable {α : Type} [DecidableEq α] [LatentNames α]

/-- Marginal d-separation is the absence of a common ancestor. -/
theorem dsep_empty_iff {E : α → α → Prop} (hac : Acyclic E) (a b : α) :
    DSep E {a} {b} ∅ ↔ ¬ ∃ w, Reach E w a ∧ Reach E w b := by
  rw [dsep_iff_not_connected hac {a} {b} ∅ (by simp) (by simp)]
  constructor
  · rintro h ⟨w, ha, hb⟩
    refine h a rfl b rfl (?_ : Relation.ReflTransGen _ a b)
    have up : ∀ c, (c = a ∨ c = b) → ∀ w, Reach E w c →
        Relation.ReflTransGen (Adj (MDG.SepEdge E ({a} ∪ {b} ∪ ∅) ∅)) w c := by
      intro c hc w hw
      induction hw using Relation.ReflTransGen.head_induction_on with
      | refl => exact .refl
      | head h1 h2 ih => exact ih.head (.inl ⟨h1, by simp, c, by rcases hc with rfl | rfl <;> simp, h2⟩)
    have sym : ∀ x y, Relation.ReflTransGen (Adj (MDG.SepEdge E ({a} ∪ {b} ∪ ∅) ∅)) x y →
        Relation.ReflTransGen (Adj (MDG.SepEdge E ({a} ∪ {b} ∪ ∅) ∅)) y x := by
      intro x y hxy
      induction hxy with
      | refl => exact .refl
      | tail _ h2 ih => exact ih.head h2.symm
    exact (sym _ _ (up a (.inl rfl) w ha)).trans (up b (.inr rfl) w hb)
  · intro h x hx y hy hr
    rw [Set.mem_singleton_iff] at hx hy
    subst hx; subst hy
    have inv : ∀ v, Relation.ReflTransGen (Adj (MDG.SepEdge E ({x} ∪ {y} ∪ ∅) ∅)) x v → Reach E v x := by
      intro v hv
      induction hv with
      | refl => exact .refl
      | tail _ h2 ih =>
        rcases h2 with ⟨e, _, t, ht, hr'⟩ | ⟨e, _, _⟩
        · have ht : t = x ∨ t = y := by simpa [or_comm] using ht
          rcases ht with ht | ht
          · exact ht ▸ hr'
          · exact absurd ⟨_, ih, (ht ▸ hr').head e⟩ h
        · exact ih.head e
    exact h ⟨y, inv y hr, .refl⟩

theorem E_removeIngo {d d' : MDG α} {t : α} (h : removeIngo d t = .ok d') :
    d'.E = CutIn d.E {t} ∧ d'.nodes = d.nodes ∧ (d.WF → d'.WF) := by
  unfold removeIngo at h
  cases hc : checkNodes d.nodes [t] with
  | error e => rw [hc] at h; cases h
  | ok _ =>
    rw [hc] at h; cases h
    refine ⟨?_, rfl, fun hw => MDG.wf_filterEdges hw _⟩
    funext u v
    refine propext ⟨?_, ?_⟩
    · rintro ⟨k, hk⟩
      obtain ⟨h1, h2⟩ := List.mem_filter.1 hk
      exact ⟨⟨k, h1⟩, by simpa using h2⟩
    · rintro ⟨⟨k, hk⟩, h2⟩
      exact ⟨k, List.mem_filter.2 ⟨hk, by simpa using h2⟩⟩

theorem mem_descendentsOfIter {d : MDG α} (hd : d.WF) {x : List α} (hx : ∀ v ∈ x, v ∈ d.nodes) (u : α) :
    u ∈ descendentsOfIter d x ↔ ∃ v ∈ x, Reach d.E v u := by
  unfold descendentsOfIter
  rw [List.mem_flatMap]
  refine exists_congr (fun v => and_congr_right (fun hv => ?_))
  have : ∃ l, d.descendants v = .ok l := by
    unfold MDG.descendants; rw [if_pos (hx v hv)]; exact ⟨_, rfl⟩
  obtain ⟨l, hl⟩ := this
  rw [hl]
  dsimp only
  rw [List.mem_cons, MDG.mem_descendants hd hl]
  constructor
  · rintro (rfl | h)
    · exact .refl
    · exact h.1
  · intro h
    by_cases e : u = v
    · exact .inl e
    · exact .inr ⟨h, e⟩

/-- What an answer of `get_iv` contains. -/
theorem mem_getIV {c : Causation α} {A : List (α × α)} (h : IsDiagram c A U) (hD : IsDict c) {t y : α}
    {r : Option (List α)} (hok : getIV (CG.init c A) t y = .ok r) (z : α) :
    z ∈ r.getD [] ↔ Parent c z t ∧ ¬ ∃ w v, w ≠ y ∧
      Reach (CutIn (CG.init c A).explicitDag.E {t}) w y ∧ Reach (CutIn (CG.init c A).explicitDag.E {t}) w v ∧ v = z := by
  unfold getIV at hok
  cases hc : checkNodes (CG.init c A).causation.keys [t, y] with
  | error e => rw [hc] at hok; cases hok
  | ok _ =>
    rw [hc] at hok
    dsimp only at hok
    cases hd : removeIngo (CG.init c A).explicitDag t with
    | error e => rw [hd] at hok; cases hok
    | ok d =>
      rw [hd] at hok
      dsimp only at hok
      obtain ⟨e1, e2, e3⟩ := E_removeIngo hd
      have hw := e3 (CG.wf_explicit _)
      cases ha : d.ancestors y with
      | error e => rw [ha] at hok; cases hok
      | ok an =>
        rw [ha] at hok
        dsimp only at hok
        have hr : r.getD [] = (((CG.init c A).parents t).filter (· ∉ an)).filter (· ∉ descendentsOfIter d an) := by
          cases hok
          split
          · rename_i h0; rw [h0]; rfl
          · rfl
        have han : ∀ v, v ∈ an ↔ Reach d.E v y ∧ v ≠ y := MDG.mem_ancestors hw ha
        have hin : ∀ v ∈ an, v ∈ d.nodes := by
          intro v hv
          obtain ⟨h1, h2⟩ := (han v).1 hv
          obtain ⟨w, hw', _⟩ := Relation.ReflTransGen.cases_head h1 |>.resolve_left h2
          exact hw.left hw'
        have hp : z ∈ (CG.init c A).parents t ↔ Parent c z t := by
          have : (CG.init c A).parents t = c.get t := rfl
          rw [this]
          exact (Causation.parent_iff hD.1 z t).symm
        rw [hr, List.mem_filter, List.mem_filter, hp]
        simp only [decide_eq_true_eq, mem_descendentsOfIter hw hin]
        rw [and_assoc]
        refine and_congr_right (fun _ => ?_)
        simp only [han, e1]
        constructor
        · rintro ⟨_, h2⟩ ⟨w, v, hwy, h3, h4, rfl⟩
          exact h2 ⟨w, ⟨h3, hwy⟩, h4⟩
        · intro h2
          refine ⟨fun h3 => h2 ⟨z, z, h3.2, h3.1, .refl, rfl⟩, ?_⟩
          rintro ⟨w, h3, h4⟩
          exact h2 ⟨w, z, h3.2, h3.1, h4, rfl⟩

theorem reach_cutIn {E : α → α → Prop} (hac : Acyclic E) {t y : α} (h : Reach E t y) : Reach (CutIn E {t}) t y := by
  induction h with
  | refl => exact .refl
  | tail h1 h2 ih =>
    refine ih.tail ⟨h2, ?_⟩
    rintro rfl
    exact hac _ (Relation.TransGen.tail' h1 h2)

/-- C24. On a causal diagram in which the treatment causes the outcome, `get_iv(t, y)` returns exactly the
observed direct causes `z` of the treatment that satisfy Pearl's criterion for instruments: `z` and `y` are
d-separated once the edges into the treatment are deleted. (`None` means there is none.) -/
theorem C24_get_iv_partial (c : Causation α) (A : List (α × α)) (hD : IsDict c) (h : IsDiagram c A U) :
    ∃ G, IsExplicit c A U G ∧ ∀ t y r, getIV (CG.init c A) t y = .ok r → t ≠ y → Reach G t y →
      ∀ z, z ∈ r.getD [] ↔ Parent c z t ∧ DSep (CutIn G {t}) {z} {y} ∅ := by
  have hE := C08_explicit_faithful_partial c A h
  refine ⟨_, hE, fun t y r hok hty hr z => ?_⟩
  rw [mem_getIV h hD hok, dsep_empty_iff (acyclic_cutIn hE.acyclic _)]
  refine and_congr_right (fun _ => not_congr ?_)
  constructor
  · rintro ⟨w, v, _, h1, h2, rfl⟩; exact ⟨w, h2, h1⟩
  · rintro ⟨w, h1, h2⟩
    by_cases hw : w = y
    · subst hw
      exact ⟨t, z, hty, reach_cutIn hE.acyclic hr, (reach_cutIn hE.acyclic hr).trans h1, rfl⟩
    · exact ⟨w, z, hw, h2, h1, rfl⟩

/-- non-vacuity: of the three direct causes of `x` only `z` is an instrument -/
example : getIV (CG.init [("z", []), ("w", []), ("v", []), ("x", ["z", "w", "v"]), ("y", ["x", "w"])]
      [("x", "y"), ("v", "y")]) "x" "y" = .ok (some ["z"]) := by decide +kernel

/-- `get_iv` returns `None` rather than an empty answer, and answers whenever both names lie on an edge or arc. -/
theorem C24_get_iv_total (c : Causation α) (A : List (α × α)) (h : IsDiagram c A U) :
    ∃ G, IsExplicit c A U G ∧ ∀ t y, t ∈ c.map (·.1) → y ∈ c.map (·.1) → (∃ u, Adj G u t) → (∃ u, Adj G u y) →
      ∃ r, getIV (CG.init c A) t y = .ok r ∧ r ≠ some [] := by
  have hE := C08_explicit_faithful_partial c A h
  refine ⟨_, hE, fun t y ht hy hut huy => ?_⟩
  have hkt : t ∈ (CG.init c A).explicitDag.nodes := CG.mem_nodes_explicit.2 hut
  have hky : y ∈ (CG.init c A).explicitDag.nodes := CG.mem_nodes_explicit.2 huy
  unfold getIV
  rw [checkNodes_of (by intro v hv; simp at hv; rcases hv with rfl | rfl <;> assumption)]
  have h1 : ∃ d, removeIngo (CG.init c A).explicitDag t = .ok d := by
    unfold removeIngo; rw [checkNodes_of (by simpa using hkt)]; exact ⟨_, rfl⟩
  obtain ⟨d, hd⟩ := h1
  rw [hd]
  dsimp only
  have h2 : ∃ an, d.ancestors y = .ok an := by
    unfold MDG.ancestors; rw [if_pos ((E_removeIngo hd).2.1 ▸ hky)]; exact ⟨_, rfl⟩
  obtain ⟨an, ha⟩ := h2
  rw [ha]
  dsimp only
  refine ⟨_, rfl, ?_⟩
  split
  · simp
  · rename_i h0; simpa using h0

/-- C24, what validity means for the data: in every discrete causal model of the diagram, an instrument reported
by `get_iv` is independent of the outcome when the treatment is held fixed by intervention. -/
theorem C24_instrument_exogenous (c : Causation α) (A : List (α × α)) (hD : IsDict c) (h : IsDiagram c A U) :
    ∃ G, IsExplicit c A U G ∧ ∀ t y r, getIV (CG.init c A) t y = .ok r → t ≠ y → Reach G t y →
      ∀ z ∈ r.getD [], ∀ (V : Finset α), (∀ a b, G a b → a ∈ V ∧ b ∈ V) →
      ∀ (Ω : α → Type) [∀ i, Fintype (Ω i)] (K : Type) [Field K] [LinearOrder K] [IsStrictOrderedRing K]
        (M : BayesNet (K := K) V G Ω) (v : ∀ i, Ω i),
        M.Pdo {t} {z, y} v = M.Pdo {t} {z} v * M.Pdo {t} {y} v := by
  obtain ⟨G, hE, hm⟩ := C24_get_iv_partial c A hD h
  refine ⟨G, hE, fun t y r hok hty hr z hz V hV Ω _ K _ _ _ M v => ?_⟩
  obtain ⟨hp, hs⟩ := (hm t y r hok hty hr z).1 hz
  have hzl : ∀ i, z ≠ U i := by
    rintro i rfl
    exact (h.fresh i).2.1 ⟨t, .inr hp⟩
  have hzt : G z t := (hE.observed z t hzl).2 hp
  have hne : z ≠ t := fun e => hE.acyclic t (.single (e ▸ hzt))
  have hyV : y ∈ V := by
    rcases Relation.ReflTransGen.cases_tail hr with e | ⟨u, _, hu⟩
    · exact absurd e.symm hty
    · exact (hV _ _ hu).2
  have hac' : Acyclic (fun a b => G a b ∧ a ≠ t ∧ b ≠ t) := fun a ha =>
    hE.acyclic a (Relation.TransGen.mono (fun _ _ h => h.1) _ _ ha)
  rw [dsep_empty_iff (acyclic_cutIn hE.acyclic _)] at hs
  have hs' : DSep (fun a b => G a b ∧ a ≠ t ∧ b ≠ t) {z} {y} ∅ := by
    rw [dsep_empty_iff hac']
    rintro ⟨w, h1, h2⟩
    exact hs ⟨w, Relation.ReflTransGen.mono (fun _ _ h => ⟨h.1, by simpa using h.2.2⟩) _ _ h1,
      Relation.ReflTransGen.mono (fun _ _ h => ⟨h.1, by simpa using h.2.2⟩) _ _ h2⟩
  rw [dsep_iff_not_connected hac' _ _ _ (by simp) (by simp)] at hs'
  have key := indep_of_disconnected (V := V.erase t) hac' (M.doNet t v).kernels
    (X := {z}) (Y := {y}) (Z := ∅)
    (fun i j hj hij => Finset.mem_erase.2 ⟨hij.2.1, (hV _ _ hij.1).1⟩)
    (by simp [hne, (hV _ _ hzt).1]) (by simp [Ne.symm hty, hyV]) (by simp)
    (by
      intro a ha b hb
      rw [Finset.mem_singleton] at ha hb
      subst ha; subst hb
      have := hs' a rfl b rfl
      have e1 : ({u | u ∈ ({a} : Finset α) ∪ {b} ∪ ∅} : Set α) = {a} ∪ {b} ∪ ∅ := by ext; simp [or_comm]
      have e2 : ({u | u ∈ (∅ : Finset α)} : Set α) = ∅ := by ext; simp
      rw [e1, e2]; exact this) v
  have e0 := BayesNet.P_empty (M := M.doNet t v) hac' v
  have d1 := BayesNet.doNet_P (M := M) (x := t) (u := v) (w := v) rfl {z, y}
  have d2 := BayesNet.doNet_P (M := M) (x := t) (u := v) (w := v) rfl {z}
  have d3 := BayesNet.doNet_P (M := M) (x := t) (u := v) (w := v) rfl {y}
  rw [← d1, ← d2, ← d3]
  unfold BayesNet.P at e0 ⊢
  rw [e0, mul_one, Finset.union_empty, Finset.union_empty, Finset.union_empty] at key
  exact key

/-- C24. `is_valid_iv(t, y, s)`, when it answers, accepts exactly the sets of instruments. -/
theorem C24_is_valid_iv_partial (c : Causation α) (A : List (α × α)) (hD : IsDict c) (h : IsDiagram c A U) :
    ∃ G, IsExplicit c A U G ∧ ∀ t y s b, isValidIV (CG.init c A) t y s = .ok b → t ≠ y → Reach G t y →
      (b = true ↔ ∀ z ∈ s, Parent c z t ∧ DSep (CutIn G {t}) {z} {y} ∅) := by
  obtain ⟨G, hE, hm⟩ := C24_get_iv_partial c A hD h
  refine ⟨G, hE, fun t y s b hok hty hr => ?_⟩
  unfold isValidIV at hok
  cases hg : getIV (CG.init c A) t y with
  | error e => rw [hg] at hok; cases hok
  | ok r =>
    rw [hg] at hok
    cases r with
    | none => cases hok
    | some iv =>
      cases hok
      have := hm t y _ hg hty hr
      simp only [List.all_eq_true, decide_eq_true_eq]
      exact forall₂_congr (fun z _ => this z)

example : isValidIV (CG.init [("z", []), ("w", []), ("x", ["z", "w"]), ("y", ["x", "w"])] [("x", "y")])
      "x" "y" ["z"] = .ok true ∧
    isValidIV (CG.init [("z", []), ("w", []), ("x", ["z", "w"]), ("y", ["x", "w"])] [("x", "y")])
      "x" "y" ["z", "w"] = .ok false := by decide +kernel

/-- C24, violation: if the outcome has no cause but causes the treatment, its effects, and even the outcome
itself, are reported as instruments. -/
theorem C24_reverse_causation :
    getIV (CG.init [("y", []), ("z", ["y"]), ("x", ["z", "y"])] []) "x" "y" = .ok (some ["z", "y"]) := by
  decide +kernel

/-- C24, violation: the test of a candidate raises an Exception, instead of answering False, when the model has no
instrument at all. -/
theorem C24_no_instrument_raises :
    isValidIV (CG.init [("w", []), ("x", ["w"]), ("y", ["x", "w"])] []) "x" "y" ["w"] = .error .exception := by
  decide +kernel

end YL.Props
