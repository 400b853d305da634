import Verif.Props.IdSound

/-!
# C22, C23: what the expressions returned by `id` mean, and when it fails
-/

set_option linter.unusedSectionVars false

namespace YL.Props

open YL Spec LatentNames

variable {α : Type} [DecidableEq α] [LatentNames α]

/-! ### Soundness -/

/-- the statement of `C22_id_sound_partial` for the graph itself -/
theorem id_sound_at (c : Causation α) (A : List (α × α)) (hD : IsDict c) (h : IsDiagram c A U)
    (hp : ∀ u v, Parent c u v → u ∈ c.map (·.1)) (ha : ∀ u v, Paired A u v → u ∈ c.map (·.1)) :
    ∀ (x y : List α) (p : Prob α), (∀ v ∈ x, v ∈ c.map (·.1)) →
      (∀ v ∈ y, v ∉ x ∧ (OnEdge c v ∨ ∃ u, Paired A u v)) →
      idGhost (CG.init c A) y x = .ok (p, false) →
      ∀ (V : Finset α), (∀ a b, (CG.init c A).explicitDag.E a b → a ∈ V ∧ b ∈ V) → (∀ k ∈ c.map (·.1), k ∈ V) →
      ∀ (Ω : α → Type) [∀ i, Fintype (Ω i)] (K : Type) [Field K] [LinearOrder K] [IsStrictOrderedRing K]
        (M : BayesNet (K := K) V (CG.init c A).explicitDag.E Ω), (∀ v, M.P (c.map (·.1)).toFinset v ≠ 0) →
        ∀ v, eval M p v = M.Pdo x.toFinset y.toFinset v := by
  have hE := C08_explicit_faithful_partial c A h
  have hc : Declared c A := ⟨hp, ha⟩
  have hg := ind_init hD hc
  refine fun x y p hx hy hok V hV hkV Ω _ K _ _ _ M hpos v => ?_
  have hkeys : (CG.init c A).causation.keys = c.keys := rfl
  have hyk : ∀ v ∈ y, v ∈ c.keys := by
    intro v hv
    rcases (hy v hv).2 with ⟨u, hu | hu⟩ | ⟨u, hu⟩
    · exact parent_key hu
    · exact hp _ _ hu
    · exact ha _ _ hu.symm
  have hO : c.keys.toFinset ⊆ V := fun k hk' => hkV k (List.mem_toFinset.1 hk')
  have := id_sound_aux (M := M) h hc hE hV hkV hpos _ false y x _ _ p hg
    (fun v hv => (hg.node v).2 ⟨hyk v hv, (hy v hv).2⟩) (fun v hv => (hy v hv).1)
    (by
      unfold ProbInv
      simp only [Bool.false_eq_true, if_false]
      exact ⟨⟨_, rfl, fun v => Iff.rfl⟩, fun i j _ hij => hp i j hij⟩) hok
  rw [this, BayesNet.Pdo_eq_Qf hO (fun i hi => List.mem_toFinset.2 (hx i (List.mem_toFinset.1 hi)))
      (fun i hi => List.mem_toFinset.2 (hyk i (List.mem_toFinset.1 hi)))]
  rfl

/-- C22, with the ghost flag of the model: on every causal diagram with declared names, if `id(y, x)` returns an
expression without having used line 6 or 7 of the algorithm in a call below line 7, then the expression equals
`P(y | do(x))` in every discrete model in which all observations have positive probability. Missing: runs that use
line 6 or 7 below line 7 (`C22_napkin_wrong` shows the claim is then false), and outcomes on no edge
(`C22_isolated_outcome_dropped`). -/
theorem C22_id_sound_partial (c : Causation α) (A : List (α × α)) (hD : IsDict c) (h : IsDiagram c A U)
    (hp : ∀ u v, Parent c u v → u ∈ c.map (·.1)) (ha : ∀ u v, Paired A u v → u ∈ c.map (·.1)) :
    ∃ G, IsExplicit c A U G ∧ ∀ (x y : List α) (p : Prob α), (∀ v ∈ x, v ∈ c.map (·.1)) →
      (∀ v ∈ y, v ∉ x ∧ (OnEdge c v ∨ ∃ u, Paired A u v)) →
      idGhost (CG.init c A) y x = .ok (p, false) →
      ∀ (V : Finset α), (∀ a b, G a b → a ∈ V ∧ b ∈ V) → (∀ k ∈ c.map (·.1), k ∈ V) →
      ∀ (Ω : α → Type) [∀ i, Fintype (Ω i)] (K : Type) [Field K] [LinearOrder K] [IsStrictOrderedRing K]
        (M : BayesNet (K := K) V G Ω), (∀ v, M.P (c.map (·.1)).toFinset v ≠ 0) →
        ∀ v, eval M p v = M.Pdo x.toFinset y.toFinset v :=
  ⟨_, C08_explicit_faithful_partial c A h, id_sound_at c A hD h hp ha⟩

/-! ### Graphs in which no variable is touched by two latent arcs -/

section
variable {c : Causation α} {A : List (α × α)}

theorem forall₂_right {β γ : Type} {P : β → γ → Prop} {l : List β} {r : List γ} (h : List.Forall₂ P l r) {x : γ}
    (hx : x ∈ r) : ∃ b ∈ l, P b x := by
  induction h with
  | nil => cases hx
  | cons hp _ ih =>
    rcases List.mem_cons.1 hx with rfl | hx
    · exact ⟨_, List.mem_cons_self, hp⟩
    · obtain ⟨b, hb, hb'⟩ := ih hx
      exact ⟨b, List.mem_cons_of_mem _ hb, hb'⟩

theorem linked_pair (hone : ∀ a b b', Paired A a b → Paired A a b' → b = b') {S : α → Prop} {a b : α}
    (h : Relation.ReflTransGen (fun a b => Paired A a b ∧ S a ∧ S b) a b) : b = a ∨ Paired A a b := by
  induction h with
  | refl => exact .inl rfl
  | tail _ e ih =>
    rcases ih with rfl | ih
    · exact .inr e.1
    · exact .inl (hone _ _ _ e.1 ih.symm)

/-- A call below line 7, when arcs do not share ends: the graph has two variables joined by an arc. -/
theorem nested_pair (hac : Acyclic (Parent c)) {f : Nat} {g : CG α} (hg : Ind c A g) {y x : List α} {a b : α}
    (hab : a ≠ b) (hp : Paired A a b) (hk : ∀ v, v ∈ g.causation.keys ↔ v = a ∨ v = b) (hy : ∀ v, v ∈ y ↔ v = a)
    (hx : ∀ v, v ∈ x ↔ v = b) {prob : Prob α} {r : Prob α × Bool} (hok : idAux f true y x prob g = .ok r) :
    r.2 = false := by
  cases f with
  | zero => cases hok
  | succ f =>
    obtain ⟨vtopo, ht, -⟩ := (C02_topoOrder g).1 (hg.acyclic hac)
    rw [idAux] at hok
    simp only [ht] at hok
    have hxn : x ≠ [] := fun e => by have := (hx b).2 rfl; rw [e] at this; cases this
    rw [if_neg hxn] at hok
    have hself : a ∈ g.ancestors y := (C01_ancestors_exact g y a).2 ⟨a, (hy a).2 rfl, .refl⟩
    by_cases han : g.causation.keys.any (· ∉ g.ancestors y) = true
    · rw [if_pos han] at hok
      have hb : b ∉ g.ancestors y := by
        simp only [List.any_eq_true, decide_eq_true_eq] at han
        obtain ⟨v, hv, hv'⟩ := han
        rcases (hk v).1 hv with rfl | rfl
        · exact absurd hself hv'
        · exact hv'
      cases hbg : g.buildSubGraph (g.ancestors y) with
      | error e => rw [hbg] at hok; cases hok
      | ok g' =>
        rw [hbg] at hok
        dsimp only at hok
        have hsubk := buildSubGraph_ok hbg
        obtain ⟨g'', e1, e2, -⟩ := hg.build hsubk
        rw [e1] at hbg; cases hbg
        have hx0 : x.filter (· ∈ g.ancestors y) = [] := by
          rw [List.filter_eq_nil_iff]
          intro v hv
          rw [hx] at hv; subst hv
          simpa using hb
        rw [hx0] at hok
        cases f with
        | zero => cases hok
        | succ f =>
          obtain ⟨vtopo', ht', -⟩ := (C02_topoOrder g').1 (e2.acyclic hac)
          rw [idAux] at hok
          simp only [ht', if_true] at hok
          cases hok; rfl
    · rw [if_neg han] at hok
      cases hr : g.removeIncoming x with
      | error e => rw [hr] at hok; cases hok
      | ok gx =>
        rw [hr] at hok
        dsimp only at hok
        have hw : g.causation.keys.filter (fun v => v ∉ x ∧ v ∉ gx.ancestors y) = [] := by
          rw [List.filter_eq_nil_iff]
          intro v hv
          rcases (hk v).1 hv with rfl | rfl
          · have : v ∈ gx.ancestors y := (C01_ancestors_exact gx y v).2 ⟨v, (hy v).2 rfl, .refl⟩
            simp [this]
          · simp [(hx v).2 rfl]
        rw [if_neg (by rw [hw]; simp)] at hok
        have hak := (hk a).2 (.inl rfl)
        have hbk := (hk b).2 (.inr rfl)
        have han' : a ∈ g.dag.nodes := (hg.node a).2 ⟨hak, .inr ⟨b, hp.symm⟩⟩
        have hbn : b ∈ g.dag.nodes := (hg.node b).2 ⟨hbk, .inr ⟨a, hp⟩⟩
        obtain ⟨R, ⟨p1, p2, p3, p4⟩, hR⟩ := hg.comps hac x
        obtain ⟨q1, q2, q3, q4⟩ := hg.comps0 hac
        match hcs : (g.removeNodes x).cComponents with
        | [] => rw [hcs] at hok; cases hok
        | [s] =>
          rw [hcs] at hok
          dsimp only at hok
          have h5 : setEq (g.cComponents.headD []) g.dag.nodes = true := by
            rw [setEq_iff]
            cases hcc : g.cComponents with
            | nil =>
              obtain ⟨d, hd, _⟩ := (q2 a).1 han'
              rw [hcc] at hd; cases hd
            | cons d l =>
              have hd : d ∈ g.cComponents := by rw [hcc]; simp
              have hlink : Relation.ReflTransGen (fun a b => Paired A a b ∧ a ∈ g.causation.keys ∧
                  b ∈ g.causation.keys) a b := .single ⟨hp, hak, hbk⟩
              have hlink' : Relation.ReflTransGen (fun a b => Paired A a b ∧ a ∈ g.causation.keys ∧
                  b ∈ g.causation.keys) b a := .single ⟨hp.symm, hbk, hak⟩
              have had : a ∈ d := by
                obtain ⟨u, hu⟩ := List.exists_mem_of_ne_nil _ (q1 d hd)
                have hun : u ∈ g.dag.nodes := (q2 u).2 ⟨d, hd, hu⟩
                rcases (hk u).1 (hg.nodeKey hun) with rfl | rfl
                · exact hu
                · exact (q4 d hd u hu a han').2 hlink'
              have hbd : b ∈ d := (q4 d hd a had b hbn).2 hlink
              intro v
              rw [List.headD_cons]
              constructor
              · intro hv; exact (q2 v).2 ⟨d, hd, hv⟩
              · intro hv
                rcases (hk v).1 (hg.nodeKey hv) with rfl | rfl
                · exact had
                · exact hbd
          rw [if_pos h5] at hok
          cases hok
        | s :: t :: l =>
          exfalso
          rw [hcs] at p1 p2 p3
          obtain ⟨u, hu⟩ := List.exists_mem_of_ne_nil _ (p1 s (by simp))
          obtain ⟨w, hw'⟩ := List.exists_mem_of_ne_nil _ (p1 t (by simp))
          have h1 := (p2 u).2 ⟨s, by simp, hu⟩
          have h2 := (p2 w).2 ⟨t, by simp, hw'⟩
          have e : ∀ u, u ∈ g.dag.nodes → u ∉ x → u = a := by
            intro u hu hux
            rcases (hk u).1 (hg.nodeKey hu) with rfl | rfl
            · rfl
            · exact absurd ((hx u).2 rfl) hux
          rw [e u h1.1 h1.2] at hu
          rw [e w h2.1 h2.2] at hw'
          exact (List.pairwise_cons.1 p3).1 t (by simp) a hu hw'

/-- If no variable is on two arcs, lines 6 and 7 are never used below line 7. -/
theorem disjoint_flag (hac : Acyclic (Parent c)) (hone : ∀ a b b', Paired A a b → Paired A a b' → b = b') :
    ∀ (f : Nat) (y x : List α) (prob : Prob α) (g : CG α) (r : Prob α × Bool), Ind c A g →
      (∀ v ∈ y, v ∈ g.dag.nodes) → (∀ v ∈ y, v ∉ x) → idAux f false y x prob g = .ok r → r.2 = false := by
  intro f
  induction f with
  | zero => intro _ _ _ _ _ _ _ _ hok; cases hok
  | succ f ih =>
    intro y x prob g r hg hyn hyx hok
    have hyk : ∀ v ∈ y, v ∈ g.causation.keys := fun v hv => hg.nodeKey (hyn v hv)
    obtain ⟨vtopo, ht, -⟩ := (C02_topoOrder g).1 (hg.acyclic hac)
    rw [idAux] at hok
    simp only [ht] at hok
    by_cases hx : x = []
    · rw [if_pos hx] at hok; cases hok; rfl
    rw [if_neg hx] at hok
    by_cases han : g.causation.keys.any (· ∉ g.ancestors y) = true
    · rw [if_pos han] at hok
      cases hbg : g.buildSubGraph (g.ancestors y) with
      | error e => rw [hbg] at hok; cases hok
      | ok g' =>
        rw [hbg] at hok
        dsimp only at hok
        obtain ⟨g'', e1, e2, e3⟩ := hg.build (buildSubGraph_ok hbg)
        rw [e1] at hbg; cases hbg
        exact ih _ _ _ _ _ e2
          (fun v hv => (e2.node v).2 ⟨(e3 v).2 ((C01_ancestors_exact g y v).2 ⟨v, hv, .refl⟩),
            ((hg.node v).1 (hyn v hv)).2⟩)
          (fun v hv hvx => hyx v hv (List.mem_filter.1 hvx).1) hok
    rw [if_neg han] at hok
    have hall : ∀ v ∈ g.causation.keys, v ∈ g.ancestors y := by simpa using han
    have hnode : ∀ v ∈ g.causation.keys, v ∈ g.dag.nodes := by
      intro v hv
      obtain ⟨w, hw, hr⟩ := (C01_ancestors_exact g y v).1 (hall v hv)
      rcases hr.cases_head with rfl | ⟨u, hu, _⟩
      · exact hyn _ hw
      · exact (hg.node v).2 ⟨hv, .inl ⟨u, .inr ((hg.par _ _).1 hu).1⟩⟩
    cases hr : g.removeIncoming x with
    | error e => rw [hr] at hok; cases hok
    | ok gx =>
      rw [hr] at hok
      dsimp only at hok
      by_cases hw : g.causation.keys.filter (fun a => a ∉ x ∧ a ∉ gx.ancestors y) ≠ []
      · rw [if_pos hw] at hok
        refine ih _ _ _ _ _ hg hyn (fun v hv hvx => ?_) hok
        rcases List.mem_append.1 hvx with hvx | hvx
        · exact hyx v hv hvx
        · simp only [List.mem_filter, decide_eq_true_eq] at hvx
          exact hvx.2.2 ((C01_ancestors_exact gx y v).2 ⟨v, hv, .refl⟩)
      · rw [if_neg hw] at hok
        obtain ⟨R, ⟨p1, p2, p3, p4⟩, hR⟩ := hg.comps hac x
        match hcs : (g.removeNodes x).cComponents with
        | [] => rw [hcs] at hok; cases hok
        | [s] =>
          rw [hcs] at hok p1 p2 p3 p4
          dsimp only at hok
          have hs' : ∀ v, v ∈ s ↔ v ∈ g.causation.keys ∧ v ∉ x := by
            intro v
            constructor
            · intro hv
              have := (p2 v).2 ⟨s, by simp, hv⟩
              exact ⟨hg.nodeKey this.1, this.2⟩
            · intro hv
              obtain ⟨d, hd, hvd⟩ := (p2 v).1 ⟨hnode v hv.1, hv.2⟩
              simp at hd; subst hd; exact hvd
          by_cases h5 : setEq (g.cComponents.headD []) g.dag.nodes = true
          · rw [if_pos h5] at hok; cases hok
          rw [if_neg h5] at hok
          obtain ⟨q1, q2, q3, q4⟩ := hg.comps0 hac
          by_cases h6 : g.cComponents.any (setEq s) = true
          · rw [if_pos h6] at hok
            cases hch : chainFactors vtopo s with
            | error e => rw [hch] at hok; cases hok
            | ok ps => rw [hch] at hok; cases hok; rfl
          · rw [if_neg h6] at hok
            cases hfind : g.cComponents.find? (fun sub => s.all (· ∈ sub)) with
            | none => rw [hfind] at hok; cases hok
            | some sub =>
              rw [hfind] at hok
              dsimp only at hok
              cases hch : chainFactors vtopo sub with
              | error e => rw [hch] at hok; cases hok
              | ok ps =>
                rw [hch] at hok
                dsimp only at hok
                have hsub := List.mem_of_find?_eq_some hfind
                have hss : ∀ v ∈ s, v ∈ sub := by simpa using List.find?_some hfind
                have hsubk : ∀ v ∈ sub, v ∈ g.causation.keys := fun v hv => hg.nodeKey ((q2 v).2 ⟨sub, hsub, hv⟩)
                obtain ⟨g', e1, e2, e3⟩ := hg.build hsubk
                rw [e1] at hok
                dsimp only at hok
                -- s = {a}, sub = {a, b}
                obtain ⟨a, has⟩ := List.exists_mem_of_ne_nil _ (p1 s (by simp))
                have hasub := hss a has
                have hne : ∃ b ∈ sub, b ∉ s := by
                  by_contra hcon
                  push Not at hcon
                  refine h6 (List.any_eq_true.2 ⟨sub, hsub, setEq_iff.2 fun v => ⟨hss v, hcon v⟩⟩)
                obtain ⟨b, hbsub, hbs⟩ := hne
                have hab : a ≠ b := fun e => hbs (e ▸ has)
                have hsub2 : ∀ v ∈ sub, v = a ∨ Paired A a v := fun v hv =>
                  linked_pair hone ((q4 sub hsub a hasub v ((q2 v).2 ⟨sub, hsub, hv⟩)).1 hv)
                have hp : Paired A a b := (hsub2 b hbsub).resolve_left (fun e => hab e.symm)
                have hsubeq : ∀ v, v ∈ sub ↔ v = a ∨ v = b := by
                  intro v
                  constructor
                  · intro hv
                    rcases hsub2 v hv with rfl | hv'
                    · exact .inl rfl
                    · exact .inr (hone _ _ _ hv' hp)
                  · rintro (rfl | rfl)
                    · exact hasub
                    · exact hbsub
                have hseq : ∀ v, v ∈ s ↔ v = a := by
                  intro v
                  constructor
                  · intro hv
                    rcases (hsubeq v).1 (hss v hv) with rfl | rfl
                    · rfl
                    · exact absurd hv hbs
                  · rintro rfl; exact has
                have hys : ∀ v ∈ y, v = a := fun v hv => (hseq v).1 ((hs' v).2 ⟨hyk v hv, hyx v hv⟩)
                have hya : ∀ v, v ∈ y ↔ v = a := by
                  intro v
                  refine ⟨hys v, ?_⟩
                  rintro rfl
                  obtain ⟨w, hw', _⟩ := (C01_ancestors_exact g y v).1 (hall v (hsubk v hasub))
                  exact hys w hw' ▸ hw'
                have hxb : ∀ v, v ∈ x.filter (· ∈ sub) ↔ v = b := by
                  intro v
                  simp only [List.mem_filter, decide_eq_true_eq, hsubeq]
                  constructor
                  · rintro ⟨hvx, rfl | rfl⟩
                    · exact absurd hvx ((hs' v).1 has).2
                    · rfl
                  · rintro rfl
                    refine ⟨?_, .inr rfl⟩
                    by_contra hvx
                    exact hbs ((hs' v).2 ⟨hsubk v hbsub, hvx⟩)
                cases hrec : idAux f true y (x.filter (· ∈ sub)) (.mk [] [] [] ps) g' with
                | error e => rw [hrec] at hok; cases hok
                | ok r' =>
                  rw [hrec] at hok
                  have := nested_pair hac e2 hab hp (fun v => by rw [e3, hsubeq]) hya hxb hrec
                  cases hok
                  simp [this]
        | s :: t :: l =>
          rw [hcs] at hok p1 p2 p3 p4
          dsimp only at hok
          cases hmo : mapOk (fun c => idAux f false c (g.causation.keys.filter (· ∉ c)) prob g) (s :: t :: l) with
          | error e => rw [hmo] at hok; cases hok
          | ok rs =>
            rw [hmo] at hok
            cases hok
            dsimp only
            rw [List.any_eq_false]
            intro r hr'
            obtain ⟨d, hd, hdr⟩ := forall₂_right (mapOk_ok hmo) hr'
            have := ih _ _ _ _ _ hg (fun v hv => ((p2 v).2 ⟨d, hd, hv⟩).1)
              (fun v hv => by simp [hv]) hdr
            simpa using this

end

/-- the statement of `C22_disjoint_arcs_sound` for the graph itself -/
theorem disjoint_arcs_at (c : Causation α) (A : List (α × α)) (hD : IsDict c) (h : IsDiagram c A U)
    (hp : ∀ u v, Parent c u v → u ∈ c.map (·.1)) (ha : ∀ u v, Paired A u v → u ∈ c.map (·.1))
    (hone : ∀ a b b', Paired A a b → Paired A a b' → b = b') :
    ∀ (x y : List α) (p : Prob α), (∀ v ∈ x, v ∈ c.map (·.1)) →
      (∀ v ∈ y, v ∉ x ∧ (OnEdge c v ∨ ∃ u, Paired A u v)) →
      (CG.init c A).id y x = .ok p →
      ∀ (V : Finset α), (∀ a b, (CG.init c A).explicitDag.E a b → a ∈ V ∧ b ∈ V) → (∀ k ∈ c.map (·.1), k ∈ V) →
      ∀ (Ω : α → Type) [∀ i, Fintype (Ω i)] (K : Type) [Field K] [LinearOrder K] [IsStrictOrderedRing K]
        (M : BayesNet (K := K) V (CG.init c A).explicitDag.E Ω), (∀ v, M.P (c.map (·.1)).toFinset v ≠ 0) →
        ∀ v, eval M p v = M.Pdo x.toFinset y.toFinset v := by
  have hs := id_sound_at c A hD h hp ha
  have hE := C08_explicit_faithful_partial c A h
  refine fun x y p hx hy hok => hs x y p hx hy ?_
  have hg := ind_init hD ⟨hp, ha⟩
  unfold CG.id at hok
  cases hr : idGhost (CG.init c A) y x with
  | error e => rw [hr] at hok; cases hok
  | ok r =>
    rw [hr] at hok
    have h2 : r.2 = false := disjoint_flag h.acyclic hone _ _ _ _ _ _ hg (fun v hv => CG.mem_nodes_init.2 (hy v hv).2)
      (fun v hv => (hy v hv).1) hr
    have h1 : r.1 = p := by cases hok; rfl
    rw [← h1, ← h2]

/-- C22 without any reference to the run: if no variable is an end of two latent arcs, every expression returned by
`id(y, x)` equals `P(y | do(x))` in every discrete model in which all observations have positive probability. -/
theorem C22_disjoint_arcs_sound (c : Causation α) (A : List (α × α)) (hD : IsDict c) (h : IsDiagram c A U)
    (hp : ∀ u v, Parent c u v → u ∈ c.map (·.1)) (ha : ∀ u v, Paired A u v → u ∈ c.map (·.1))
    (hone : ∀ a b b', Paired A a b → Paired A a b' → b = b') :
    ∃ G, IsExplicit c A U G ∧ ∀ (x y : List α) (p : Prob α), (∀ v ∈ x, v ∈ c.map (·.1)) →
      (∀ v ∈ y, v ∉ x ∧ (OnEdge c v ∨ ∃ u, Paired A u v)) →
      (CG.init c A).id y x = .ok p →
      ∀ (V : Finset α), (∀ a b, G a b → a ∈ V ∧ b ∈ V) → (∀ k ∈ c.map (·.1), k ∈ V) →
      ∀ (Ω : α → Type) [∀ i, Fintype (Ω i)] (K : Type) [Field K] [LinearOrder K] [IsStrictOrderedRing K]
        (M : BayesNet (K := K) V G Ω), (∀ v, M.P (c.map (·.1)).toFinset v ≠ 0) →
        ∀ v, eval M p v = M.Pdo x.toFinset y.toFinset v :=
  ⟨_, C08_explicit_faithful_partial c A h, disjoint_arcs_at c A hD h hp ha hone⟩

/-- non-vacuity: the front-door graph, with the fair-coin model -/
example : ∃ G, IsExplicit [("x", []), ("m", ["x"]), ("y", ["m"])] [("x", "y")] (U (α := String)) G ∧
    ∀ V : Finset String, (∀ a b, G a b → a ∈ V ∧ b ∈ V) → (∀ k ∈ ["x", "m", "y"], k ∈ V) →
    ∀ v, eval (fairCoins V G) (.mk [] [] ["m"] [.mk [] [] [] [.mk ["m"] ["x"] [] []],
      .mk [] [] ["x"] [.mk ["x"] [] [] [], .mk ["y"] ["x", "m"] [] []]]) v = (fairCoins V G).Pdo {"x"} {"y"} v := by
  obtain ⟨G, hE, hm⟩ := C22_disjoint_arcs_sound [("x", []), ("m", ["x"]), ("y", ["m"])] [("x", "y")]
    (by constructor <;> decide) (isDiagram_of_test _ _ (by decide))
    (by rintro u v ⟨ps, h, hu⟩; simp at h; rcases h with ⟨rfl, rfl⟩ | ⟨rfl, rfl⟩ | ⟨rfl, rfl⟩ <;> simp_all)
    (by rintro u v (h | h) <;> simp_all) (by rintro a b b' (h | h) (h' | h') <;> simp_all)
  refine ⟨G, hE, fun V hV hk v => ?_⟩
  have hp : ∀ S w, (fairCoins V G).P S w ≠ 0 := fun S w =>
    ne_of_gt (BayesNet.Positive.P_pos (fun _ _ _ => by norm_num [fairCoins]) _ w)
  have := hm ["x"] ["y"] (.mk [] [] ["m"] [.mk [] [] [] [.mk ["m"] ["x"] [] []],
      .mk [] [] ["x"] [.mk ["x"] [] [] [], .mk ["y"] ["x", "m"] [] []]]) (by simp) (by
    intro v hv
    simp at hv
    subst hv
    exact ⟨by decide, .inl ⟨"m", .inl ⟨["m"], by decide, by decide⟩⟩⟩) rfl V hV hk _ _ (fairCoins V G) (hp _) v
  exact this

/-! ### C23: no latent arcs -/

/-- Without latent arcs no exception is raised. -/
theorem nolatent_ok {c : Causation α} (hac : Acyclic (Parent c)) :
    ∀ (f : Nat) (nested : Bool) (y x : List α) (prob : Prob α) (g : CG α) (e : Err), Ind c [] g →
      (∀ v ∈ y, v ∈ g.causation.keys) → (∀ v ∈ x, v ∈ g.causation.keys) → (∀ v ∈ y, v ∉ x) →
      idAux f nested y x prob g = .error e → e = .recursion := by
  intro f
  induction f with
  | zero => intro _ _ _ _ _ _ _ _ _ _ hok; cases hok; rfl
  | succ f ih =>
    intro nested y x prob g e hg hyk hxk hyx hok
    obtain ⟨vtopo, ht, htopo⟩ := (C02_topoOrder g).1 (hg.acyclic hac)
    rw [idAux] at hok
    simp only [ht] at hok
    by_cases hx : x = []
    · rw [if_pos hx] at hok; cases hok
    rw [if_neg hx] at hok
    have hsubk : ∀ v ∈ g.ancestors y, v ∈ g.causation.keys := by
      intro v hv
      obtain ⟨w, hw, hr⟩ := (C01_ancestors_exact g y v).1 hv
      rcases hr.cases_head with rfl | ⟨u, hu, _⟩
      · exact hyk _ hw
      · exact ((hg.par _ _).1 hu).2.1
    by_cases han : g.causation.keys.any (· ∉ g.ancestors y) = true
    · rw [if_pos han] at hok
      obtain ⟨g', e1, e2, e3⟩ := hg.build hsubk
      rw [e1] at hok
      exact ih _ _ _ _ _ _ e2 (fun v hv => (e3 v).2 ((C01_ancestors_exact g y v).2 ⟨v, hv, .refl⟩))
        (fun v hv => (e3 v).2 (by simpa using (List.mem_filter.1 hv).2))
        (fun v hv hvx => hyx v hv (List.mem_filter.1 hvx).1) hok
    rw [if_neg han] at hok
    have hall : ∀ v ∈ g.causation.keys, v ∈ g.ancestors y := by simpa using han
    obtain ⟨gx, r1, _⟩ := C07_removeIncoming_exact g hg.sync x hxk
    rw [r1] at hok
    dsimp only at hok
    by_cases hw : g.causation.keys.filter (fun a => a ∉ x ∧ a ∉ gx.ancestors y) ≠ []
    · rw [if_pos hw] at hok
      refine ih _ _ _ _ _ _ hg hyk (fun v hv => ?_) (fun v hv hvx => ?_) hok
      · rcases List.mem_append.1 hv with hv | hv
        · exact hxk v hv
        · exact (List.mem_filter.1 hv).1
      · rcases List.mem_append.1 hvx with hvx | hvx
        · exact hyx v hv hvx
        · simp only [List.mem_filter, decide_eq_true_eq] at hvx
          exact hvx.2.2 ((C01_ancestors_exact gx y v).2 ⟨v, hv, .refl⟩)
    rw [if_neg hw] at hok
    -- some outcome has a cause among the treatments
    obtain ⟨x0, hx0⟩ := List.exists_mem_of_ne_nil _ hx
    obtain ⟨y0, hy0, hr⟩ := (C01_ancestors_exact g y x0).1 (hall x0 (hxk x0 hx0))
    have hy0e : OnEdge g.causation y0 ∧ OnEdge g.causation x0 := by
      rcases Relation.reflTransGen_iff_eq_or_transGen.1 hr with rfl | hr
      · exact absurd hx0 (hyx _ hy0)
      · obtain ⟨u, _, hu⟩ := Relation.TransGen.tail'_iff.1 hr
        obtain ⟨w, hw, _⟩ := Relation.TransGen.head'_iff.1 hr
        exact ⟨⟨u, .inl hu⟩, ⟨w, .inr hw⟩⟩
    have hnode : ∀ v, OnEdge g.causation v → v ∈ g.dag.nodes := by
      rintro v ⟨u, hu | hu⟩
      · exact (hg.node v).2 ⟨((hg.par _ _).1 hu).2.2, .inl ⟨u, .inl ((hg.par _ _).1 hu).1⟩⟩
      · exact (hg.node v).2 ⟨((hg.par _ _).1 hu).2.1, .inl ⟨u, .inr ((hg.par _ _).1 hu).1⟩⟩
    have hy0n := hnode _ hy0e.1
    have hx0n := hnode _ hy0e.2
    obtain ⟨R, ⟨p1, p2, p3, p4⟩, hR⟩ := hg.comps hac x
    obtain ⟨q1, q2, q3, q4⟩ := hg.comps0 hac
    have hnone : ∀ {S : α → Prop} {a b : α},
        Relation.ReflTransGen (fun a b => Paired ([] : List (α × α)) a b ∧ S a ∧ S b) a b → b = a := by
      intro S a b hab
      rcases linked_pair (A := []) (by rintro a b b' (h | h) <;> cases h) hab with h | h | h
      · exact h
      · cases h
      · cases h
    match hcs : (g.removeNodes x).cComponents with
    | [] =>
      obtain ⟨d, hd, _⟩ := (p2 y0).1 ⟨hy0n, hyx y0 hy0⟩
      rw [hcs] at hd; cases hd
    | [s] =>
      rw [hcs] at hok p1 p2 p3 p4
      dsimp only at hok
      have hseq : ∀ v, v ∈ s ↔ v = y0 := by
        have hy0s : y0 ∈ s := by
          obtain ⟨d, hd, hyd⟩ := (p2 y0).1 ⟨hy0n, hyx y0 hy0⟩
          simp at hd; subst hd; exact hyd
        intro v
        refine ⟨fun hv => ?_, fun e => e ▸ hy0s⟩
        have := (p4 s (by simp) y0 hy0s v ((p2 v).2 ⟨s, by simp, hv⟩)).1 hv
        rw [hR] at this
        exact hnone this
      have h5 : ¬ setEq (g.cComponents.headD []) g.dag.nodes = true := by
        rw [setEq_iff]
        intro h5
        have hxc := (h5 x0).2 hx0n
        have hyc := (h5 y0).2 hy0n
        cases hcc : g.cComponents with
        | nil => rw [hcc] at hxc; cases hxc
        | cons d l =>
          rw [hcc, List.headD_cons] at hxc hyc
          have := hnone ((q4 d (by rw [hcc]; simp) y0 hyc x0 hx0n).1 hxc)
          exact hyx y0 hy0 (this ▸ hx0)
      rw [if_neg h5] at hok
      have h6 : g.cComponents.any (setEq s) = true := by
        obtain ⟨d, hd, hyd⟩ := (q2 y0).1 hy0n
        refine List.any_eq_true.2 ⟨d, hd, setEq_iff.2 fun v => ?_⟩
        rw [hseq]
        refine ⟨fun e => e ▸ hyd, fun hv => hnone ((q4 d hd y0 hyd v ((q2 v).2 ⟨d, hd, hv⟩)).1 hv)⟩
      rw [if_pos h6] at hok
      unfold chainFactors at hok
      rw [if_pos (by
        simp only [List.all_eq_true, decide_eq_true_eq]
        intro v hv
        rw [hseq] at hv; subst hv
        exact (htopo.2.1 v).2 hy0e.1)] at hok
      cases hok
    | s :: t :: l =>
      rw [hcs] at hok p1 p2 p3 p4
      dsimp only at hok
      cases hmo : mapOk (fun c => idAux f nested c (g.causation.keys.filter (· ∉ c)) prob g) (s :: t :: l) with
      | error e' =>
        rw [hmo] at hok; cases hok
        obtain ⟨d, hd, he⟩ := mapOk_err hmo
        exact ih _ _ _ _ _ _ hg (fun v hv => hg.nodeKey ((p2 v).2 ⟨d, hd, hv⟩).1)
          (fun v hv => (List.mem_filter.1 hv).1) (fun v hv => by simp [hv]) he
      | ok rs => rw [hmo] at hok; cases hok

/-- C23. On every acyclic graph with declared names and no latent arcs, `id(y, x)` returns an expression (no
exception of any kind) for all disjoint sets `x`, `y` of variables, and if the outcomes are on some edge it equals
`P(y | do(x))`. -/
theorem C23_no_latent_identified (c : Causation α) (hD : IsDict c) (h : IsDiagram c [] U)
    (hp : ∀ u v, Parent c u v → u ∈ c.map (·.1)) :
    ∃ G, IsExplicit c [] U G ∧ ∀ (x y : List α), (∀ v ∈ x, v ∈ c.map (·.1)) →
      (∀ v ∈ y, v ∈ c.map (·.1) ∧ v ∉ x) →
      ∃ p, (CG.init c []).id y x = .ok p ∧ ((∀ v ∈ y, OnEdge c v) →
      ∀ (V : Finset α), (∀ a b, G a b → a ∈ V ∧ b ∈ V) → (∀ k ∈ c.map (·.1), k ∈ V) →
      ∀ (Ω : α → Type) [∀ i, Fintype (Ω i)] (K : Type) [Field K] [LinearOrder K] [IsStrictOrderedRing K]
        (M : BayesNet (K := K) V G Ω), (∀ v, M.P (c.map (·.1)).toFinset v ≠ 0) →
        ∀ v, eval M p v = M.Pdo x.toFinset y.toFinset v) := by
  have ha : ∀ u v, Paired ([] : List (α × α)) u v → u ∈ c.map (·.1) := by rintro u v (h | h) <;> cases h
  obtain ⟨G, hE, hs⟩ := C22_disjoint_arcs_sound c [] hD h hp ha (by rintro a b b' (h | h) <;> cases h)
  refine ⟨G, hE, fun x y hx hy => ?_⟩
  have hg := ind_init hD ⟨hp, ha⟩
  obtain ⟨r, hr, hr'⟩ := C21_id_terminates c [] hD h.acyclic hp ha y x
  have hd : (c.length + 1) ^ 2 = idDepth (CG.init c []) := by
    simp [idDepth, CG.init, Causation.keys, sq]
  have hid : (CG.init c []).id y x = r := by
    rw [← hr' _ le_rfl, hd]; rfl
  cases r with
  | ok p => exact ⟨p, hid, fun hye => hs x y p hx (fun v hv => ⟨(hy v hv).2, .inl (hye v hv)⟩) hid⟩
  | error e =>
    exfalso
    apply hr
    unfold CG.id at hid
    cases hgh : idGhost (CG.init c []) y x with
    | ok r => rw [hgh] at hid; cases hid
    | error e' =>
      rw [hgh] at hid
      cases hid
      rw [nolatent_ok h.acyclic _ _ _ _ _ _ _ hg (fun v hv => (hy v hv).1) hx (fun v hv => (hy v hv).2) hgh]

/-- non-vacuity -/
example : (CG.init [("z", []), ("x", ["z"]), ("y", ["x", "z"])]).id ["y"] ["x"] =
    .ok (.mk [] [] ["z"] [.mk ["z"] [] [] [], .mk [] [] [] [.mk ["y"] ["z", "x"] [] []]]) := by rfl

/-! ### Violations -/

/-- C22, violation: an outcome on no edge is silently dropped: on `x → y` with an isolated `z`, `id({y, z}, {x})`
returns `P(y | x)`, an expression in which `z` does not occur. -/
theorem C22_isolated_outcome_dropped :
    (CG.init [("x", []), ("y", ["x"]), ("z", [])]).id ["y", "z"] ["x"] = .ok (.mk [] [] [] [.mk ["y"] ["x"] [] []]) := by
  rfl

/-- C22, violation: an outcome that is on an arc but on no edge makes `id` fail with `ValueError`: `x → y ↔ z`. -/
theorem C22_arc_only_outcome_crashes :
    ((CG.init [("x", []), ("y", ["x"]), ("z", [])] [("y", "z")]).id ["y", "z"] ["x"]).map (fun _ => ()) =
      .error .value := by decide +kernel

/-- The napkin graph `w → z → x → y`, `w ↔ x`, `w ↔ y`. -/
def napkin : Causation String := [("w", []), ("z", ["w"]), ("x", ["z"]), ("y", ["x"])]

/-- its arcs -/
def napkinArcs : List (String × String) := [("w", "x"), ("w", "y")]

/-- agree with probability 3/4 -/
def agree (a b : Bool) : ℚ := if a = b then 3 / 4 else 1 / 4

/-- its variables, latent ones included -/
def napkinV : Finset String := {"w", "z", "x", "y", "U0", "U1"}

/-- A positive model of the napkin graph: `U1 → w → z → x` copy their cause with probability 3/4, and so does
`U1 → y`; `y` does not depend on `x`. -/
def napkinModel : BayesNet (K := ℚ) napkinV (CG.init napkin napkinArcs).explicitDag.E (fun _ => Bool) where
  kernel i v := if i = "w" then agree (v "w") (v "U1") else if i = "z" then agree (v "z") (v "w")
    else if i = "x" then agree (v "x") (v "z") else if i = "y" then agree (v "y") (v "U1") else 1 / 2
  isLocal := by
    intro i hi a b hab
    have key : ∀ j, (CG.init napkin napkinArcs).explicitDag.edges.any (fun e => e.1 = j ∧ e.2.1 = i) = true →
        a j = b j := by
      intro j hj
      refine hab j (Set.mem_insert_iff.2 (.inr ?_))
      simp only [List.any_eq_true, decide_eq_true_eq] at hj
      obtain ⟨⟨e1, e2, k⟩, he, h1, h2⟩ := hj
      cases h1; cases h2
      exact ⟨k, he⟩
    have hs := hab i (Set.mem_insert _ _)
    simp only [napkinV, Finset.mem_insert, Finset.mem_singleton] at hi
    rcases hi with rfl | rfl | rfl | rfl | rfl | rfl
    · have := key "U1" (by decide +kernel); simp [hs, this]
    · have := key "w" (by decide +kernel); simp [hs, this]
    · have := key "z" (by decide +kernel); simp [hs, this]
    · have := key "U1" (by decide +kernel); simp [hs, this]
    · simp
    · simp
  nonneg := by
    intro i _ v
    unfold agree
    split_ifs <;> norm_num
  sum_one := by
    intro i hi v
    simp only [napkinV, Finset.mem_insert, Finset.mem_singleton] at hi
    rcases hi with rfl | rfl | rfl | rfl | rfl | rfl <;> simp [Function.update, agree] <;> split_ifs <;>
      simp_all <;> norm_num

/-- C22, violation: on the napkin graph (all of whose effects `P(y | do(x))` are identifiable) `id({y}, {x})` returns
`P(y | x)`: line 6 below line 7 ignores the distribution built by line 7. There is a strictly positive model of the
diagram in which that is not `P(y | do(x))`. -/
theorem C22_napkin_wrong : ∃ G, IsExplicit napkin napkinArcs U G ∧ ∃ p, (CG.init napkin napkinArcs).id ["y"] ["x"] = .ok p ∧
    ∃ (V : Finset String) (M : BayesNet (K := ℚ) V G (fun _ => Bool)), (∀ a b, G a b → a ∈ V ∧ b ∈ V) ∧
      (∀ k ∈ napkin.map (·.1), k ∈ V) ∧ M.Positive ∧ ∃ v, eval M p v ≠ M.Pdo {"x"} {"y"} v := by
  have h : IsDiagram napkin napkinArcs (U (α := String)) := isDiagram_of_test _ _ (by decide)
  refine ⟨_, C08_explicit_faithful_partial _ _ h, .mk [] [] [] [.mk ["y"] ["x"] [] []], by rfl, napkinV, napkinModel,
    ?_, by decide, ?_, fun _ => true, ?_⟩
  · rintro a b ⟨k, hk⟩
    have : ∀ e ∈ (CG.init napkin napkinArcs).explicitDag.edges, e.1 ∈ napkinV ∧ e.2.1 ∈ napkinV := by decide +kernel
    exact this _ hk
  · intro i _ v
    simp only [napkinModel, agree]
    split_ifs <;> norm_num
  · have e1 : napkinV \ ({"x"} ∪ {"y"}) = {"w"} ∪ ({"z"} ∪ ({"U0"} ∪ {"U1"})) := by decide +kernel
    have e2 : napkinV \ ({"y"} ∪ {"x"}) = {"w"} ∪ ({"z"} ∪ ({"U0"} ∪ {"U1"})) := by decide +kernel
    have e3 : napkinV \ {"x"} = {"w"} ∪ ({"y"} ∪ ({"z"} ∪ ({"U0"} ∪ {"U1"}))) := by decide +kernel
    have e4 : ∀ f : String → ℚ, ∏ i ∈ napkinV, f i = f "w" * (f "z" * (f "x" * (f "y" * (f "U0" * f "U1")))) := by
      intro f; simp [napkinV]
    have e5 : ∀ f : String → ℚ, ∏ i ∈ napkinV \ {"x"}, f i = f "w" * (f "y" * (f "z" * (f "U0" * f "U1"))) := by
      intro f; rw [e3]
      have : ({"w"} ∪ ({"y"} ∪ ({"z"} ∪ ({"U0"} ∪ {"U1"}))) : Finset String) = {"w", "y", "z", "U0", "U1"} := by
        decide +kernel
      rw [this]; simp
    simp only [eval_mk, List.map_cons, List.map_nil, List.prod_cons, List.prod_nil, List.toFinset_nil, sumOut_empty,
      if_true, one_mul, mul_one, BayesNet.cond, BayesNet.P, BayesNet.Pdo, List.toFinset_cons, insert_empty_eq,
      reduceCtorEq, if_false]
    rw [e1, e2, e3]
    simp only [e4, e5]
    have d : ∀ S T : Finset String, Disjoint S T ↔ S ∩ T = ∅ := fun S T => Finset.disjoint_iff_inter_eq_empty
    have f4 : ∀ f : (String → Bool) → ℚ, sumOut (Ω := fun _ => Bool) ({"w"} ∪ ({"z"} ∪ ({"U0"} ∪ {"U1"}))) f =
        sumOut {"w"} (sumOut {"z"} (sumOut {"U0"} (sumOut {"U1"} f))) := by
      intro f
      rw [sumOut_union ((d _ _).2 (by decide +kernel)), sumOut_union ((d _ _).2 (by decide +kernel)),
        sumOut_union ((d _ _).2 (by decide +kernel))]
    have f5 : ∀ f : (String → Bool) → ℚ, sumOut (Ω := fun _ => Bool) ({"w"} ∪ ({"y"} ∪ ({"z"} ∪ ({"U0"} ∪ {"U1"})))) f =
        sumOut {"w"} (sumOut {"y"} (sumOut {"z"} (sumOut {"U0"} (sumOut {"U1"} f)))) := by
      intro f
      rw [sumOut_union ((d _ _).2 (by decide +kernel)), sumOut_union ((d _ _).2 (by decide +kernel)),
        sumOut_union ((d _ _).2 (by decide +kernel)), sumOut_union ((d _ _).2 (by decide +kernel))]
    rw [f4, f4, f5]
    simp only [sumOut_singleton, Fintype.sum_bool, napkinModel, agree, Function.update]
    simp
    norm_num

end YL.Props
