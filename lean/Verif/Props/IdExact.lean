import Verif.Props.IdComplete
import Verif.Props.Frontdoor

/-!
# C140, second part: what `id` answers when the effect is identifiable
-/

set_option linter.unusedSectionVars false

namespace YL.Spec

/-- `P(Y | do(X))` is determined by the distribution of the observed variables `O`: any two discrete models of the
graph `G` with the same, positive, distribution of `O` have the same `P(Y | do(X))`. -/
def Identifiable {α : Type} [DecidableEq α] (V : Finset α) (G : α → α → Prop) (O X Y : Finset α) : Prop :=
  ∀ (Ω : α → Type) [∀ i, Fintype (Ω i)] (K : Type) [Field K] [LinearOrder K] [IsStrictOrderedRing K]
    (M₁ M₂ : BayesNet (K := K) V G Ω), (∀ v, 0 < M₁.P O v) → (∀ v, M₁.P O v = M₂.P O v) →
    ∀ v, M₁.Pdo X Y v = M₂.Pdo X Y v

end YL.Spec

namespace YL.Props

open YL Spec LatentNames

variable {α : Type} [DecidableEq α] [LatentNames α]

/-- the probabilities in an expression are about variables of `W` -/
inductive Names (W : α → Prop) : Prob α → Prop
  | mk (vs cs ms : List α) (ps : List (Prob α)) (hv : ∀ v ∈ vs, W v) (hc : ∀ v ∈ cs, W v)
      (hp : ∀ p ∈ ps, Names W p) : Names W (.mk vs cs ms ps)

section
variable {V : Finset α} {G : α → α → Prop} {Ω : α → Type} [∀ i, Fintype (Ω i)] {K : Type} [Field K] [LinearOrder K]
  [IsStrictOrderedRing K]

theorem marginal (M : BayesNet (K := K) V G Ω) {S W : Finset α} (hS : S ⊆ W) (hW : W ⊆ V) :
    M.P S = sumOut (W \ S) (M.P W) := by
  have h1 : V \ S = (W \ S) ∪ (V \ W) := by ext j; simp; grind
  have hd : Disjoint (W \ S) (V \ W) := by
    rw [Finset.disjoint_left]; intro a h1 h2; simp at h1 h2; exact h2.2 h1.1
  funext v
  unfold BayesNet.P
  rw [h1, sumOut_union hd]

theorem same_marginal {M₁ M₂ : BayesNet (K := K) V G Ω} {W : Finset α} (hW : W ⊆ V) (h : ∀ v, M₁.P W v = M₂.P W v)
    {S : Finset α} (hS : S ⊆ W) : M₁.P S = M₂.P S := by
  rw [marginal M₁ hS hW, marginal M₂ hS hW, funext h]

theorem pos_marginal {M : BayesNet (K := K) V G Ω} {W : Finset α} (hW : W ⊆ V) (h : ∀ v, 0 < M.P W v)
    {S : Finset α} (hS : S ⊆ W) (v : ∀ i, Ω i) : 0 < M.P S v := by
  rw [marginal M hS hW]
  unfold sumOut
  exact Finset.sum_pos (fun w _ => h _) ⟨fun i => v i, Finset.mem_univ _⟩

/-- the value of an expression in observed variables is determined by their distribution -/
theorem eval_determined {M₁ M₂ : BayesNet (K := K) V G Ω} {W : Finset α} (hW : W ⊆ V) (h : ∀ v, M₁.P W v = M₂.P W v)
    {p : Prob α} (hp : Names (· ∈ W) p) : eval M₁ p = eval M₂ p := by
  induction hp with
  | mk vs cs ms ps hv hc hp ih =>
    funext v
    rw [eval_mk, eval_mk]
    congr 1
    funext u
    have e1 : ps.map (fun p => eval M₁ p u) = ps.map (fun p => eval M₂ p u) :=
      List.map_congr_left (fun p hp => by rw [ih p hp])
    have e2 : M₁.cond vs.toFinset cs.toFinset u = M₂.cond vs.toFinset cs.toFinset u := by
      unfold BayesNet.cond
      rw [same_marginal hW h (S := vs.toFinset ∪ cs.toFinset), same_marginal hW h (S := cs.toFinset)]
      · exact fun a ha => hc a (List.mem_toFinset.1 ha)
      · intro a ha
        rcases Finset.mem_union.1 ha with ha | ha
        · exact hv a (List.mem_toFinset.1 ha)
        · exact hc a (List.mem_toFinset.1 ha)
    rw [e1, e2]

end

section
variable {c : Causation α} {A : List (α × α)}

theorem names_restrict {W : α → Prop} {p : Prob α} (hp : Names W p) {v keep : List α} (hk : ∀ a ∈ keep, W a) :
    Names W (restrictProb v keep p) := by
  cases hp with
  | mk vs cs ms ps hv hc hp =>
    rw [restrictProb]
    split
    · exact .mk _ _ _ _ hk hc hp
    · exact .mk _ _ _ _ hv hc hp

theorem names_chain {W : α → Prop} {l s : List α} {ps : List (Prob α)} (h : chainFactors l s = .ok ps)
    (hl : ∀ a ∈ l, W a) : ∀ p ∈ ps, Names W p := by
  unfold chainFactors at h
  split at h
  · cases h
    intro p hp
    obtain ⟨e, he, rfl⟩ := List.mem_map.1 hp
    refine .mk _ _ _ _ (fun v hv => ?_) (fun v hv => hl v (List.mem_of_mem_take hv)) (by simp)
    simp at hv; subst hv
    exact hl _ (List.mem_filter.1 he).1
  · cases h

/-- the expressions computed by `id` only use variables of the graph -/
theorem id_names (hac : Acyclic (Parent c)) :
    ∀ (f : Nat) (nested : Bool) (y x : List α) (prob : Prob α) (g : CG α) (r : Prob α × Bool), Ind c A g →
      (∀ v ∈ y, v ∈ c.keys) → Names (· ∈ c.keys) prob → idAux f nested y x prob g = .ok r →
      Names (· ∈ c.keys) r.1 := by
  intro f
  induction f with
  | zero => intro _ _ _ _ _ _ _ _ _ h; cases h
  | succ f ih =>
    intro nested y x prob g r hg hy hprob hok
    obtain ⟨vtopo, ht, htopo⟩ := (C02_topoOrder g).1 (hg.acyclic hac)
    have hvt : ∀ v ∈ vtopo, v ∈ c.keys := by
      intro v hv
      rcases (htopo.2.1 v).1 hv with ⟨u, hu | hu⟩
      · exact hg.sub _ ((hg.par _ _).1 hu).2.2
      · exact hg.sub _ ((hg.par _ _).1 hu).2.1
    rw [idAux] at hok
    simp only [ht] at hok
    by_cases hx : x = []
    · rw [if_pos hx] at hok; cases hok
      exact names_restrict hprob hy
    rw [if_neg hx] at hok
    by_cases han : g.causation.keys.any (· ∉ g.ancestors y) = true
    · rw [if_pos han] at hok
      cases hbg : g.buildSubGraph (g.ancestors y) with
      | error e => rw [hbg] at hok; cases hok
      | ok g' =>
        rw [hbg] at hok
        dsimp only at hok
        have hsubk := buildSubGraph_ok hbg
        obtain ⟨g'', e1, e2, e3⟩ := hg.build hsubk
        rw [e1] at hbg; cases hbg
        exact ih _ _ _ _ _ _ e2 hy (names_restrict hprob (fun a ha => hg.sub a (hsubk a ha))) hok
    rw [if_neg han] at hok
    cases hr : g.removeIncoming x with
    | error e => rw [hr] at hok; cases hok
    | ok gx =>
      rw [hr] at hok
      dsimp only at hok
      by_cases hw : g.causation.keys.filter (fun a => a ∉ x ∧ a ∉ gx.ancestors y) ≠ []
      · rw [if_pos hw] at hok
        exact ih _ _ _ _ _ _ hg hy hprob hok
      rw [if_neg hw] at hok
      obtain ⟨R, ⟨p1, p2, p3, p4⟩, hR⟩ := hg.comps hac x
      obtain ⟨q1, q2, q3, q4⟩ := hg.comps0 hac
      match hcs : (g.removeNodes x).cComponents with
      | [] => rw [hcs] at hok; cases hok
      | [s] =>
        rw [hcs] at hok
        dsimp only at hok
        by_cases h5 : setEq (g.cComponents.headD []) g.dag.nodes = true
        · rw [if_pos h5] at hok; cases hok
        rw [if_neg h5] at hok
        by_cases h6 : g.cComponents.any (setEq s) = true
        · rw [if_pos h6] at hok
          cases hch : chainFactors vtopo s with
          | error e => rw [hch] at hok; cases hok
          | ok ps =>
            rw [hch] at hok; cases hok
            exact .mk _ _ _ _ (by simp) (by simp) (names_chain hch hvt)
        · rw [if_neg h6] at hok
          cases hfind : g.cComponents.find? (fun sub => s.all (· ∈ sub)) with
          | none => rw [hfind] at hok; cases hok
          | some sub =>
            rw [hfind] at hok
            dsimp only at hok
            cases hch : chainFactors vtopo sub with
            | error e => rw [hch] at hok; cases hok
            | ok ps =>
              rw [hch] at hok
              dsimp only at hok
              have hsub := List.mem_of_find?_eq_some hfind
              have hsubk : ∀ v ∈ sub, v ∈ g.causation.keys := fun v hv => hg.nodeKey ((q2 v).2 ⟨sub, hsub, hv⟩)
              obtain ⟨g', e1, e2, e3⟩ := hg.build hsubk
              rw [e1] at hok
              dsimp only at hok
              cases hrec : idAux f true y (x.filter (· ∈ sub)) (.mk [] [] [] ps) g' with
              | error e => rw [hrec] at hok; cases hok
              | ok r' =>
                rw [hrec] at hok
                cases hok
                exact ih _ _ _ _ _ r' e2 hy (.mk [] [] [] ps (by simp) (by simp) (names_chain hch hvt)) hrec
      | s :: t :: l =>
        rw [hcs] at hok p1 p2 p3 p4
        dsimp only at hok
        cases hmo : mapOk (fun c => idAux f nested c (g.causation.keys.filter (· ∉ c)) prob g) (s :: t :: l) with
        | error e => rw [hmo] at hok; cases hok
        | ok rs =>
          rw [hmo] at hok
          cases hok
          refine .mk _ _ _ _ (by simp) (by simp) (fun p hp => ?_)
          obtain ⟨r', hr', rfl⟩ := List.mem_map.1 hp
          obtain ⟨d, hd, hdr⟩ := forall₂_right (mapOk_ok hmo) hr'
          exact ih _ _ _ _ _ _ hg (fun v hv => hg.sub v (hg.nodeKey ((p2 v).2 ⟨d, hd, hv⟩).1)) hprob hdr

/-- `id` fails only with `IdentificationError` or `ValueError` -/
theorem id_errors (hac : Acyclic (Parent c)) :
    ∀ (f : Nat) (nested : Bool) (y x : List α) (prob : Prob α) (g : CG α) (e : Err), Ind c A g →
      (∀ v ∈ y, v ∈ g.dag.nodes) → (∀ v ∈ x, v ∈ g.causation.keys) → (∀ v ∈ y, v ∉ x) →
      idAux f nested y x prob g = .error e → e = .recursion ∨ e = .identification ∨ e = .value := by
  intro f
  induction f with
  | zero => intro _ _ _ _ _ _ _ _ _ _ hok; cases hok; exact .inl rfl
  | succ f ih =>
    intro nested y x prob g e hg hyn hxk hyx hok
    have hyk : ∀ v ∈ y, v ∈ g.causation.keys := fun v hv => hg.nodeKey (hyn v hv)
    obtain ⟨vtopo, ht, htopo⟩ := (C02_topoOrder g).1 (hg.acyclic hac)
    rw [idAux] at hok
    simp only [ht] at hok
    by_cases hx : x = []
    · rw [if_pos hx] at hok; cases hok
    rw [if_neg hx] at hok
    have hsubk : ∀ v ∈ g.ancestors y, v ∈ g.causation.keys := by
      intro v hv
      obtain ⟨w, hw, hr⟩ := (C01_ancestors_exact g y v).1 hv
      rcases hr.cases_head with rfl | ⟨u, hu, _⟩
      · exact hyk _ hw
      · exact ((hg.par _ _).1 hu).2.1
    by_cases han : g.causation.keys.any (· ∉ g.ancestors y) = true
    · rw [if_pos han] at hok
      obtain ⟨g', e1, e2, e3⟩ := hg.build hsubk
      rw [e1] at hok
      exact ih _ _ _ _ _ _ e2 (fun v hv => (e2.node v).2 ⟨(e3 v).2 ((C01_ancestors_exact g y v).2 ⟨v, hv, .refl⟩), ((hg.node v).1 (hyn v hv)).2⟩)
        (fun v hv => (e3 v).2 (by simpa using (List.mem_filter.1 hv).2))
        (fun v hv hvx => hyx v hv (List.mem_filter.1 hvx).1) hok
    rw [if_neg han] at hok
    have hall : ∀ v ∈ g.causation.keys, v ∈ g.ancestors y := by simpa using han
    obtain ⟨gx, r1, _, _, _, r5, _⟩ := C07_removeIncoming_exact g hg.sync x hxk
    rw [r1] at hok
    dsimp only at hok
    by_cases hw : g.causation.keys.filter (fun a => a ∉ x ∧ a ∉ gx.ancestors y) ≠ []
    · rw [if_pos hw] at hok
      refine ih _ _ _ _ _ _ hg hyn (fun v hv => ?_) (fun v hv hvx => ?_) hok
      · rcases List.mem_append.1 hv with hv | hv
        · exact hxk v hv
        · exact (List.mem_filter.1 hv).1
      · rcases List.mem_append.1 hvx with hvx | hvx
        · exact hyx v hv hvx
        · simp only [List.mem_filter, decide_eq_true_eq] at hvx
          exact hvx.2.2 ((C01_ancestors_exact gx y v).2 ⟨v, hv, .refl⟩)
    rw [if_neg hw] at hok
    -- some outcome has a cause among the treatments
    obtain ⟨x0, hx0⟩ := List.exists_mem_of_ne_nil _ hx
    obtain ⟨y0, hy0, hr⟩ := (C01_ancestors_exact g y x0).1 (hall x0 (hxk x0 hx0))
    have hy0e : OnEdge c y0 := by
      rcases Relation.reflTransGen_iff_eq_or_transGen.1 hr with rfl | hr
      · exact absurd hx0 (hyx _ hy0)
      · obtain ⟨u, _, hu⟩ := Relation.TransGen.tail'_iff.1 hr
        exact ⟨u, .inl ((hg.par _ _).1 hu).1⟩
    have hy0n : y0 ∈ g.dag.nodes := (hg.node y0).2 ⟨hyk y0 hy0, .inl hy0e⟩
    obtain ⟨R, ⟨p1, p2, p3, p4⟩, hR⟩ := hg.comps hac x
    obtain ⟨q1, q2, q3, q4⟩ := hg.comps0 hac
    match hcs : (g.removeNodes x).cComponents with
    | [] =>
      obtain ⟨d, hd, _⟩ := (p2 y0).1 ⟨hy0n, hyx y0 hy0⟩
      rw [hcs] at hd; cases hd
    | [s] =>
      rw [hcs] at hok p1 p2 p3 p4
      dsimp only at hok
      by_cases h5 : setEq (g.cComponents.headD []) g.dag.nodes = true
      · rw [if_pos h5] at hok; cases hok; exact .inr (.inl rfl)
      rw [if_neg h5] at hok
      have hval : ∀ {s : List α} {e : Err}, chainFactors vtopo s = .error e → e = .value := by
        intro s e he
        unfold chainFactors at he
        split at he
        · cases he
        · cases he; rfl
      by_cases h6 : g.cComponents.any (setEq s) = true
      · rw [if_pos h6] at hok
        cases hch : chainFactors vtopo s with
        | error e' =>
          rw [hch] at hok; cases hok
          exact .inr (.inr (hval hch))
        | ok ps => rw [hch] at hok; cases hok
      · rw [if_neg h6] at hok
        cases hfind : g.cComponents.find? (fun sub => s.all (· ∈ sub)) with
        | none =>
          exfalso
          have hy0s : y0 ∈ s := by
            obtain ⟨d, hd, hyd⟩ := (p2 y0).1 ⟨hy0n, hyx y0 hy0⟩
            simp at hd; subst hd; exact hyd
          obtain ⟨d, hd, hyd⟩ := (q2 y0).1 hy0n
          have := List.find?_eq_none.1 hfind d hd
          apply this
          simp only [List.all_eq_true, decide_eq_true_eq]
          intro v hv
          have hvn : v ∈ g.dag.nodes := ((p2 v).2 ⟨s, by simp, hv⟩).1
          refine (q4 d hd y0 hyd v hvn).2 ?_
          have hl := (p4 s (by simp) y0 hy0s v ((p2 v).2 ⟨s, by simp, hv⟩)).1 hv
          rw [hR] at hl
          exact rtg_mono hl (fun a b e => ⟨e.1, e.2.1.1, e.2.2.1⟩)
        | some sub =>
          rw [hfind] at hok
          dsimp only at hok
          cases hch : chainFactors vtopo sub with
          | error e' =>
            rw [hch] at hok; cases hok
            exact .inr (.inr (hval hch))
          | ok ps =>
            rw [hch] at hok
            dsimp only at hok
            have hsub := List.mem_of_find?_eq_some hfind
            have hsub' : ∀ v ∈ s, v ∈ sub := by
              simpa using List.find?_some hfind
            have hsubk : ∀ v ∈ sub, v ∈ g.causation.keys := fun v hv => hg.nodeKey ((q2 v).2 ⟨sub, hsub, hv⟩)
            obtain ⟨g', e1, e2, e3⟩ := hg.build hsubk
            rw [e1] at hok
            dsimp only at hok
            cases hrec : idAux f true y (x.filter (· ∈ sub)) (.mk [] [] [] ps) g' with
            | ok r' => rw [hrec] at hok; cases hok
            | error e' =>
              rw [hrec] at hok
              cases hok
              refine ih _ _ _ _ _ _ e2 (fun v hv => (e2.node v).2 ⟨(e3 v).2 (hsub' v ?_), ((hg.node v).1 (hyn v hv)).2⟩)
                (fun v hv => (e3 v).2 (by simpa using (List.mem_filter.1 hv).2))
                (fun v hv hvx => hyx v hv (List.mem_filter.1 hvx).1) hrec
              obtain ⟨d, hd, hvd⟩ := (p2 v).1 ⟨hyn v hv, hyx v hv⟩
              simp at hd; subst hd; exact hvd
    | s :: t :: l =>
      rw [hcs] at hok p1 p2 p3 p4
      dsimp only at hok
      cases hmo : mapOk (fun c => idAux f nested c (g.causation.keys.filter (· ∉ c)) prob g) (s :: t :: l) with
      | error e' =>
        rw [hmo] at hok; cases hok
        obtain ⟨d, hd, he⟩ := mapOk_err hmo
        exact ih _ _ _ _ _ _ hg (fun v hv => ((p2 v).2 ⟨d, hd, hv⟩).1)
          (fun v hv => (List.mem_filter.1 hv).1) (fun v hv => by simp [hv]) he
      | ok rs => rw [hmo] at hok; cases hok

end

/-- what a call of `id` on a declared diagram can end with -/
theorem id_outcome {c : Causation α} {A : List (α × α)} (hD : IsDict c) (hac : Acyclic (Parent c)) (hc : Declared c A)
    {x y : List α} (hx : ∀ v ∈ x, v ∈ c.keys) (hy : ∀ v ∈ y, v ∉ x ∧ (OnEdge c v ∨ ∃ u, Paired A u v)) :
    (∃ p, (CG.init c A).id y x = .ok p ∧ Names (· ∈ c.keys) p) ∨ (CG.init c A).id y x = .error .identification ∨
      (CG.init c A).id y x = .error .value := by
  have hg := ind_init hD hc
  have hyn : ∀ v ∈ y, v ∈ (CG.init c A).dag.nodes := fun v hv => CG.mem_nodes_init.2 (hy v hv).2
  obtain ⟨r, hr, hr'⟩ := C21_id_terminates c A hD hac hc.parents hc.arcs y x
  have hd : (c.length + 1) ^ 2 = idDepth (CG.init c A) := by
    simp [idDepth, CG.init, Causation.keys, sq]
  have hid : (CG.init c A).id y x = r := by
    rw [← hr' _ le_rfl, hd]; rfl
  rw [hid]
  unfold CG.id at hid
  cases hgh : idGhost (CG.init c A) y x with
  | ok r' =>
    rw [hgh] at hid
    subst hid
    exact .inl ⟨r'.1, rfl, id_names hac _ _ _ _ _ _ _ hg (fun v hv => hg.sub v (hg.nodeKey (hyn v hv)))
      (.mk _ _ _ _ (fun v hv => hg.sub v hv) (by simp) (by simp)) hgh⟩
  | error e =>
    rw [hgh] at hid
    subst hid
    rcases id_errors hac _ _ _ _ _ _ _ hg hyn (fun v hv => hx v hv) (fun v hv => (hy v hv).1) hgh with rfl | rfl | rfl
    · exact absurd rfl hr
    · exact .inr (.inl rfl)
    · exact .inr (.inr rfl)

/-- an outcome on an edge or an arc is declared -/
theorem used_key {c : Causation α} {A : List (α × α)} (hc : Declared c A) {v : α} (h : OnEdge c v ∨ ∃ u, Paired A u v) :
    v ∈ c.keys := by
  rcases h with ⟨u, h | h⟩ | ⟨u, h⟩
  · exact parent_key h
  · exact hc.parents _ _ h
  · exact hc.arcs _ _ h.symm

/-- the two models exist for the graph itself -/
theorem id_complete_at {c : Causation α} {A : List (α × α)} (hD : IsDict c) (h : IsDiagram c A U) (hc : Declared c A)
    {x y : List α} (hx : ∀ v ∈ x, v ∈ c.keys) (hy : ∀ v ∈ y, v ∈ c.keys ∧ v ∉ x)
    {V : Finset α} (hV : ∀ a b, (CG.init c A).explicitDag.E a b → a ∈ V ∧ b ∈ V) (hkV : ∀ k ∈ c.keys, k ∈ V)
    (hI : Identifiable V (CG.init c A).explicitDag.E c.keys.toFinset x.toFinset y.toFinset) :
    (CG.init c A).id y x ≠ .error .identification := by
  intro hid
  have hg := ind_init hD hc
  have hfail : idGhost (CG.init c A) y x = .error .identification := by
    unfold CG.id at hid
    cases hgh : idGhost (CG.init c A) y x with
    | ok r => rw [hgh] at hid; cases hid
    | error e => rw [hgh] at hid; cases hid; rfl
  have hJ : CallInv c A x y (CG.init c A) y x :=
    ⟨hg, fun v hv => (hy v hv).2, fun v hv _ => hv, fun v hv => hv.mono (fun a ha => ha.2),
      fun S F _ _ _ _ _ _ _ hh => hh⟩
  obtain ⟨S, F, H⟩ := fail_hedge h.acyclic _ _ _ _ _ _ hJ hfail
  obtain ⟨M₁, M₂, h2, h3, v, h4⟩ := hedge_models hc h (C08_explicit_faithful_partial c A h) hV hkV hx hy H
  exact h4 (hI _ _ M₁ M₂ h2 h3 v)

/-- the variables of the graph and the latent variables on its edges -/
def allVars (c : Causation α) (A : List (α × α)) : Finset α :=
  (c.keys ++ (CG.init c A).explicitDag.edges.map (fun e => e.1) ++ (CG.init c A).explicitDag.edges.map (fun e => e.2.1)).toFinset

theorem allVars_edge {c : Causation α} {A : List (α × α)} {a b : α} (h : (CG.init c A).explicitDag.E a b) :
    a ∈ allVars c A ∧ b ∈ allVars c A := by
  obtain ⟨k, hk⟩ := h
  unfold allVars
  simp only [List.mem_toFinset, List.mem_append, List.mem_map]
  exact ⟨.inl (.inr ⟨_, hk, rfl⟩), .inr ⟨_, hk, rfl⟩⟩

theorem allVars_key {c : Causation α} {A : List (α × α)} {k : α} (h : k ∈ c.keys) : k ∈ allVars c A := by
  unfold allVars
  simp only [List.mem_toFinset, List.mem_append]
  exact .inl (.inl h)

/-- C140. If `P(y | do(x))` is identifiable in the diagram, `id(y, x)` does not raise `IdentificationError`: it returns
an expression in observed variables, or raises `ValueError`. -/
theorem C140_identifiable_answered (c : Causation α) (A : List (α × α)) (hD : IsDict c) (h : IsDiagram c A U)
    (hp : ∀ u v, Parent c u v → u ∈ c.map (·.1)) (ha : ∀ u v, Paired A u v → u ∈ c.map (·.1)) :
    ∃ G, IsExplicit c A U G ∧ ∀ (x y : List α), (∀ v ∈ x, v ∈ c.map (·.1)) →
      (∀ v ∈ y, v ∉ x ∧ (OnEdge c v ∨ ∃ u, Paired A u v)) →
      ∀ (V : Finset α), (∀ a b, G a b → a ∈ V ∧ b ∈ V) → (∀ k ∈ c.map (·.1), k ∈ V) →
        Identifiable V G (c.map (·.1)).toFinset x.toFinset y.toFinset →
        (∃ p, (CG.init c A).id y x = .ok p ∧ Names (· ∈ c.map (·.1)) p) ∨ (CG.init c A).id y x = .error .value := by
  have hc : Declared c A := ⟨hp, ha⟩
  refine ⟨_, C08_explicit_faithful_partial c A h, fun x y hx hy V hV hkV hid => ?_⟩
  rcases id_outcome hD h.acyclic hc hx hy with h1 | h1 | h1
  · exact .inl h1
  · exact absurd h1 (id_complete_at hD h hc hx (fun v hv => ⟨used_key hc (hy v hv).2, (hy v hv).1⟩) hV hkV hid)
  · exact .inr h1

/-- C140. If no variable is an end of two latent arcs and `id(y, x)` does not raise `ValueError`, it raises
`IdentificationError` exactly when `P(y | do(x))` is not identifiable. -/
theorem C140_disjoint_arcs_exact (c : Causation α) (A : List (α × α)) (hD : IsDict c) (h : IsDiagram c A U)
    (hp : ∀ u v, Parent c u v → u ∈ c.map (·.1)) (ha : ∀ u v, Paired A u v → u ∈ c.map (·.1))
    (hone : ∀ a b b', Paired A a b → Paired A a b' → b = b') :
    ∃ G, IsExplicit c A U G ∧ ∀ (x y : List α), (∀ v ∈ x, v ∈ c.map (·.1)) →
      (∀ v ∈ y, v ∉ x ∧ (OnEdge c v ∨ ∃ u, Paired A u v)) → (CG.init c A).id y x ≠ .error .value →
      ∀ (V : Finset α), (∀ a b, G a b → a ∈ V ∧ b ∈ V) → (∀ k ∈ c.map (·.1), k ∈ V) →
        ((CG.init c A).id y x = .error .identification ↔
          ¬ Identifiable V G (c.map (·.1)).toFinset x.toFinset y.toFinset) := by
  have hc : Declared c A := ⟨hp, ha⟩
  refine ⟨_, C08_explicit_faithful_partial c A h, fun x y hx hy hval V hV hkV => ⟨fun hid hI => ?_, fun hI => ?_⟩⟩
  · exact id_complete_at hD h hc hx (fun v hv => ⟨used_key hc (hy v hv).2, (hy v hv).1⟩) hV hkV hI hid
  · rcases id_outcome hD h.acyclic hc hx hy with ⟨p, h1, h2⟩ | h1 | h1
    · exfalso
      refine hI (fun Ω _ K _ _ _ M₁ M₂ hpos heq v => ?_)
      have hW : (c.map (·.1)).toFinset ⊆ V := fun a ha => hkV a (List.mem_toFinset.1 ha)
      have s1 := disjoint_arcs_at c A hD h hp ha hone x y p hx hy h1 V hV hkV Ω K M₁ (fun v => (hpos v).ne') v
      have s2 := disjoint_arcs_at c A hD h hp ha hone x y p hx hy h1 V hV hkV Ω K M₂
        (fun v => by rw [← heq]; exact (hpos v).ne') v
      rw [← s1, ← s2, eval_determined hW heq (p := p)]
      have hk : (fun v => v ∈ (c.map (·.1)).toFinset) = (fun v => v ∈ c.keys) := by
        funext v; simp [Causation.keys]
      rw [hk]
      exact h2
    · exact h1
    · exact absurd h1 hval

/-- an effect with a back-door set of observed variables is identifiable -/
theorem backdoor_identifiable {c : Causation α} {A : List (α × α)} {G : α → α → Prop} (hE : IsExplicit c A U G)
    {V : Finset α} (hV : ∀ a b, G a b → a ∈ V ∧ b ∈ V) (hkV : ∀ k ∈ c.keys, k ∈ V) {X Y S : List α}
    (hX : ∀ x ∈ X, x ∈ c.keys) (hYn : Y ≠ []) (hY : ∀ x ∈ Y, x ∈ c.keys) (hS : ∀ x ∈ S, x ∈ c.keys)
    (hb : BackDoor G {a | a ∈ X} {a | a ∈ Y} {a | a ∈ S}) :
    Identifiable V G c.keys.toFinset X.toFinset Y.toFinset := by
  intro Ω _ K _ _ _ M₁ M₂ hpos heq v
  have hW : c.keys.toFinset ⊆ V := fun a ha => hkV a (List.mem_toFinset.1 ha)
  have hsub : X.toFinset ∪ S.toFinset ⊆ c.keys.toFinset := by
    intro a ha
    rw [List.mem_toFinset]
    rcases Finset.mem_union.1 ha with ha | ha
    · exact hX a (List.mem_toFinset.1 ha)
    · exact hS a (List.mem_toFinset.1 ha)
  have s1 := backdoor_value hE hV M₁ (fun x hx => hkV x (hX x hx)) hYn (fun y hy => hkV y (hY y hy))
    (fun s hs => hkV s (hS s hs)) hb (fun v _ => (pos_marginal hW hpos hsub v).ne') v
  have s2 := backdoor_value hE hV M₂ (fun x hx => hkV x (hX x hx)) hYn (fun y hy => hkV y (hY y hy))
    (fun s hs => hkV s (hS s hs)) hb (fun v _ => (pos_marginal hW (fun v => heq v ▸ hpos v) hsub v).ne') v
  rw [← s1, ← s2, eval_determined hW heq (p := backdoorProb X Y S)]
  refine .mk _ _ _ _ (by simp) (by simp) (fun p hp => ?_)
  simp at hp
  rcases hp with rfl | rfl
  · refine .mk _ _ _ _ (fun v hv => by simpa using hY v hv) (fun v hv => ?_) (by simp)
    rcases List.mem_append.1 hv with hv | hv
    · simpa using hX v hv
    · simpa using hS v hv
  · exact .mk _ _ _ _ (fun v hv => by simpa using hS v hv) (by simp) (by simp)

/-- C140. `id(y, x)` never raises `IdentificationError` for an effect for which some set of observed variables satisfies
the back-door criterion: it returns, or raises `ValueError`. -/
theorem C140_backdoor_answered (c : Causation α) (A : List (α × α)) (hD : IsDict c) (h : IsDiagram c A U)
    (hp : ∀ u v, Parent c u v → u ∈ c.map (·.1)) (ha : ∀ u v, Paired A u v → u ∈ c.map (·.1)) :
    ∃ G, IsExplicit c A U G ∧ ∀ (x y z : List α), y ≠ [] → (∀ v ∈ x, v ∈ c.map (·.1)) →
      (∀ v ∈ y, OnEdge c v ∨ ∃ u, Paired A u v) → (∀ v ∈ z, v ∈ c.map (·.1)) →
      BackDoor G {a | a ∈ x} {a | a ∈ y} {a | a ∈ z} →
        (∃ p, (CG.init c A).id y x = .ok p ∧ Names (· ∈ c.map (·.1)) p) ∨ (CG.init c A).id y x = .error .value := by
  have hc : Declared c A := ⟨hp, ha⟩
  have hE := C08_explicit_faithful_partial c A h
  refine ⟨_, hE, fun x y z hyn hx hy hz hb => ?_⟩
  have hyx : ∀ v ∈ y, v ∉ x := fun v hv hvx => hb.2 [v] (by simp) trivial v rfl v rfl hvx hv
  rcases id_outcome hD h.acyclic hc hx (fun v hv => ⟨hyx v hv, hy v hv⟩) with h1 | h1 | h1
  · exact .inl h1
  · exact absurd h1 (id_complete_at hD h hc hx (fun v hv => ⟨used_key hc (hy v hv), hyx v hv⟩)
      (fun a b => allVars_edge) (fun k => allVars_key)
      (backdoor_identifiable hE (fun a b => allVars_edge) (fun k => allVars_key) hx hyn
        (fun v hv => used_key hc (hy v hv)) hz hb))
  · exact .inr h1

/-- C140. `id({y}, {t})` never raises `IdentificationError` when `get_frontdoor_set(t, y)` returns: it returns, or raises
`ValueError`. -/
theorem C140_frontdoor_answered [CharNames α] (c : Causation α) (A : List (α × α)) (hD : IsDict c) (h : IsDiagram c A U)
    (hp : ∀ u v, Parent c u v → u ∈ c.map (·.1)) (ha : ∀ u v, Paired A u v → u ∈ c.map (·.1))
    (ord : List α → List α) (hord : ∀ l, (ord l).Perm l) (t y : α) (adj : Adjust) (r : BackdoorList α) (p : Prob α)
    (hty : t ≠ y) (hy : OnEdge c y) (hok : (getFrontdoorSet ord (CG.init c A) (.name t) (.name y) adj).1 = .ok (r, p)) :
    (∃ p, (CG.init c A).id [y] [t] = .ok p ∧ Names (· ∈ c.map (·.1)) p) ∨ (CG.init c A).id [y] [t] = .error .value := by
  have hc : Declared c A := ⟨hp, ha⟩
  have hE := C08_explicit_faithful_partial c A h
  obtain ⟨t', y', hTY, hs⟩ := get_front hok
  obtain ⟨rfl, rfl⟩ : t' = t ∧ y' = y := by
    rcases hTY with ⟨h1, _⟩ | ⟨h1, h2⟩
    · cases h1
    · cases h1; cases h2; exact ⟨rfl, rfl⟩
  obtain ⟨htU, S, rest, hr, rfl, h1, _⟩ := front_result hD h hord hty hy hs
  have hSin : S ∈ frontSets r := by rw [hr]; exact List.mem_cons_self
  obtain ⟨k1, k2, k3⟩ := h1 S hSin
  have htE : OnEdge c t' := by
    unfold frontdoorSearch allSimplePaths at hs
    by_cases hn : t' ∈ (CG.init c A).observedDag.nodes
    · exact CG.mem_nodes_observed.1 hn
    · rw [if_neg hn] at hs; cases hs
  have hreach : ∀ s ∈ S, s ≠ y' ∧ Reach1 (CG.init c A).explicitDag.E t' s := by
    intro s hs'
    obtain ⟨m1, m2, q, hq, hsq⟩ := k3 s hs'
    rcases Relation.reflTransGen_iff_eq_or_transGen.1 ((reach_of_diPath q t' y' hq).2 s hsq).1 with h' | h'
    · exact absurd h' m1
    · exact ⟨m2, h'⟩
  have hSk : ∀ s ∈ S, s ∈ c.keys := by
    intro s hs'
    obtain ⟨u, _, hu⟩ := Relation.TransGen.tail'_iff.1 (hreach s hs').2
    by_cases hlat : ∃ i, u = U i
    · obtain ⟨i, rfl⟩ := hlat
      obtain ⟨a, b, hab, hw⟩ := hE.only i s hu
      rcases (hw s).1 hu with rfl | rfl
      · exact ha _ _ hab
      · exact ha _ _ hab.symm
    · push Not at hlat
      exact parent_key ((hE.observed u s hlat).1 hu)
  have htk := used_key hc (.inl htE)
  have hyk := used_key hc (.inl hy)
  have hident : Identifiable (allVars c A) (CG.init c A).explicitDag.E c.keys.toFinset {t'} {y'} := by
    intro Ω _ K _ _ _ M₁ M₂ hpos heq v
    have hW : c.keys.toFinset ⊆ allVars c A := fun a ha => allVars_key (List.mem_toFinset.1 ha)
    have hs1 : ({t'} : Finset α) ⊆ c.keys.toFinset := by simpa using htk
    have hs2 : S.toFinset ∪ {t'} ⊆ c.keys.toFinset := by
      intro a ha
      rw [List.mem_toFinset]
      rcases Finset.mem_union.1 ha with ha | ha
      · exact hSk a (List.mem_toFinset.1 ha)
      · rw [Finset.mem_singleton.1 ha]; exact htk
    have hV : ∀ a b, (CG.init c A).explicitDag.E a b → a ∈ allVars c A ∧ b ∈ allVars c A := fun a b => allVars_edge
    have s1 := frontdoor_value hE hV M₁ hty (allVars_key htk) (allVars_key hyk)
      (fun s hs' => ⟨allVars_key (hSk s hs'), hreach s hs'⟩) k1 (fun v _ => (pos_marginal hW hpos hs2 v).ne') v
      (pos_marginal hW hpos hs1 v).ne'
    have hpos' : ∀ v, 0 < M₂.P c.keys.toFinset v := fun v => heq v ▸ hpos v
    have s2 := frontdoor_value hE hV M₂ hty (allVars_key htk) (allVars_key hyk)
      (fun s hs' => ⟨allVars_key (hSk s hs'), hreach s hs'⟩) k1 (fun v _ => (pos_marginal hW hpos' hs2 v).ne') v
      (pos_marginal hW hpos' hs1 v).ne'
    rw [← s1, ← s2, eval_determined hW heq (p := frontdoorProb t' y' S)]
    refine .mk _ _ _ _ (by simp) (by simp) (fun p hp => ?_)
    simp at hp
    rcases hp with rfl | rfl
    · exact .mk _ _ _ _ (fun v hv => by simpa using hSk v hv) (by simpa using htk) (by simp)
    · refine .mk _ _ _ _ (by simp) (by simp) (fun p hp => ?_)
      simp at hp
      rcases hp with rfl | rfl
      · refine .mk _ _ _ _ (by simpa using hyk) (fun v hv => ?_) (by simp)
        rcases List.mem_cons.1 hv with rfl | hv
        · simpa using htk
        · simpa using hSk v hv
      · exact .mk _ _ _ _ (by simpa using htk) (by simp) (by simp)
  rcases id_outcome hD h.acyclic hc (x := [t']) (y := [y']) (by simpa using htk)
    (by simpa using ⟨fun e => hty e.symm, .inl hy⟩) with h1 | h1 | h1
  · exact .inl h1
  · exact absurd h1 (id_complete_at hD h hc (by simpa using htk) (by simpa using ⟨hyk, fun e => hty e.symm⟩)
      (fun a b => allVars_edge) (fun k => allVars_key) (by simpa using hident))
  · exact .inr h1

/-! ### Non-vacuity -/

/-- the bow `x → y`, `x ↔ y` -/
example : (CG.init [("x", []), ("y", ["x"])] [("x", "y")]).id ["y"] ["x"] = .error .identification := by rfl

/-- the verdict of the theorem on the bow -/
example : ∃ G, IsExplicit [("x", []), ("y", ["x"])] [("x", "y")] (U (α := String)) G ∧
    ∀ V : Finset String, (∀ a b, G a b → a ∈ V ∧ b ∈ V) → (∀ k ∈ ["x", "y"], k ∈ V) →
    ∃ M₁ M₂ : BayesNet (K := ℚ) V G (fun _ => Bool × Bool), (∀ v, M₁.P {"x", "y"} v = M₂.P {"x", "y"} v) ∧
      ∃ v, M₁.Pdo {"x"} {"y"} v ≠ M₂.Pdo {"x"} {"y"} v := by
  obtain ⟨G, hE, hm⟩ := C140_id_complete [("x", []), ("y", ["x"])] [("x", "y")]
    (by constructor <;> decide) (isDiagram_of_test _ _ (by decide))
    (by rintro u v ⟨ps, h, hu⟩; simp at h; rcases h with ⟨rfl, rfl⟩ | ⟨rfl, rfl⟩ <;> simp_all)
    (by rintro u v (h | h) <;> simp_all)
  refine ⟨G, hE, fun V hV hk => ?_⟩
  obtain ⟨M₁, M₂, _, h2, h3⟩ := hm ["x"] ["y"] (by simp) (by simp) rfl V hV hk
  exact ⟨M₁, M₂, h2, h3⟩

/-- a failure found only after restricting to ancestors, splitting into components and going into a component:
`w → x → a → y`, `b → y`, `x ↔ a`, with a variable `d` below `y` -/
example : (CG.init [("w", []), ("x", ["w"]), ("a", ["x"]), ("b", []), ("y", ["a", "b"]), ("d", ["y"])]
    [("x", "a")]).id ["y"] ["x"] = .error .identification := by rfl

/-- C140, violation: an identifiable effect for which `id` raises `ValueError`: `x → b`, `a → c`, `a ↔ b`. The empty set is a
back-door set for the effect of `x` on `{a, b}`, every variable is on an edge, and `id({a, b}, {x})` fails because `a` is on no edge of the graph of the ancestors of `{a, b}`. -/
theorem C140_identifiable_crash_refuted :
    ∃ G, IsExplicit [("x", []), ("a", []), ("b", ["x"]), ("c", ["a"])] [("a", "b")] (U (α := String)) G ∧
      (∀ V : Finset String, (∀ a b, G a b → a ∈ V ∧ b ∈ V) → (∀ k ∈ ["x", "a", "b", "c"], k ∈ V) →
        Identifiable V G {"x", "a", "b", "c"} {"x"} {"a", "b"}) ∧
      ((CG.init [("x", []), ("a", []), ("b", ["x"]), ("c", ["a"])] [("a", "b")]).id ["a", "b"] ["x"]).map (fun _ => ()) =
        .error .value := by
  have hD : IsDict ([("x", []), ("a", []), ("b", ["x"]), ("c", ["a"])] : Causation String) := by constructor <;> decide
  have h : IsDiagram [("x", []), ("a", []), ("b", ["x"]), ("c", ["a"])] [("a", "b")] (U (α := String)) :=
    isDiagram_of_test _ _ (by decide)
  have hE := C08_explicit_faithful_partial _ _ h
  refine ⟨_, hE, fun V hV hkV => ?_, by decide +kernel⟩
  have hin : ∀ u, ¬ (CG.init [("x", []), ("a", []), ("b", ["x"]), ("c", ["a"])] [("a", "b")]).explicitDag.E u "x" := by
    intro u hu
    by_cases hlat : ∃ i, u = U i
    · obtain ⟨i, rfl⟩ := hlat
      obtain ⟨a, b, hab, hw⟩ := hE.only i _ hu
      have := (hw "x").1 hu
      rcases hab with hab | hab <;> simp_all
    · push Not at hlat
      obtain ⟨ps, h1, h2⟩ := (hE.observed u "x" hlat).1 hu
      simp at h1
      subst h1
      cases h2
  have hb : BackDoor (CG.init [("x", []), ("a", []), ("b", ["x"]), ("c", ["a"])] [("a", "b")]).explicitDag.E
      {v | v ∈ ["x"]} {v | v ∈ ["a", "b"]} {v | v ∈ ([] : List String)} := by
    refine ⟨by simp, fun q hq hact s hs y hy hsx hyY => ?_⟩
    have hsx' : s = "x" := by simpa using hsx
    subst hsx'
    have hadj : ∀ v, ¬ Adj (CutOut (CG.init [("x", []), ("a", []), ("b", ["x"]), ("c", ["a"])]
        [("a", "b")]).explicitDag.E {v | v ∈ ["x"]}) "x" v := by
      rintro v (hv | hv)
      · exact hv.2 (by simp)
      · exact hin v hv.1
    match q, hact with
    | [u], _ =>
      simp at hs hy
      subst hs; subst hy
      simp at hyY
    | [u, v], hact =>
      simp at hs; subst hs
      exact hadj _ hact
    | u :: v :: w :: l, hact =>
      simp at hs; subst hs
      exact hadj _ hact.1
  have := backdoor_identifiable hE hV hkV (by simp [Causation.keys]) (by simp) (by simp [Causation.keys]) (by simp) hb
  have e : (Causation.keys [("x", []), ("a", []), ("b", ["x"]), ("c", ["a"])]).toFinset = ({"x", "a", "b", "c"} : Finset String) := by decide
  rw [e] at this
  simpa using this

/-- C140, violation: the same with a single outcome; the crash occurs in the recursive call for the component of `{a, b}`. -/
theorem C140_single_outcome_crash_refuted :
    ((CG.init [("w", []), ("p", []), ("x", []), ("q", ["w"]), ("a", ["p"]), ("b", ["x", "q"]), ("y", ["a", "b"])]
      [("a", "b"), ("x", "w"), ("w", "b")]).id ["y"] ["x", "q", "p"]).map (fun _ => ()) = .error .value := by decide +kernel

end YL.Props
