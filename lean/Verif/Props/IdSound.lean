import Verif.Props.IdTerm
import Verif.Props.Backdoor
import Verif.Lib.QFactor

/-!
# C22, C23: the ID algorithm
-/

set_option linter.unusedSectionVars false

namespace YL.Props

open YL Spec LatentNames

variable {α : Type} [DecidableEq α] [LatentNames α]

section
variable {c : Causation α} {A : List (α × α)} {G : α → α → Prop}

theorem obs_edge (h : IsDiagram c A U) (hE : IsExplicit c A U G) {i j : α} (hi : i ∈ c.keys) :
    G i j ↔ Parent c i j := by
  refine hE.observed i j (fun n e => ?_)
  exact (h.fresh n).1 (e ▸ hi)

theorem latent_root (h : IsDiagram c A U) (hc : Declared c A) (hE : IsExplicit c A U G) {l : α} (hl : l ∉ c.keys)
    (i : α) : ¬ G i l := by
  intro e
  by_cases hi : ∃ n, i = U n
  · obtain ⟨n, rfl⟩ := hi
    obtain ⟨a, b, hp, hw⟩ := hE.only n l e
    rcases (hw l).1 e with rfl | rfl
    · exact hl (hc.arcs _ _ hp)
    · exact hl (hc.arcs _ _ hp.symm)
  · push Not at hi
    exact hl (parent_key ((hE.observed i l hi).1 e))

theorem shared_paired (h : IsDiagram c A U) (hc : Declared c A) (hE : IsExplicit c A U G) {l a b : α}
    (hl : l ∉ c.keys) (ha : G l a) (hb : G l b) (hab : a ≠ b) : Paired A a b := by
  by_cases hi : ∃ n, l = U n
  · obtain ⟨n, rfl⟩ := hi
    obtain ⟨a', b', hp, hw⟩ := hE.only n a ha
    rcases (hw a).1 ha with rfl | rfl <;> rcases (hw b).1 hb with rfl | rfl
    · exact absurd rfl hab
    · exact hp
    · exact hp.symm
    · exact absurd rfl hab
  · push Not at hi
    exact absurd (hc.parents _ _ ((hE.observed l a hi).1 ha)) hl

variable {V : Finset α} {Ω : α → Type} [∀ i, Fintype (Ω i)] {K : Type} [Field K] [LinearOrder K]
  [IsStrictOrderedRing K] {M : BayesNet (K := K) V G Ω}

/-- A model of a causal diagram is semi-Markovian. -/
theorem diagram_semiMarkov (h : IsDiagram c A U) (hc : Declared c A) (hE : IsExplicit c A U G)
    (hV : ∀ a b, G a b → a ∈ V ∧ b ∈ V) (hk : ∀ k ∈ c.keys, k ∈ V) (M : BayesNet (K := K) V G Ω) :
    SemiMarkov c.keys.toFinset (V \ c.keys.toFinset) G M.kernel := by
  refine M.semiMarkov hE.acyclic (fun i j _ hij => (hV i j hij).1) (fun k hk' => hk k (by simpa using hk')) ?_
  intro l hl i
  exact latent_root h hc hE (by simpa using (Finset.mem_sdiff.1 hl).2) i

theorem P_pos_of_obs {O : Finset α} (hO : O ⊆ V) (hpos : ∀ v, M.P O v ≠ 0) {S : Finset α} (hS : S ⊆ O)
    (v : ∀ i, Ω i) : M.P S v ≠ 0 := by
  have e : O = S ∪ (O \ S) := (Finset.union_sdiff_of_subset hS).symm
  have := BayesNet.P_sum (M := M) (S := S) (T := O \ S) (fun i hi => hO (Finset.mem_sdiff.1 hi).1)
    Finset.disjoint_sdiff
  rw [← e] at this
  rw [← this]
  exact ne_of_gt (sumOut_pos (fun w => lt_of_le_of_ne (BayesNet.P_nonneg M O w) (Ne.symm (hpos w))) v)

/-- The chain-rule factors of a component. -/
theorem chainFactors_value (h : IsDiagram c A U) (hc : Declared c A) (hE : IsExplicit c A U G)
    (hV : ∀ a b, G a b → a ∈ V ∧ b ∈ V) (hk : ∀ k ∈ c.keys, k ∈ V) (hpos : ∀ v, M.P c.keys.toFinset v ≠ 0)
    {g : CG α} (hg : Ind c A g) (hanc : ∀ i j, j ∈ g.causation.keys → Parent c i j → i ∈ g.causation.keys)
    {vtopo : List α} (ht : g.topoOrder = .ok vtopo) {C : List α} {ps : List (Prob α)}
    (hsep : ∀ a b, a ∈ g.causation.keys → b ∈ g.causation.keys → a ∈ C → b ∉ C → ¬ Paired A a b)
    (hch : chainFactors vtopo C = .ok ps) (v : ∀ i, Ω i) :
    (ps.map (fun p => eval M p v)).prod = Qf (V \ c.keys.toFinset) M.kernel C.toFinset v := by
  have hs := diagram_semiMarkov h hc hE hV hk M
  have hO : c.keys.toFinset ⊆ V := fun k hk' => hk k (by simpa using hk')
  obtain ⟨l, hl, t1, t2, t3⟩ := (C02_topoOrder g).1 (hg.acyclic h.acyclic)
  rw [ht] at hl; cases hl
  have hvk : ∀ i ∈ vtopo, i ∈ g.causation.keys := by
    intro i hi
    obtain ⟨u, hu | hu⟩ := (t2 i).1 hi
    · exact ((hg.par _ _).1 hu).2.2
    · exact ((hg.par _ _).1 hu).2.1
  have hvO : ∀ i ∈ vtopo, i ∈ c.keys := fun i hi => hg.sub i (hvk i hi)
  -- prefixes are ancestral
  have hpre : ∀ l₁ l₂, vtopo = l₁ ++ l₂ → M.P l₁.toFinset = Qf (V \ c.keys.toFinset) M.kernel l₁.toFinset := by
    intro l₁ l₂ e
    refine BayesNet.P_eq_Qf hs hO (fun i hi => by
      simp only [List.mem_toFinset] at hi ⊢; exact hvO i (by rw [e]; simp [hi])) ?_
    intro j hj i hi hij
    simp only [List.mem_toFinset] at hi hj ⊢
    have hp := (obs_edge h hE hi).1 hij
    have hjk := hvk j (by rw [e]; simp [hj])
    have hpg : Parent g.causation i j := (hg.par i j).2 ⟨hp, hanc i j hjk hp, hjk⟩
    obtain ⟨a, b, rfl⟩ := List.append_of_mem hj
    have := t3 a j (b ++ l₂) (by rw [e]; simp) i hpg
    simp [this]
  have hQ := Qf_topo hs (C := C.toFinset) (S := vtopo.toFinset)
    (fun i hi => by simp only [List.mem_toFinset] at hi ⊢; exact hvO i hi) v
    (by
      intro l hl a ha b hb hla hlb
      simp only [Finset.mem_inter, Finset.mem_sdiff, List.mem_toFinset] at ha hb hl
      refine hsep a b (hvk a ha.1) (hvk b hb.1) ha.2 hb.2
        (shared_paired h hc hE hl.2 hla hlb ?_)
      rintro rfl; exact hb.2 ha.2)
    vtopo t1 (fun i hi => by simpa using hi)
    (fun l₁ l₂ e => by
      rw [← hpre l₁ l₂ e]
      exact P_pos_of_obs hO hpos (fun i hi => by
        simp only [List.mem_toFinset] at hi ⊢; exact hvO i (by rw [e]; simp [hi])) v)
  unfold chainFactors at hch
  split at hch
  · rename_i hall
    cases hch
    simp only [List.all_eq_true, decide_eq_true_eq] at hall
    have e1 : vtopo.toFinset ∩ C.toFinset = C.toFinset := by
      ext i; simp only [Finset.mem_inter, List.mem_toFinset]
      exact ⟨fun hi => hi.2, fun hi => ⟨hall i hi, hi⟩⟩
    rw [e1] at hQ
    rw [← hQ, List.map_map]
    simp only [List.mem_toFinset]
    congr 1
    refine List.map_congr_left (fun e he => ?_)
    have hel := (List.mem_filter.1 he).1
    have hlt := List.idxOf_lt_length_of_mem hel
    simp only [Function.comp_apply, eval_mk, List.toFinset_nil, sumOut_empty, List.map_nil, List.prod_nil, mul_one,
      List.cons_ne_nil, if_false, BayesNet.cond, reduceCtorEq]
    rw [hpre (vtopo.take (vtopo.idxOf e)) (vtopo.drop (vtopo.idxOf e)) (by simp)]
    have e2 : [e].toFinset ∪ (vtopo.take (vtopo.idxOf e)).toFinset = (vtopo.take (vtopo.idxOf e + 1)).toFinset := by
      rw [List.take_succ_eq_append_getElem hlt, List.getElem_idxOf hlt]
      ext i; simp
    rw [e2, hpre (vtopo.take (vtopo.idxOf e + 1)) (vtopo.drop (vtopo.idxOf e + 1)) (by simp)]
  · cases hch

/-- What the `prob` argument stands for. -/
def ProbInv (c : Causation α) (M : BayesNet (K := K) V G Ω) (nested : Bool) (prob : Prob α) (W : List α) : Prop :=
  if nested then
    ∃ ms ps, prob = .mk [] [] ms ps ∧ ps ≠ [] ∧ (∀ m ∈ ms, m ∉ W) ∧
      sumOut ms.toFinset (fun v => (ps.map (fun p => eval M p v)).prod) =
        Qf (V \ c.keys.toFinset) M.kernel W.toFinset
  else
    (∃ vs, prob = .mk vs [] [] [] ∧ ∀ v, v ∈ vs ↔ v ∈ W) ∧ (∀ i j, j ∈ W → Parent c i j → i ∈ W)

theorem probInv_restrict (h : IsDiagram c A U) (hc : Declared c A) (hE : IsExplicit c A U G)
    (hV : ∀ a b, G a b → a ∈ V ∧ b ∈ V) (hk : ∀ k ∈ c.keys, k ∈ V)
    {nested : Bool} {prob : Prob α} {W keep keep' : List α} (hW : ∀ w ∈ W, w ∈ c.keys)
    (hkeep : ∀ w ∈ keep, w ∈ W) (hanc : ∀ i j, j ∈ keep → i ∈ W → Parent c i j → i ∈ keep)
    (hkk : ∀ v, v ∈ keep' ↔ v ∈ keep)
    (hp : ProbInv c M nested prob W) : ProbInv c M nested (restrictProb W keep prob) keep' := by
  have hs := diagram_semiMarkov h hc hE hV hk M
  have hfs : keep'.toFinset = keep.toFinset := by ext i; simp [hkk]
  unfold ProbInv at hp ⊢
  cases nested with
  | true =>
    simp only [if_true] at hp ⊢
    obtain ⟨ms, ps, rfl, hps, hms, hq⟩ := hp
    refine ⟨W.filter (· ∉ keep) ++ ms, ps, ?_, hps, ?_, ?_⟩
    · unfold restrictProb
      dsimp only
      rw [if_neg (by simpa using hps)]
    · intro m hm
      rw [hkk]
      rcases List.mem_append.1 hm with hm | hm
      · simp at hm; exact hm.2
      · exact fun hk' => hms m hm (hkeep m hk')
    · have e1 : (W.filter (· ∉ keep) ++ ms).toFinset = (W.toFinset \ keep.toFinset) ∪ ms.toFinset := by
        ext i; simp
      rw [e1, sumOut_union, hq, hfs]
      · refine Qf_ancestral hs (fun i hi => by simp at hi ⊢; exact hkeep i hi)
          (fun i hi => by simp at hi ⊢; exact hW i hi) ?_
        intro j hj i hi hij
        simp only [List.mem_toFinset] at hi hj ⊢
        exact hanc i j hj hi ((obs_edge h hE (hW i hi)).1 hij)
      · rw [Finset.disjoint_left]
        intro i hi him
        simp at hi him
        exact hms i him hi.1
  | false =>
    simp only [Bool.false_eq_true, if_false] at hp ⊢
    obtain ⟨⟨vs, rfl, hvs⟩, hcl⟩ := hp
    refine ⟨⟨keep, by simp [restrictProb], fun v => (hkk v).symm⟩, fun i j hj hij => ?_⟩
    rw [hkk] at hj ⊢
    exact hanc i j hj (hcl i j (hkeep j hj) hij) hij

/-- Line 1. -/
theorem line1_value (h : IsDiagram c A U) (hc : Declared c A) (hE : IsExplicit c A U G)
    (hV : ∀ a b, G a b → a ∈ V ∧ b ∈ V) (hk : ∀ k ∈ c.keys, k ∈ V)
    {nested : Bool} {prob : Prob α} {W y : List α} (hW : ∀ w ∈ W, w ∈ c.keys) (hy : ∀ w ∈ y, w ∈ W)
    (hp : ProbInv c M nested prob W) (v : ∀ i, Ω i) :
    eval M (restrictProb W y prob) v = sumOut (W.toFinset \ y.toFinset) (Qf (V \ c.keys.toFinset) M.kernel W.toFinset) v := by
  have hs := diagram_semiMarkov h hc hE hV hk M
  have hO : c.keys.toFinset ⊆ V := fun k hk' => hk k (by simpa using hk')
  unfold ProbInv at hp
  cases nested with
  | true =>
    simp only [if_true] at hp
    obtain ⟨ms, ps, rfl, hps, hms, hq⟩ := hp
    unfold restrictProb
    dsimp only
    rw [if_neg (by simpa using hps), eval_mk]
    simp only [↓reduceIte, one_mul]
    have e1 : (W.filter (· ∉ y) ++ ms).toFinset = (W.toFinset \ y.toFinset) ∪ ms.toFinset := by
      ext i; simp
    rw [e1, sumOut_union, ← hq]
    · rw [Finset.disjoint_left]
      intro i hi him
      simp at hi him
      exact hms i him hi.1
  | false =>
    simp only [Bool.false_eq_true, if_false] at hp
    obtain ⟨⟨vs, rfl, hvs⟩, hcl⟩ := hp
    have e2 : restrictProb W y (.mk vs [] [] []) = .mk y [] [] [] := by simp [restrictProb]
    rw [e2, eval_mk, ← BayesNet.P_eq_Qf hs hO (fun i hi => by simp at hi ⊢; exact hW i hi)]
    · have e3 : W.toFinset = y.toFinset ∪ (W.toFinset \ y.toFinset) :=
        (Finset.union_sdiff_of_subset (fun i hi => by simp at hi ⊢; exact hy i hi)).symm
      have e4 := BayesNet.P_sum (M := M) (S := y.toFinset) (T := W.toFinset \ y.toFinset)
        (fun i hi => by simp at hi; exact hk i (hW i hi.1)) Finset.disjoint_sdiff
      rw [← e3] at e4
      rw [e4]
      simp only [List.toFinset_nil, sumOut_empty, List.map_nil, List.prod_nil, mul_one]
      split
      · rename_i h0; subst h0
        rw [List.toFinset_nil, BayesNet.P_empty hE.acyclic]
      · simp [BayesNet.cond, BayesNet.P_empty hE.acyclic]
    · intro j hj i hi hij
      simp only [List.mem_toFinset] at hi hj ⊢
      exact hcl i j hj ((obs_edge h hE hi).1 hij)


/-- The value a call of the algorithm is meant to return. -/
noncomputable def idTarget (c : Causation α) (M : BayesNet (K := K) V G Ω) (W X Y : Finset α) : (∀ i, Ω i) → K :=
  sumOut (W \ (X ∪ Y)) (Qf (V \ c.keys.toFinset) M.kernel (W \ X))

/-- Reducing to an ancestral set of the graph without incoming edges of `X` does not change the target. -/
theorem idTarget_reduce (h : IsDiagram c A U) (hc : Declared c A) (hE : IsExplicit c A U G)
    (hV : ∀ a b, G a b → a ∈ V ∧ b ∈ V) (hk : ∀ k ∈ c.keys, k ∈ V) {W W' X X' Y : Finset α}
    (hW : W ⊆ c.keys.toFinset) (hsub : W' \ X' ⊆ W \ X)
    (hY : ∀ i ∈ W \ X, i ∉ W' \ X' → i ∉ Y)
    (hcl : ∀ j ∈ W' \ X', ∀ i ∈ W \ X, Parent c i j → i ∈ W' \ X') :
    idTarget c M W X Y = idTarget c M W' X' Y := by
  have hs := diagram_semiMarkov h hc hE hV hk M
  have hWX : W \ X ⊆ c.keys.toFinset := fun i hi => hW (Finset.mem_sdiff.1 hi).1
  unfold idTarget
  rw [← Qf_ancestral hs hsub hWX (fun j hj i hi hij => hcl j hj i hi
    ((obs_edge h hE (by simpa using hWX hi)).1 hij))]
  rw [← sumOut_union]
  · congr 1
    ext i
    have a1 := @hsub i
    have a2 := hY i
    simp only [Finset.mem_sdiff, Finset.mem_union] at a1 a2 ⊢
    tauto
  · rw [Finset.disjoint_left]
    intro i; simp only [Finset.mem_sdiff, Finset.mem_union]; tauto

theorem id_sound_aux (h : IsDiagram c A U) (hc : Declared c A) (hE : IsExplicit c A U G)
    (hV : ∀ a b, G a b → a ∈ V ∧ b ∈ V) (hk : ∀ k ∈ c.keys, k ∈ V) (hpos : ∀ v, M.P c.keys.toFinset v ≠ 0) :
    ∀ (f : Nat) (nested : Bool) (y x : List α) (prob : Prob α) (g : CG α) (p : Prob α), Ind c A g →
      (∀ v ∈ y, v ∈ g.dag.nodes) → (∀ v ∈ y, v ∉ x) → ProbInv c M nested prob g.causation.keys →
      idAux f nested y x prob g = .ok (p, false) →
      eval M p = idTarget c M g.causation.keys.toFinset x.toFinset y.toFinset := by
  have hs := diagram_semiMarkov h hc hE hV hk M
  intro f
  induction f with
  | zero => intro _ _ _ _ _ _ _ _ _ _ hok; cases hok
  | succ f ih =>
    intro nested y x prob g p hg hyn hyx hpi hok
    have hW : g.causation.keys.toFinset ⊆ c.keys.toFinset := fun i hi => by
      simp at hi ⊢; exact hg.sub i hi
    have hyk : ∀ v ∈ y, v ∈ g.causation.keys := fun v hv => hg.nodeKey (hyn v hv)
    obtain ⟨vtopo, ht, -⟩ := (C02_topoOrder g).1 (hg.acyclic h.acyclic)
    rw [idAux] at hok
    simp only [ht] at hok
    by_cases hx : x = []
    · rw [if_pos hx] at hok
      cases hok
      subst hx
      funext v
      rw [line1_value h hc hE hV hk hg.sub hyk hpi v]
      unfold idTarget
      simp
    rw [if_neg hx] at hok
    by_cases han : g.causation.keys.any (· ∉ g.ancestors y) = true
    · rw [if_pos han] at hok
      have hsubk : ∀ v ∈ g.ancestors y, v ∈ g.causation.keys := by
        intro v hv
        obtain ⟨w, hw, hr⟩ := (C01_ancestors_exact g y v).1 hv
        rcases hr.cases_head with rfl | ⟨u, hu, _⟩
        · exact hyk _ hw
        · exact ((hg.par _ _).1 hu).2.1
      obtain ⟨g', e1, e2, e3⟩ := hg.build hsubk
      rw [e1] at hok
      dsimp only at hok
      have hcl : ∀ i j, j ∈ g.ancestors y → i ∈ g.causation.keys → Parent c i j → i ∈ g.ancestors y := by
        intro i j hj hi hij
        obtain ⟨w, hw, hr⟩ := (C01_ancestors_exact g y j).1 hj
        exact (C01_ancestors_exact g y i).2 ⟨w, hw, hr.head ((hg.par i j).2 ⟨hij, hi, hsubk j hj⟩)⟩
      have hself : ∀ v ∈ y, v ∈ g.ancestors y := fun v hv => (C01_ancestors_exact g y v).2 ⟨v, hv, .refl⟩
      have := ih nested y (x.filter (· ∈ g.ancestors y)) _ g' p e2
        (fun v hv => (e2.node v).2 ⟨(e3 v).2 (hself v hv), ((hg.node v).1 (hyn v hv)).2⟩)
        (fun v hv hvx => hyx v hv (List.mem_filter.1 hvx).1)
        (probInv_restrict h hc hE hV hk hg.sub hsubk (fun i j hj hi hij => hcl i j hj hi hij) e3 hpi) hok
      rw [this]
      refine (idTarget_reduce h hc hE hV hk hW ?_ ?_ ?_).symm
      · intro i hi
        simp only [Finset.mem_sdiff, List.mem_toFinset, List.mem_filter, decide_eq_true_eq, e3, not_and] at hi ⊢
        exact ⟨hsubk i hi.1, fun hix => hi.2 hix hi.1⟩
      · intro i hi hni hiy
        simp only [Finset.mem_sdiff, List.mem_toFinset, List.mem_filter, decide_eq_true_eq, e3, not_and, not_not] at hi hni hiy
        exact hni (hself i hiy) (fun hix => absurd hix hi.2)
      · intro j hj i hi hij
        simp only [Finset.mem_sdiff, List.mem_toFinset, List.mem_filter, decide_eq_true_eq, e3] at hi hj ⊢
        exact ⟨hcl i j hj.1 hi.1 hij, fun hh => hi.2 hh.1⟩
    rw [if_neg han] at hok
    have hall : ∀ v ∈ g.causation.keys, v ∈ g.ancestors y := by
      simpa using han
    -- every variable is a node of the networkx graph
    have hnode : ∀ v ∈ g.causation.keys, v ∈ g.dag.nodes := by
      intro v hv
      obtain ⟨w, hw, hr⟩ := (C01_ancestors_exact g y v).1 (hall v hv)
      rcases hr.cases_head with rfl | ⟨u, hu, _⟩
      · exact hyn _ hw
      · exact (hg.node v).2 ⟨hv, .inl ⟨u, .inr ((hg.par _ _).1 hu).1⟩⟩
    cases hr : g.removeIncoming x with
    | error e => rw [hr] at hok; cases hok
    | ok gx =>
      rw [hr] at hok
      dsimp only at hok
      have hxk := removeIncoming_ok hr
      obtain ⟨gx', r1, _, r3, _, r5, _⟩ := C07_removeIncoming_exact g hg.sync x hxk
      rw [hr] at r1; cases r1
      by_cases hw : g.causation.keys.filter (fun a => a ∉ x ∧ a ∉ gx.ancestors y) ≠ []
      · rw [if_pos hw] at hok
        have := ih nested y (x ++ g.causation.keys.filter (fun a => a ∉ x ∧ a ∉ gx.ancestors y)) prob g p hg hyn
          (by
            intro v hv hvx
            rcases List.mem_append.1 hvx with hvx | hvx
            · exact hyx v hv hvx
            · simp only [List.mem_filter, decide_eq_true_eq] at hvx
              exact hvx.2.2 ((C01_ancestors_exact gx y v).2 ⟨v, hv, .refl⟩)) hpi hok
        rw [this]
        have hmem : ∀ i, i ∈ g.causation.keys.toFinset \
            (x ++ g.causation.keys.filter (fun a => a ∉ x ∧ a ∉ gx.ancestors y)).toFinset ↔
            i ∈ g.causation.keys ∧ i ∉ x ∧ i ∈ gx.ancestors y := by
          intro i
          simp only [Finset.mem_sdiff, List.mem_toFinset, List.mem_append, List.mem_filter, decide_eq_true_eq]
          tauto
        refine (idTarget_reduce h hc hE hV hk hW ?_ ?_ ?_).symm
        · intro i hi
          rw [hmem] at hi
          simp only [Finset.mem_sdiff, List.mem_toFinset]
          exact ⟨hi.1, hi.2.1⟩
        · intro i hi hni hiy
          rw [hmem] at hni
          simp only [Finset.mem_sdiff, List.mem_toFinset] at hi hiy
          exact hni ⟨hi.1, hi.2, (C01_ancestors_exact gx y i).2 ⟨i, hiy, .refl⟩⟩
        · intro j hj i hi hij
          rw [hmem] at hj ⊢
          simp only [Finset.mem_sdiff, List.mem_toFinset] at hi
          refine ⟨hi.1, hi.2, ?_⟩
          obtain ⟨w, hw', hr'⟩ := (C01_ancestors_exact gx y j).1 hj.2.2
          refine (C01_ancestors_exact gx y i).2 ⟨w, hw', hr'.head ?_⟩
          rw [r5]
          exact ⟨(hg.par i j).2 ⟨hij, hi.1, hj.1⟩, hj.2.1⟩
      · rw [if_neg hw] at hok
        obtain ⟨R, hp, hR⟩ := hg.comps h.acyclic x
        obtain ⟨p1, p2, p3, p4⟩ := hp
        have hmemX : ∀ i, i ∈ g.causation.keys.toFinset \ x.toFinset ↔ i ∈ g.causation.keys ∧ i ∉ x := by
          intro i; simp
        match hcs : (g.removeNodes x).cComponents with
        | [] => rw [hcs] at hok; cases hok
        | [s] =>
          rw [hcs] at hok p1 p2 p3 p4
          dsimp only at hok
          have hs' : ∀ v, v ∈ s ↔ v ∈ g.causation.keys ∧ v ∉ x := by
            intro v
            constructor
            · intro hv
              have := (p2 v).2 ⟨s, by simp, hv⟩
              exact ⟨hg.nodeKey this.1, this.2⟩
            · intro hv
              obtain ⟨d, hd, hvd⟩ := (p2 v).1 ⟨hnode v hv.1, hv.2⟩
              simp at hd; subst hd; exact hvd
          have hsX : g.causation.keys.toFinset \ x.toFinset = s.toFinset := by
            ext i; rw [hmemX, List.mem_toFinset, hs']
          by_cases h5 : setEq (g.cComponents.headD []) g.dag.nodes = true
          · rw [if_pos h5] at hok; cases hok
          rw [if_neg h5] at hok
          obtain ⟨q1, q2, q3, q4⟩ := hg.comps0 h.acyclic
          -- arcs do not leave a component of the graph
          have hcomp : ∀ C : List α, (∃ D ∈ g.cComponents, ∀ v, v ∈ C ↔ v ∈ D) → ∀ a b, a ∈ g.causation.keys →
              b ∈ g.causation.keys → a ∈ C → b ∉ C → ¬ Paired A a b := by
            rintro C ⟨D, hD, hCD⟩ a b ha hb haC hbC hab
            rw [hCD] at haC hbC
            exact hbC ((q4 D hD a haC b (hnode b hb)).2 (.single ⟨hab, ha, hb⟩))
          by_cases h6 : g.cComponents.any (setEq s) = true
          · rw [if_pos h6] at hok
            cases hch : chainFactors vtopo s with
            | error e => rw [hch] at hok; cases hok
            | ok ps =>
              rw [hch] at hok
              simp only [Except.ok.injEq, Prod.mk.injEq] at hok
              obtain ⟨rfl, rfl⟩ := hok
              have hanc : ∀ i j, j ∈ g.causation.keys → Parent c i j → i ∈ g.causation.keys := by
                unfold ProbInv at hpi
                simp only [Bool.false_eq_true, if_false] at hpi
                exact hpi.2
              have hval := chainFactors_value h hc hE hV hk hpos hg hanc ht (hcomp s (by
                rw [List.any_eq_true] at h6
                obtain ⟨D, hD, he⟩ := h6
                exact ⟨D, hD, setEq_iff.1 he⟩)) hch
              funext v
              rw [eval_mk]
              simp only [↓reduceIte, one_mul]
              rw [funext hval]
              unfold idTarget
              rw [hsX]
              have : (s.filter (· ∉ y)).toFinset = g.causation.keys.toFinset \ (x.toFinset ∪ y.toFinset) := by
                ext i; simp [hs']; tauto
              rw [this]
          · rw [if_neg h6] at hok
            cases hfind : g.cComponents.find? (fun sub => s.all (· ∈ sub)) with
            | none => rw [hfind] at hok; cases hok
            | some sub =>
              rw [hfind] at hok
              dsimp only at hok
              cases hch : chainFactors vtopo sub with
              | error e => rw [hch] at hok; cases hok
              | ok ps =>
                rw [hch] at hok
                dsimp only at hok
                have hsub := List.mem_of_find?_eq_some hfind
                have hss : ∀ v ∈ s, v ∈ sub := by
                  have := List.find?_some hfind
                  simpa using this
                have hsubk : ∀ v ∈ sub, v ∈ g.causation.keys := fun v hv => hg.nodeKey ((q2 v).2 ⟨sub, hsub, hv⟩)
                obtain ⟨g', e1, e2, e3⟩ := hg.build hsubk
                rw [e1] at hok
                dsimp only at hok
                cases hi : idAux f true y (x.filter (· ∈ sub)) (.mk [] [] [] ps) g' with
                | error e => rw [hi] at hok; cases hok
                | ok r =>
                  rw [hi] at hok
                  simp only [Except.ok.injEq, Prod.mk.injEq, Bool.or_eq_false_iff] at hok
                  obtain ⟨rfl, hr2, rfl⟩ := hok
                  have hanc : ∀ i j, j ∈ g.causation.keys → Parent c i j → i ∈ g.causation.keys := by
                    unfold ProbInv at hpi
                    simp only [Bool.false_eq_true, if_false] at hpi
                    exact hpi.2
                  have hval := chainFactors_value h hc hE hV hk hpos hg hanc ht
                    (hcomp sub ⟨sub, hsub, fun _ => Iff.rfl⟩) hch
                  have hys : ∀ v ∈ y, v ∈ s := fun v hv => (hs' v).2 ⟨hyk v hv, hyx v hv⟩
                  have hsne : s ≠ [] := p1 s (by simp)
                  have hpsne : ps ≠ [] := by
                    unfold chainFactors at hch
                    split at hch
                    · rename_i hall'
                      cases hch
                      obtain ⟨a, ha⟩ := List.exists_mem_of_ne_nil _ hsne
                      have ha' := hss a ha
                      simp only [List.all_eq_true, decide_eq_true_eq] at hall'
                      simp only [ne_eq, List.map_eq_nil_iff, List.filter_eq_nil_iff, not_forall]
                      exact ⟨a, hall' a ha', by simpa using ha'⟩
                    · cases hch
                  have hfs : g'.causation.keys.toFinset = sub.toFinset := by ext i; simp [e3]
                  have := ih true y (x.filter (· ∈ sub)) (.mk [] [] [] ps) g' r.1 e2
                    (fun v hv => (e2.node v).2 ⟨(e3 v).2 (hss v (hys v hv)), ((hg.node v).1 (hyn v hv)).2⟩)
                    (fun v hv hvx => hyx v hv (List.mem_filter.1 hvx).1)
                    (by
                      unfold ProbInv
                      simp only [if_true]
                      refine ⟨[], ps, rfl, hpsne, by simp, ?_⟩
                      rw [List.toFinset_nil, sumOut_empty, hfs]
                      exact funext hval)
                    (by rw [hi, ← hr2])
                  rw [this]
                  unfold idTarget
                  rw [hsX, hfs]
                  have t1 : sub.toFinset \ (x.filter (· ∈ sub)).toFinset = s.toFinset := by
                    ext i
                    simp only [Finset.mem_sdiff, List.mem_toFinset, List.mem_filter, decide_eq_true_eq, hs']
                    constructor
                    · rintro ⟨a1, a2⟩; exact ⟨hsubk i a1, fun a3 => a2 ⟨a3, a1⟩⟩
                    · rintro ⟨a1, a2⟩; exact ⟨hss i ((hs' i).2 ⟨a1, a2⟩), fun a3 => a2 a3.1⟩
                  have t2 : sub.toFinset \ ((x.filter (· ∈ sub)).toFinset ∪ y.toFinset) =
                      g.causation.keys.toFinset \ (x.toFinset ∪ y.toFinset) := by
                    ext i
                    have b1 := Finset.ext_iff.1 t1 i
                    have b2 := Finset.ext_iff.1 hsX i
                    simp only [Finset.mem_sdiff, Finset.mem_union] at b1 b2 ⊢
                    tauto
                  rw [t1, t2]
        | s :: t :: l =>
          rw [hcs] at hok p1 p2 p3 p4
          dsimp only at hok
          cases hmo : mapOk (fun c => idAux f nested c (g.causation.keys.filter (· ∉ c)) prob g) (s :: t :: l) with
          | error e => rw [hmo] at hok; cases hok
          | ok rs =>
            rw [hmo] at hok
            simp only [Except.ok.injEq, Prod.mk.injEq] at hok
            obtain ⟨rfl, hrs⟩ := hok
            have hrs' : ∀ r ∈ rs, r.2 = false := by simpa using hrs
            have hF := mapOk_ok hmo
            clear hcs
            generalize hL : s :: t :: l = cs at *
            have hck : ∀ d ∈ cs, ∀ v ∈ d, v ∈ g.dag.nodes ∧ v ∉ x := fun d hd v hv => (p2 v).2 ⟨d, hd, hv⟩
            have hval : ∀ v, (rs.map (fun r => eval M r.1 v)) =
                cs.map (fun d => Qf (V \ c.keys.toFinset) M.kernel d.toFinset v) := by
              intro v
              have : ∀ (cs' : List (List α)) (rs' : List (Prob α × Bool)),
                  List.Forall₂ (fun b r => idAux f nested b (g.causation.keys.filter (· ∉ b)) prob g = .ok r) cs' rs' →
                  (∀ d ∈ cs', d ∈ cs) → (∀ r ∈ rs', r.2 = false) →
                  rs'.map (fun r => eval M r.1 v) =
                    cs'.map (fun d => Qf (V \ c.keys.toFinset) M.kernel d.toFinset v) := by
                intro cs' rs' hF'
                induction hF' with
                | nil => intro _ _; rfl
                | @cons d r cs' rs' hd _ ih' =>
                  intro h1 h2
                  rw [List.map_cons, List.map_cons, ih' (fun d' hd' => h1 d' (by simp [hd']))
                    (fun r' hr' => h2 r' (by simp [hr']))]
                  have hdc := h1 d (by simp)
                  have := ih nested d (g.causation.keys.filter (· ∉ d)) prob g r.1 hg
                    (fun v hv => (hck d hdc v hv).1) (fun v hv hv' => by simp at hv'; exact hv'.2 hv) hpi
                    (by rw [hd, ← h2 r (by simp)])
                  rw [this]
                  unfold idTarget
                  have hdk : ∀ v ∈ d, v ∈ g.causation.keys := fun v hv => hg.nodeKey (hck d hdc v hv).1
                  have t1 : g.causation.keys.toFinset \ (g.causation.keys.filter (· ∉ d)).toFinset = d.toFinset := by
                    ext i
                    simp only [Finset.mem_sdiff, List.mem_toFinset, List.mem_filter, decide_eq_true_eq]
                    have := hdk i
                    tauto
                  have t2 : g.causation.keys.toFinset \ ((g.causation.keys.filter (· ∉ d)).toFinset ∪ d.toFinset) = ∅ := by
                    ext i
                    simp only [Finset.mem_sdiff, List.mem_toFinset, List.mem_filter, decide_eq_true_eq,
                      Finset.mem_union, Finset.notMem_empty, iff_false]
                    tauto
                  rw [t1, t2, sumOut_empty]
              exact this cs rs hF (fun _ hd => hd) hrs'
            have hprod : ∀ v, Qf (V \ c.keys.toFinset) M.kernel (g.causation.keys.toFinset \ x.toFinset) v =
                ((cs.map List.toFinset).map (fun d => Qf (V \ c.keys.toFinset) M.kernel d v)).prod := by
              intro v
              refine Qf_list hs (cs.map List.toFinset) ?_ ?_ _ ?_ v
              · intro d hd i hi
                obtain ⟨d', hd', rfl⟩ := List.mem_map.1 hd
                simp only [List.mem_toFinset] at hi ⊢
                exact hg.sub i (hg.nodeKey (hck d' hd' i hi).1)
              · rw [List.pairwise_map]
                refine List.Pairwise.imp_of_mem (fun {d d'} hd hd' hdd' => ⟨?_, ?_⟩) p3
                · rw [Finset.disjoint_left]; intro i hi hi'
                  simp only [List.mem_toFinset] at hi hi'
                  exact hdd' i hi hi'
                · intro l' hl' a ha b hb hla hlb
                  simp only [List.mem_toFinset, Finset.mem_sdiff] at ha hb hl'
                  have hne : a ≠ b := by rintro rfl; exact hdd' a ha hb
                  have hab := shared_paired h hc hE hl'.2 hla hlb hne
                  have ha1 := hck d hd a ha
                  have hb1 := hck d' hd' b hb
                  have : b ∈ d := by
                    refine (p4 d hd a ha b hb1).2 ?_
                    rw [hR]
                    exact .single ⟨hab, ⟨hg.nodeKey ha1.1, ha1.2⟩, hg.nodeKey hb1.1, hb1.2⟩
                  exact hdd' b this hb
              · intro i
                rw [hmemX]
                constructor
                · intro hi
                  obtain ⟨d, hd, hid⟩ := (p2 i).1 ⟨hnode i hi.1, hi.2⟩
                  exact ⟨d.toFinset, List.mem_map_of_mem hd, by simpa using hid⟩
                · rintro ⟨d, hd, hid⟩
                  obtain ⟨d', hd', rfl⟩ := List.mem_map.1 hd
                  have := hck d' hd' i (by simpa using hid)
                  exact ⟨hg.nodeKey this.1, this.2⟩
            funext v
            rw [eval_mk]
            simp only [↓reduceIte, one_mul, List.map_map, Function.comp_def]
            unfold idTarget
            have t3 : (g.causation.keys.filter (fun a => a ∉ y ∧ a ∉ x)).toFinset =
                g.causation.keys.toFinset \ (x.toFinset ∪ y.toFinset) := by
              ext i; simp; tauto
            rw [t3]
            congr 1
            funext w
            rw [hval w, hprod w, List.map_map]
            rfl

end

end YL.Props
