import Verif.Lib.Adjust

/-! Q-factors of semi-Markovian models (Tian and Pearl): the algebra behind the ID algorithm. -/

set_option linter.unusedSectionVars false
set_option linter.unusedVariables false

namespace YL.Spec

open Function

variable {α : Type} [DecidableEq α] {Ω : α → Type} [∀ i, Fintype (Ω i)] {K : Type}

section
variable [CommSemiring K] {V : Finset α} {E : α → α → Prop} {k : α → (∀ i, Ω i) → K}

/-- `Q[S]`: the product of the kernels of `S` and of the latent variables `L`, summed over `L`. -/
def Qf (L : Finset α) (k : α → (∀ i, Ω i) → K) (S : Finset α) : (∀ i, Ω i) → K :=
  sumOut L (fun v => ∏ i ∈ S ∪ L, k i v)

variable {O L : Finset α}

/-- The observed variables `O` and the latent roots `L`. -/
structure SemiMarkov (O L : Finset α) (E : α → α → Prop) (k : α → (∀ i, Ω i) → K) : Prop where
  acyclic : Acyclic E
  disj : Disjoint O L
  kernels : Kernels (O ∪ L) E k
  root : ∀ l ∈ L, ∀ i, ¬ E i l
  closed : ∀ i, ∀ j ∈ O, E i j → i ∈ O ∪ L

theorem Qf_empty (h : SemiMarkov O L E k) (v : ∀ i, Ω i) : Qf L k ∅ v = 1 := by
  unfold Qf
  rw [Finset.empty_union, sumOut_barren h.acyclic _ L L rfl (h.kernels.mono Finset.subset_union_right)
    (Finset.Subset.refl _) (fun _ _ j hj _ => hj)]
  simp

theorem Qf_ancestral (h : SemiMarkov O L E k) {W S : Finset α} (hWS : W ⊆ S) (hS : S ⊆ O)
    (hcl : ∀ j ∈ W, ∀ i ∈ S, E i j → i ∈ W) : sumOut (S \ W) (Qf L k S) = Qf L k W := by
  have hd : Disjoint (S \ W) L := by
    rw [Finset.disjoint_left]; intro i hi; exact Finset.disjoint_left.1 h.disj (hS (Finset.mem_sdiff.1 hi).1)
  unfold Qf
  rw [sumOut_comm hd, sumOut_barren h.acyclic _ (S \ W) (S ∪ L) rfl
    (h.kernels.mono (Finset.union_subset_union_left hS))]
  · have e : (S ∪ L) \ (S \ W) = W ∪ L := by
      ext i
      have a1 := @hWS i
      have a2 : i ∈ S → i ∉ L := fun hi => Finset.disjoint_left.1 h.disj (hS hi)
      simp only [Finset.mem_sdiff, Finset.mem_union]; tauto
    rw [e]
  · intro i hi; simp at hi ⊢; exact .inl hi.1
  · intro i hi j hj hij
    rw [Finset.mem_sdiff] at hi ⊢
    rcases Finset.mem_union.1 hj with hj | hj
    · exact ⟨hj, fun hjW => hi.2 (hcl j hjW i hi.1 hij)⟩
    · exact absurd hij (h.root j hj i)

open Classical in
theorem Qf_mul (h : SemiMarkov O L E k) {S T : Finset α} (hS : S ⊆ O) (hT : T ⊆ O) (hST : Disjoint S T)
    (hlat : ∀ l ∈ L, ∀ a ∈ S, ∀ b ∈ T, E l a → ¬ E l b) (v : ∀ i, Ω i) :
    Qf L k (S ∪ T) v = Qf L k S v * Qf L k T v := by
  set L₁ := L.filter (fun l => ∃ a ∈ S, E l a) with hL1
  set L₂ := L \ L₁ with hL2
  have hL : L = L₁ ∪ L₂ := by rw [hL2, Finset.union_sdiff_of_subset (Finset.filter_subset _ _)]
  have hd12 : Disjoint L₁ L₂ := Finset.disjoint_sdiff
  have hL1L : L₁ ⊆ L := Finset.filter_subset _ _
  have hL2L : L₂ ⊆ L := Finset.sdiff_subset
  have hnl : ∀ i, i ∈ O → i ∉ L := fun i hi => Finset.disjoint_left.1 h.disj hi
  -- a factor over `A ∪ L'` with its latent parents in `L'`
  have dep : ∀ (A L' : Finset α), A ⊆ O → L' ⊆ L → (∀ a ∈ A, ∀ l ∈ L, E l a → l ∈ L') →
      DependsOn (fun v => ∏ i ∈ A ∪ L', k i v) {j | j ∉ L ∨ j ∈ L'} := by
    intro A L' hA hL' hpar
    apply dependsOn_prod
    intro i hi
    have hiOL : i ∈ O ∪ L := by
      rcases Finset.mem_union.1 hi with hi | hi
      · exact Finset.mem_union_left _ (hA hi)
      · exact Finset.mem_union_right _ (hL' hi)
    refine (h.kernels.loc i hiOL).mono ?_
    rcases Finset.mem_union.1 hi with hi | hi
    · rintro j (rfl | hj)
      · exact .inl (hnl _ (hA hi))
      · by_cases hjL : j ∈ L
        · exact .inr (hpar i hi j hjL hj)
        · exact .inl hjL
    · rintro j (rfl | hj)
      · exact .inr hi
      · exact absurd hj (h.root i (hL' hi) j)
  have hS1 : ∀ a ∈ S, ∀ l ∈ L, E l a → l ∈ L₁ := fun a ha l hl hla => Finset.mem_filter.2 ⟨hl, a, ha, hla⟩
  have hT2 : ∀ b ∈ T, ∀ l ∈ L, E l b → l ∈ L₂ := by
    intro b hb l hl hlb
    refine Finset.mem_sdiff.2 ⟨hl, fun h1 => ?_⟩
    obtain ⟨_, a, ha, hla⟩ := Finset.mem_filter.1 h1
    exact hlat l hl a ha b hb hla hlb
  have dS := dep S L₁ hS hL1L hS1
  have dT := dep T L₂ hT hL2L hT2
  have d1 := dep ∅ L₁ (by simp) hL1L (by simp)
  have d2 := dep ∅ L₂ (by simp) hL2L (by simp)
  have one : ∀ L' ⊆ L, sumOut L' (fun v => ∏ i ∈ (∅ : Finset α) ∪ L', k i v) = fun _ => 1 := by
    intro L' hL'
    rw [Finset.empty_union, sumOut_barren h.acyclic _ L' L' rfl
      (h.kernels.mono (hL'.trans Finset.subset_union_right)) (Finset.Subset.refl _) (fun _ _ j hj _ => hj)]
    simp
  -- product over a disjoint union
  have hprod : ∀ A B : Finset α, A ⊆ O → B ⊆ O → Disjoint A B → ∀ v, ∏ i ∈ (A ∪ B) ∪ L, k i v =
      (∏ i ∈ A ∪ L₁, k i v) * ∏ i ∈ B ∪ L₂, k i v := by
    intro A B hA hB hAB v
    rw [← Finset.prod_union]
    · congr 1; rw [hL]; ext i; simp only [Finset.mem_union]; tauto
    · rw [Finset.disjoint_left]
      intro i hi hi'
      rcases Finset.mem_union.1 hi with hi | hi <;> rcases Finset.mem_union.1 hi' with hi' | hi'
      · exact Finset.disjoint_left.1 hAB hi hi'
      · exact hnl i (hA hi) (hL2L hi')
      · exact hnl i (hB hi') (hL1L hi)
      · exact Finset.disjoint_left.1 hd12 hi hi'
  have split : ∀ A B : Finset α, A ⊆ O → B ⊆ O → Disjoint A B →
      (∀ a ∈ A, ∀ l ∈ L, E l a → l ∈ L₁) → (∀ a ∈ B, ∀ l ∈ L, E l a → l ∈ L₂) →
      Qf L k (A ∪ B) = fun v => sumOut L₁ (fun v => ∏ i ∈ A ∪ L₁, k i v) v *
        sumOut L₂ (fun v => ∏ i ∈ B ∪ L₂, k i v) v := by
    intro A B hA hB hAB h1 h2
    unfold Qf
    rw [funext (hprod A B hA hB hAB)]
    conv_lhs => rw [hL]
    refine sumOut_mul_split hd12 (dep A L₁ hA hL1L h1) (dep B L₂ hB hL2L h2) ?_ ?_
    · rintro i (hi | hi) h'
      · exact hi (hL2L h')
      · exact Finset.disjoint_left.1 hd12 hi h'
    · rintro i (hi | hi) h'
      · exact hi (hL1L h')
      · exact Finset.disjoint_left.1 hd12 h' hi
  have e1 := split S T hS hT hST hS1 hT2
  have e2 := split S ∅ hS (by simp) (by simp) hS1 (by simp)
  have e3 := split ∅ T (by simp) hT (by simp) (by simp) hT2
  rw [one L₂ hL2L, Finset.union_empty] at e2
  rw [one L₁ hL1L, Finset.empty_union] at e3
  rw [e1, e2, e3]
  simp

/-- Latent variables have children in at most one part. -/
def NoShared (E : α → α → Prop) (L S T : Finset α) : Prop := ∀ l ∈ L, ∀ a ∈ S, ∀ b ∈ T, E l a → ¬ E l b

theorem Qf_list (h : SemiMarkov O L E k) : ∀ (cs : List (Finset α)), (∀ c ∈ cs, c ⊆ O) →
    cs.Pairwise (fun c d => Disjoint c d ∧ NoShared E L c d) → ∀ (S : Finset α), (∀ i, i ∈ S ↔ ∃ c ∈ cs, i ∈ c) →
    ∀ v, Qf L k S v = (cs.map (fun c => Qf L k c v)).prod := by
  intro cs
  induction cs with
  | nil =>
    intro _ _ S hS v
    have : S = ∅ := by ext i; simp [hS]
    rw [this, Qf_empty h]; simp
  | cons c cs ih =>
    intro hO hp S hS v
    rw [List.pairwise_cons] at hp
    set T : Finset α := S \ c with hT
    have hcS : c ⊆ S := fun i hi => (hS i).2 ⟨c, by simp, hi⟩
    have hTm : ∀ i, i ∈ T ↔ ∃ d ∈ cs, i ∈ d := by
      intro i
      rw [hT, Finset.mem_sdiff, hS]
      constructor
      · rintro ⟨⟨d, hd, hi⟩, hn⟩
        rcases List.mem_cons.1 hd with rfl | hd
        · exact absurd hi hn
        · exact ⟨d, hd, hi⟩
      · rintro ⟨d, hd, hi⟩
        exact ⟨⟨d, by simp [hd], hi⟩, fun hc => Finset.disjoint_left.1 (hp.1 d hd).1 hc hi⟩
    have e : S = c ∪ T := by rw [hT, Finset.union_sdiff_of_subset hcS]
    rw [e, Qf_mul h (hO c (by simp)) (fun i hi => by
        obtain ⟨d, hd, hi⟩ := (hTm i).1 hi
        exact hO d (by simp [hd]) hi) Finset.disjoint_sdiff (by
        intro l hl a ha b hb hla hlb
        obtain ⟨d, hd, hi⟩ := (hTm b).1 hb
        exact (hp.1 d hd).2 l hl a ha b hi hla hlb),
      ih (fun d hd => hO d (by simp [hd])) hp.2 T hTm v]
    simp

end

section
variable [Field K] [LinearOrder K] [IsStrictOrderedRing K] {O L : Finset α} {E : α → α → Prop}
  {k : α → (∀ i, Ω i) → K}

/-- The chain-rule factors of a confounded component multiply to its Q-factor. `l` lists the variables of the
(ancestral) set in topological order; the factors over `C` are ratios of Q-factors of initial segments. -/
theorem Qf_topo (h : SemiMarkov O L E k) {C : Finset α} {S : Finset α} (hS : S ⊆ O) (v : ∀ i, Ω i)
    (hsep : NoShared E L (S ∩ C) (S \ C)) :
    ∀ (l : List α), l.Nodup → (∀ i ∈ l, i ∈ S) → (∀ l₁ l₂, l = l₁ ++ l₂ → Qf L k l₁.toFinset v ≠ 0) →
      ((l.filter (· ∈ C)).map (fun e => Qf L k (l.take (l.idxOf e + 1)).toFinset v /
        Qf L k (l.take (l.idxOf e)).toFinset v)).prod = Qf L k (l.toFinset ∩ C) v := by
  intro l
  induction l using List.reverseRecOn with
  | nil => intro _ _ _; simp [Qf_empty h]
  | append_singleton l a ih =>
    intro hnd hin hpos
    have hnd' := List.nodup_append.1 hnd
    have hal : a ∉ l := fun ha => hnd'.2.2 a ha a (by simp) rfl
    have ih' := ih hnd'.1 (fun i hi => hin i (by simp [hi]))
      (fun l₁ l₂ e => hpos l₁ (l₂ ++ [a]) (by rw [e, List.append_assoc]))
    have hold : ((l.filter (· ∈ C)).map (fun e => Qf L k ((l ++ [a]).take ((l ++ [a]).idxOf e + 1)).toFinset v /
        Qf L k ((l ++ [a]).take ((l ++ [a]).idxOf e)).toFinset v)) =
        (l.filter (· ∈ C)).map (fun e => Qf L k (l.take (l.idxOf e + 1)).toFinset v /
        Qf L k (l.take (l.idxOf e)).toFinset v) := by
      refine List.map_congr_left (fun e he => ?_)
      have hel := (List.mem_filter.1 he).1
      have hlt := List.idxOf_lt_length_of_mem hel
      rw [List.idxOf_append_of_mem hel, List.take_append_of_le_length (by omega),
        List.take_append_of_le_length (by omega)]
    have hlS : ∀ i ∈ l.toFinset, i ∈ S := fun i hi => hin i (by simp at hi; simp [hi])
    have hsub : ∀ T : Finset α, (∀ i ∈ T, i ∈ S) → Qf L k T v = Qf L k (T ∩ C) v * Qf L k (T \ C) v := by
      intro T hT
      have e : T = (T ∩ C) ∪ (T \ C) := by ext i; simp; tauto
      conv_lhs => rw [e]
      refine Qf_mul h (fun i hi => hS (hT i (Finset.mem_inter.1 hi).1)) (fun i hi => hS (hT i (Finset.mem_sdiff.1 hi).1))
        ?_ ?_ v
      · rw [Finset.disjoint_left]; intro i; simp; tauto
      · intro l' hl' x hx y hy
        rw [Finset.mem_inter] at hx
        rw [Finset.mem_sdiff] at hy
        exact hsep l' hl' x (Finset.mem_inter.2 ⟨hT x hx.1, hx.2⟩) y (Finset.mem_sdiff.2 ⟨hT y hy.1, hy.2⟩)
    have hT : ∀ i ∈ (l ++ [a]).toFinset, i ∈ S := fun i hi => hin i (List.mem_toFinset.1 hi)
    rw [List.filter_append, List.map_append, List.prod_append, hold, ih']
    by_cases haC : a ∈ C
    · have hf : [a].filter (· ∈ C) = [a] := by simp [haC]
      rw [hf]
      have hidx : (l ++ [a]).idxOf a = l.length := by
        rw [List.idxOf_append_of_notMem hal]; simp
      simp only [List.map_cons, List.map_nil, List.prod_cons, List.prod_nil, mul_one, hidx]
      have t1 : (l ++ [a]).take (l.length + 1) = l ++ [a] := by
        rw [List.take_of_length_le]; simp
      have t2 : (l ++ [a]).take l.length = l := by simp
      rw [t1, t2]
      have q1 := hsub (l ++ [a]).toFinset hT
      have q2 := hsub l.toFinset hlS
      have e : (l ++ [a]).toFinset \ C = l.toFinset \ C := by
        ext i; simp only [Finset.mem_sdiff, List.mem_toFinset, List.mem_append, List.mem_singleton]
        constructor
        · rintro ⟨hi | rfl, hc⟩
          · exact ⟨hi, hc⟩
          · exact absurd haC hc
        · rintro ⟨hi, hc⟩; exact ⟨.inl hi, hc⟩
      have hne : Qf L k l.toFinset v ≠ 0 := hpos l [a] rfl
      have hne2 : Qf L k (l.toFinset \ C) v ≠ 0 := fun h0 => hne (by rw [q2, h0, mul_zero])
      have hne1 : Qf L k (l.toFinset ∩ C) v ≠ 0 := fun h0 => hne (by rw [q2, h0, zero_mul])
      rw [q1, q2, e, mul_div_mul_right _ _ hne2]
      exact mul_div_cancel₀ _ hne1
    · have hf : [a].filter (· ∈ C) = [] := by simp [haC]
      rw [hf]
      have e : (l ++ [a]).toFinset ∩ C = l.toFinset ∩ C := by
        ext i; simp only [Finset.mem_inter, List.mem_toFinset, List.mem_append, List.mem_singleton]
        constructor
        · rintro ⟨hi | rfl, hc⟩
          · exact ⟨hi, hc⟩
          · exact absurd hc haC
        · rintro ⟨hi, hc⟩; exact ⟨.inl hi, hc⟩
      rw [e]; simp

variable {V : Finset α} {M : BayesNet (K := K) V E Ω}

/-- A network whose latent variables are roots. -/
theorem BayesNet.semiMarkov (M : BayesNet (K := K) V E Ω) (hac : Acyclic E) (hV : ∀ i, ∀ j ∈ V, E i j → i ∈ V)
    (hO : O ⊆ V) (hroot : ∀ l ∈ V \ O, ∀ i, ¬ E i l) : SemiMarkov O (V \ O) E M.kernel := by
  have e : O ∪ (V \ O) = V := Finset.union_sdiff_of_subset hO
  refine ⟨hac, Finset.disjoint_sdiff, ?_, hroot, fun i j hj hij => ?_⟩
  · rw [e]; exact M.kernels
  · rw [e]; exact hV i j (hO hj) hij

theorem BayesNet.P_eq_Qf (hs : SemiMarkov O (V \ O) E M.kernel) (hO : O ⊆ V) {S : Finset α} (hS : S ⊆ O)
    (hcl : ∀ j ∈ S, ∀ i ∈ O, E i j → i ∈ S) : M.P S = Qf (V \ O) M.kernel S := by
  rw [← Qf_ancestral hs hS (Finset.Subset.refl _) hcl]
  unfold BayesNet.P Qf
  have e : V \ S = (O \ S) ∪ (V \ O) := by
    ext i
    have a1 := @hO i
    have a2 := @hS i
    simp only [Finset.mem_sdiff, Finset.mem_union]; tauto
  rw [e, sumOut_union (by rw [Finset.disjoint_left]; intro i; simp; tauto), Finset.union_sdiff_of_subset hO]

theorem BayesNet.Pdo_eq_Qf (hO : O ⊆ V) {X Y : Finset α} (hX : X ⊆ O) (hY : Y ⊆ O) :
    M.Pdo X Y = sumOut (O \ (X ∪ Y)) (Qf (V \ O) M.kernel (O \ X)) := by
  unfold BayesNet.Pdo Qf
  have e : V \ (X ∪ Y) = (O \ (X ∪ Y)) ∪ (V \ O) := by
    ext i
    have a1 := @hO i
    have a2 := @hX i
    have a3 := @hY i
    simp only [Finset.mem_sdiff, Finset.mem_union]; tauto
  have e' : (O \ X) ∪ (V \ O) = V \ X := by
    ext i
    have a1 := @hO i
    have a2 := @hX i
    simp only [Finset.mem_sdiff, Finset.mem_union]; tauto
  rw [e, sumOut_union (by rw [Finset.disjoint_left]; intro i; simp; tauto), e']

end

end YL.Spec
