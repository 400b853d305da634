import Verif.Model.Forest
import Verif.Props.GrfTree
import Mathlib.LinearAlgebra.Matrix.NonsingularInverse
import Mathlib.Algebra.Order.BigOperators.Group.Finset
import Mathlib.LinearAlgebra.Matrix.ToLinearEquiv
import Mathlib.Algebra.BigOperators.Field
import Mathlib.Tactic.Positivity

/-!
# C91-C93: the generalized random forest
-/

set_option linter.unusedSectionVars false

namespace YL.Spec
open YL.Tree YL.Forest

variable {K : Type} [Field K] [LinearOrder K] {d n : Nat}

/-- what `np.linalg.inv` promises -/
def SoundInv (inv : Matrix (Fin d) (Fin d) K → Matrix (Fin d) (Fin d) K) : Prop :=
  ∀ M : Matrix (Fin d) (Fin d) K, IsUnit M.det → inv M * M = 1

/-- the rows used to label a tree that share the leaf of `q` -/
def labelled (t : Grown K n) (rows : Fin n → GSample K d) (label : List (Fin n)) (q : Nat → K) : List (Fin n) :=
  label.filter (fun i => decide (apply t.nodes (rows i).v = apply t.nodes q))

/-- the weighted covariance of treatment `k` and the outcome: the right hand side of a local regression -/
def localCov (a : Fin n → K) (x : Fin n → Fin d → K) (y : Fin n → K) (k : Fin d) : K :=
  ∑ i, a i * (x i k - ∑ j, a j * x j k) * (y i - ∑ j, a j * y j)

end YL.Spec

namespace YL.Props
open YL.Tree YL.Forest YL.Spec

variable {K : Type} [Field K] [LinearOrder K] [IsStrictOrderedRing K] {d n : Nat}

/-! ### the leaf record -/

theorem assign_mem (leaf : Fin n → Nat) : ∀ (l : List (Fin n)) (r : Fin n → Nat) (i : Fin n),
    assign leaf l r i = if i ∈ l then leaf i else r i := by
  intro l
  induction l with
  | nil => intro r i; rfl
  | cons j l ih =>
    intro r i
    show assign leaf l (Function.update r j (leaf j)) i = _
    rw [ih]
    by_cases h : i ∈ l
    · simp [h]
    · by_cases hij : i = j
      · subst hij; simp [h]
      · simp [h, hij, Function.update_of_ne hij]

theorem record_eq (E : GrfEnv K d) (g : GrfSettings K) (honest : Option Nat) (w : Option (Fin n → K))
    (rows : Fin n → GSample K d) (s : List (Fin n)) (i : Fin n) :
    (fitOne E g honest w rows s).record i =
      if i ∈ labelRows honest s then apply (fitOne E g honest w rows s).nodes (rows i).v else 0 := by
  show assign _ _ _ i = _
  rw [assign_mem]
  rfl

theorem mem_collected (t : Grown K n) (leaf : Nat) (i : Fin n) : i ∈ collected t leaf ↔ t.record i = leaf := by
  unfold collected; simp

theorem collected_nodup (t : Grown K n) (leaf : Nat) : (collected t leaf).Nodup :=
  (List.nodup_finRange n).filter _

theorem collected_length (t : Grown K n) (leaf : Nat) :
    (collected t leaf).length = (Finset.univ.filter (fun i => t.record i = leaf)).card := by
  rw [← List.toFinset_card_of_nodup (collected_nodup t leaf)]
  congr 1
  ext i
  simp [mem_collected]

theorem treeAlpha_eq (t : Grown K n) (q : Nat → K) (i : Fin n) :
    treeAlpha t q i = if t.record i = apply t.nodes q then 1 / ((collected t (apply t.nodes q)).length : K) else 0 := by
  unfold treeAlpha
  simp only [mem_collected]
  by_cases h : t.record i = apply t.nodes q
  · have : i ∈ collected t (apply t.nodes q) := (mem_collected _ _ _).mpr h
    have := List.length_pos_of_mem this
    rw [if_neg (by omega)]
  · simp [h]

theorem treeAlpha_nonneg (t : Grown K n) (q : Nat → K) (i : Fin n) : 0 ≤ treeAlpha t q i := by
  rw [treeAlpha_eq]
  split
  · positivity
  · exact le_rfl

theorem treeAlpha_sum (t : Grown K n) (q : Nat → K) :
    ∑ i, treeAlpha t q i = if ∃ i, t.record i = apply t.nodes q then 1 else 0 := by
  simp only [treeAlpha_eq]
  rw [Finset.sum_ite, Finset.sum_const_zero, add_zero, Finset.sum_const, nsmul_eq_mul, collected_length]
  by_cases h : ∃ i, t.record i = apply t.nodes q
  · rw [if_pos h]
    obtain ⟨i, hi⟩ := h
    have : 0 < (Finset.univ.filter (fun i => t.record i = apply t.nodes q)).card :=
      Finset.card_pos.mpr ⟨i, by simp [hi]⟩
    have h2 : ((Finset.univ.filter (fun i => t.record i = apply t.nodes q)).card : K) ≠ 0 := by exact_mod_cast this.ne'
    field_simp
  · rw [if_neg h]
    have : (Finset.univ.filter (fun i => t.record i = apply t.nodes q)) = ∅ := by
      ext i; simp; intro hi; exact h ⟨i, hi⟩
    rw [this]; simp

theorem alpha_sum (trees : List (Grown K n)) (q : Nat → K) :
    ∑ i, alpha trees q i = (trees.map (fun t => ∑ i, treeAlpha t q i)).sum / (trees.length : K) := by
  unfold alpha
  rw [← Finset.sum_div]
  congr 1
  induction trees with
  | nil => simp
  | cons t ts ih => simp only [List.map_cons, List.sum_cons, Finset.sum_add_distrib, ih]

/-- **C91.** The weights are never negative and sum to at most 1. -/
theorem C91_weights (trees : List (Grown K n)) (q : Nat → K) :
    (∀ i, 0 ≤ alpha trees q i) ∧ ∑ i, alpha trees q i ≤ 1 := by
  constructor
  · intro i
    unfold alpha
    apply div_nonneg _ (Nat.cast_nonneg _)
    apply List.sum_nonneg
    intro a ha
    obtain ⟨t, _, rfl⟩ := List.mem_map.mp ha
    exact treeAlpha_nonneg t q i
  · rw [alpha_sum]
    have hle : (trees.map (fun t => ∑ i, treeAlpha t q i)).sum ≤ (trees.length : K) := by
      induction trees with
      | nil => simp
      | cons t ts ih =>
        simp only [List.map_cons, List.sum_cons, List.length_cons, Nat.cast_add, Nat.cast_one]
        have h1 : ∑ i, treeAlpha t q i ≤ 1 := by
          rw [treeAlpha_sum]; split <;> simp
        linarith
    by_cases h0 : (trees.length : K) = 0
    · rw [h0]; simp
    · have : 0 < (trees.length : K) := lt_of_le_of_ne (Nat.cast_nonneg _) (Ne.symm h0)
      rw [div_le_one this]
      exact hle

/-- the root of a best-first tree with more than one node is not a leaf, so no query ends in node 0 -/
theorem apply_ne_zero {E : GrfEnv K d} (hE : SoundEnv E) (g : GrfSettings K) (w : Option (List K))
    (rows : List (GSample K d)) (h1 : 1 < (grfFit E g w rows).1.length) (q : Nat → K) :
    apply (grfFit E g w rows).1 q ≠ 0 := by
  obtain ⟨G, sp, dd, e, h, _, _⟩ := buildBest_spec (P := envParams E g w rows.length) (C := envCrit E)
    (x := fun a => a.v) (draw := E.draw) hE.heap (g.maxLeafNodes.getD 1000) rows
  have e' : grfFit E g w rows = (G.map (fun p => p.2), dd) := e
  rw [e'] at h1 ⊢
  simp only [List.length_map] at h1
  obtain ⟨r, nd, a1, a2, _⟩ := best_apply_leaf h q
  intro h0
  rw [h0] at a1
  obtain ⟨r1, n1, b1⟩ := pair_of_lt h1
  obtain ⟨p, rp, np, p1, p2, p3⟩ := h.par 1 r1 n1 (by omega) b1
  have hnl : np.left ≠ none := by
    rcases h.shape p rp np p2 with hh | ⟨s, l, nl, nr, _, hl, _⟩
    · rcases p3 with p3 | p3
      · rw [hh.1] at p3; cases p3.1
      · rw [hh.2] at p3; cases p3.1
    · rw [hl]; simp
  obtain ⟨s, l, nl, nr, s1, s2, s3, s4, s5, s6, s7, s8⟩ := inner_step h p2 hnl
  have hp : p = 0 := by
    rcases p3 with p3 | p3
    · have := p3.1; rw [s2] at this; cases this; omega
    · have := p3.1; rw [s3] at this; cases this; omega
  subst hp
  rw [p2] at a1
  cases a1
  exact hnl a2

theorem apply_single {E : GrfEnv K d} (hE : SoundEnv E) (g : GrfSettings K) (w : Option (List K))
    (rows : List (GSample K d)) (h1 : (grfFit E g w rows).1.length ≤ 1) (q : Nat → K) :
    apply (grfFit E g w rows).1 q = 0 := by
  obtain ⟨G, sp, dd, e, h, _, _⟩ := buildBest_spec (P := envParams E g w rows.length) (C := envCrit E)
    (x := fun a => a.v) (draw := E.draw) hE.heap (g.maxLeafNodes.getD 1000) rows
  have e' : grfFit E g w rows = (G.map (fun p => p.2), dd) := e
  rw [e'] at h1 ⊢
  simp only [List.length_map] at h1
  obtain ⟨r, nd, a1, a2, _⟩ := best_apply_leaf h q
  have := (List.getElem?_eq_some_iff.mp a1).1
  simp only at this ⊢
  omega

/-- **C91.** A tree that was split gives equal weights to exactly the rows it was labelled with that share the leaf of
the query, and none to any other row. -/
theorem C91_tree_weights {E : GrfEnv K d} (hE : SoundEnv E) (g : GrfSettings K) (honest : Option Nat)
    (w : Option (Fin n → K)) (rows : Fin n → GSample K d) {s : List (Fin n)} (hs : s.Nodup)
    (h1 : 1 < (fitOne E g honest w rows s).nodes.length) (q : Nat → K) (i : Fin n) :
    let t := fitOne E g honest w rows s
    let S := labelled t rows (labelRows honest s) q
    treeAlpha t q i = if i ∈ S then 1 / (S.length : K) else 0 := by
  intro t S
  have hne : apply t.nodes q ≠ 0 := apply_ne_zero hE g _ _ h1 q
  have hiff : ∀ j, t.record j = apply t.nodes q ↔ j ∈ S := by
    intro j
    rw [record_eq]
    show (if j ∈ labelRows honest s then apply t.nodes (rows j).v else 0) = _ ↔ _
    by_cases hj : j ∈ labelRows honest s
    · rw [if_pos hj]; simp [S, labelled, hj]
    · rw [if_neg hj]
      constructor
      · intro h; exact absurd h.symm hne
      · intro h; exact absurd (List.mem_of_mem_filter h) hj
  have hnd : S.Nodup := by
    apply List.Nodup.filter
    unfold labelRows
    cases honest with
    | none => exact hs
    | some h => exact hs.sublist (List.take_sublist _ _)
  have hlen : (collected t (apply t.nodes q)).length = S.length := by
    apply List.Perm.length_eq
    rw [List.perm_ext_iff_of_nodup (collected_nodup _ _) hnd]
    intro j
    rw [mem_collected, hiff]
  rw [treeAlpha_eq, hlen]
  simp only [hiff]

/-- **C91, refuted for stumps.** A tree that was not split gives every training row the weight `1 / n`, whether or not
the row is in its sub-sample and whether or not it is a label row. -/
theorem C91_stump_refuted {E : GrfEnv K d} (hE : SoundEnv E) (g : GrfSettings K) (honest : Option Nat)
    (w : Option (Fin n → K)) (rows : Fin n → GSample K d) (s : List (Fin n))
    (h1 : (fitOne E g honest w rows s).nodes.length ≤ 1) (q : Nat → K) (i : Fin n) :
    treeAlpha (fitOne E g honest w rows s) q i = 1 / (n : K) := by
  have h0 : ∀ q, apply (fitOne E g honest w rows s).nodes q = 0 := fun q => apply_single hE g _ _ h1 q
  have hr : ∀ j, (fitOne E g honest w rows s).record j = 0 := by
    intro j
    rw [record_eq, h0]
    simp
  have hl : (collected (fitOne E g honest w rows s) 0).length = n := by
    rw [collected_length]
    simp [hr]
  rw [treeAlpha_eq, hr, h0, hl, if_pos rfl]

theorem labelled_nonempty {E : GrfEnv K d} (hE : SoundEnv E) (g : GrfSettings K) (w : Option (Fin n → K))
    (rows : Fin n → GSample K d) (s : List (Fin n)) (q : Nat → K)
    (h1 : 1 < (fitOne E g none w rows s).nodes.length) :
    ∃ i ∈ s, apply (fitOne E g none w rows s).nodes (rows i).v = apply (fitOne E g none w rows s).nodes q := by
  obtain ⟨m, m1, m2, m3, m4, m5⟩ := C87_leaf_size (P := envParams E g (w.map (fun w => s.map w)) (s.map rows).length)
    (C := envCrit E) (x := fun a => a.v) (draw := E.draw) (envParams_sound hE g _ _) (fun l => grfCriterion_sound _)
    hE.heap (g.maxLeafNodes.getD 1000) (s.map rows) q
  have hpos := (m5 h1).2
  rw [m4] at hpos
  obtain ⟨a, ha⟩ := List.exists_mem_of_length_pos hpos
  unfold mates at ha
  rw [List.mem_filter, decide_eq_true_eq] at ha
  obtain ⟨i, hi, rfl⟩ := List.mem_map.mp ha.1
  exact ⟨i, hi, ha.2⟩

/-- **C91.** In a forest that is not honest the weights of the training rows sum to 1 for every query. -/
theorem C91_sum_one (E : Nat → GrfEnv K d) (hE : ∀ k, SoundEnv (E k)) (g : GrfSettings K)
    (w : Option (Fin n → K)) (rows : Fin n → GSample K d) (hn : 0 < n) (ss : List (Nat × List (Fin n))) (hss : ss ≠ [])
    (q : Nat → K) :
    ∑ i, alpha (ss.map (fun p => fitOne (E p.1) g none w rows p.2)) q i = 1 := by
  rw [alpha_sum]
  have : ∀ t ∈ ss.map (fun p => fitOne (E p.1) g none w rows p.2), ∑ i, treeAlpha t q i = (1 : K) := by
    intro t ht
    obtain ⟨p, _, rfl⟩ := List.mem_map.mp ht
    by_cases h1 : 1 < (fitOne (E p.1) g none w rows p.2).nodes.length
    · rw [treeAlpha_sum, if_pos]
      obtain ⟨i, hi, he⟩ := labelled_nonempty (hE p.1) g w rows p.2 q h1
      refine ⟨i, ?_⟩
      rw [record_eq, if_pos (by exact hi)]
      exact he
    · have : ∀ i, treeAlpha (fitOne (E p.1) g none w rows p.2) q i = 1 / (n : K) :=
        fun i => C91_stump_refuted (hE p.1) g none w rows p.2 (by omega) q i
      simp only [this, Finset.sum_const, Finset.card_univ, Fintype.card_fin, nsmul_eq_mul]
      have : (n : K) ≠ 0 := by exact_mod_cast hn.ne'
      field_simp
  rw [List.map_congr_left this]
  have hl : ((ss.map (fun p => fitOne (E p.1) g none w rows p.2)).length : K) ≠ 0 := by
    have := List.length_pos_of_ne_nil hss
    rw [List.length_map]
    exact_mod_cast this.ne'
  simp only [List.map_const', List.sum_replicate, nsmul_eq_mul, mul_one]
  exact div_self hl

/-! ### the estimate -/

theorem sum_xDif {a : Fin n → K} (ha : ∑ i, a i = 1) (x : Fin n → Fin d → K) (k : Fin d) :
    ∑ i, a i * xDif a x i k = 0 := by
  unfold xDif
  simp only [mul_sub, Finset.sum_sub_distrib, ← Finset.sum_mul, ha]
  unfold wMean
  simp

/-- the right hand side the forest uses is that of a local regression minus a term with squared weights -/
theorem C92_formula {a : Fin n → K} (ha : ∑ i, a i = 1) (x : Fin n → Fin d → K) (y : Fin n → K) (k : Fin d) :
    thetaNum a x y k = localCov a x y k - ∑ i, a i ^ 2 * y i * (x i k - ∑ j, a j * x j k) := by
  have h0 := sum_xDif ha x k
  unfold thetaNum localCov
  unfold xDif wMean at h0 ⊢
  rw [← Finset.sum_sub_distrib]
  have : ∀ i, a i * (x i k - ∑ j, a j * x j k) * (y i - ∑ j, a j * y j) - a i ^ 2 * y i * (x i k - ∑ j, a j * x j k) =
      a i * (y i - a i * y i) * (x i k - ∑ j, a j * x j k) -
        (a i * (x i k - ∑ j, a j * x j k)) * (∑ j, a j * y j) := by
    intro i; ring
  simp only [this, Finset.sum_sub_distrib, ← Finset.sum_mul, h0]
  ring

/-- **C92.** The estimate is linear in the outcomes. -/
theorem C92_linear (inv : Matrix (Fin d) (Fin d) K → Matrix (Fin d) (Fin d) K) (eps : K) (a : Fin n → K)
    (x : Fin n → Fin d → K) (y y' : Fin n → K) (c c' : K) :
    effectOf inv eps a x (fun i => c * y i + c' * y' i) =
      fun k => c * effectOf inv eps a x y k + c' * effectOf inv eps a x y' k := by
  have h : thetaNum a x (fun i => c * y i + c' * y' i) = c • thetaNum a x y + c' • thetaNum a x y' := by
    funext k
    simp only [thetaNum, Pi.add_apply, Pi.smul_apply, smul_eq_mul, Finset.mul_sum, ← Finset.sum_add_distrib]
    apply Finset.sum_congr rfl
    intro i _
    ring
  unfold effectOf
  rw [h, Matrix.mulVec_add, Matrix.mulVec_smul, Matrix.mulVec_smul]
  funext k
  simp

/-- **C92.** Measuring the treatments from another origin does not change the estimate. -/
theorem C92_treatment_shift (inv : Matrix (Fin d) (Fin d) K → Matrix (Fin d) (Fin d) K) (eps : K) {a : Fin n → K}
    (ha : ∑ i, a i = 1) (x : Fin n → Fin d → K) (y : Fin n → K) (c : Fin d → K) :
    effectOf inv eps a (fun i k => x i k + c k) y = effectOf inv eps a x y := by
  have h : xDif a (fun i k => x i k + c k) = xDif a x := by
    funext i k
    unfold xDif wMean
    simp only [mul_add, Finset.sum_add_distrib, ← Finset.sum_mul, ha]
    ring
  unfold effectOf gradient thetaNum
  rw [h]

theorem gradient_quadratic (eps : K) (a : Fin n → K) (x : Fin n → Fin d → K) (u : Fin d → K) :
    ∑ j, u j * ((gradient eps a x).mulVec u) j =
      ∑ i, a i * (∑ j, u j * xDif a x i j) ^ 2 + eps * ∑ j, u j ^ 2 := by
  have e : ∀ j, ((gradient eps a x).mulVec u) j =
      (∑ i, a i * xDif a x i j * (∑ k, u k * xDif a x i k)) + eps * u j := by
    intro j
    unfold Matrix.mulVec dotProduct gradient
    simp only [Matrix.of_apply, add_mul, Finset.sum_add_distrib, ite_mul, zero_mul, Finset.sum_ite_eq, Finset.mem_univ,
      if_true, Finset.sum_mul]
    congr 1
    rw [Finset.sum_comm]
    apply Finset.sum_congr rfl
    intro i _
    rw [Finset.mul_sum]
    apply Finset.sum_congr rfl
    intro k _
    ring
  simp only [e, mul_add, Finset.sum_add_distrib]
  congr 1
  · have key : ∀ T : Fin n → K, ∑ j, u j * ∑ i, a i * xDif a x i j * T i = ∑ i, a i * T i * ∑ j, u j * xDif a x i j := by
      intro T
      simp only [Finset.mul_sum]
      rw [Finset.sum_comm]
      apply Finset.sum_congr rfl
      intro i _
      apply Finset.sum_congr rfl
      intro j _
      ring
    rw [key]
    apply Finset.sum_congr rfl
    intro i _
    ring
  · rw [Finset.mul_sum]
    apply Finset.sum_congr rfl
    intro j _
    ring

/-- **C92.** With weights that are not negative and a positive ridge term the matrix is invertible, whatever the
treatments are: the estimate never fails on a singular matrix. -/
theorem C92_solvable {eps : K} (heps : 0 < eps) {a : Fin n → K} (ha : ∀ i, 0 ≤ a i) (x : Fin n → Fin d → K) :
    IsUnit (gradient eps a x).det := by
  rw [isUnit_iff_ne_zero]
  intro h0
  obtain ⟨u, hu, hz⟩ := Matrix.exists_mulVec_eq_zero_iff.mpr h0
  have hq := gradient_quadratic eps a x u
  rw [hz] at hq
  simp only [Pi.zero_apply, mul_zero, Finset.sum_const_zero] at hq
  have h1 : 0 ≤ ∑ i, a i * (∑ j, u j * xDif a x i j) ^ 2 :=
    Finset.sum_nonneg (fun i _ => mul_nonneg (ha i) (sq_nonneg _))
  have h2 : 0 < ∑ j, u j ^ 2 := by
    obtain ⟨j, hj⟩ : ∃ j, u j ≠ 0 := by
      by_contra hn
      apply hu
      funext j
      by_contra hj
      exact hn ⟨j, hj⟩
    apply Finset.sum_pos'
    · intro i _; exact sq_nonneg _
    · exact ⟨j, Finset.mem_univ _, by positivity⟩
  have := mul_pos heps h2
  linarith

/-- **C92.** The estimate solves the ridge equations of its right hand side, for every forest and query. -/
theorem C92_equations {inv : Matrix (Fin d) (Fin d) K → Matrix (Fin d) (Fin d) K} (hinv : SoundInv inv) {eps : K}
    (heps : 0 < eps) (trees : List (Grown K n)) (q : Nat → K) (x : Fin n → Fin d → K) (y : Fin n → K) :
    (gradient eps (alpha trees q) x).mulVec (effectOf inv eps (alpha trees q) x y) =
      thetaNum (alpha trees q) x y := by
  have h := C92_solvable heps (C91_weights trees q).1 x
  have h1 := hinv _ h
  have h2 : gradient eps (alpha trees q) x * inv (gradient eps (alpha trees q) x) = 1 :=
    mul_eq_one_comm.mp h1
  unfold effectOf
  rw [Matrix.mulVec_mulVec, h2, Matrix.one_mulVec]

/-- **C92.** Equal weights on `m` rows: what the forest uses instead of the covariance of treatment and outcome is
`1 - 1/m` times that covariance. -/
theorem uniform_num {S : Finset (Fin n)} (hS : S.Nonempty) (x : Fin n → Fin d → K) (y : Fin n → K) :
    let a : Fin n → K := fun i => if i ∈ S then 1 / (S.card : K) else 0
    ∑ i, a i = 1 ∧ thetaNum a x y = fun k => (1 - 1 / (S.card : K)) * localCov a x y k := by
  intro a
  have hc : (S.card : K) ≠ 0 := by
    have := Finset.card_pos.mpr hS
    exact_mod_cast this.ne'
  have ha : ∑ i, a i = 1 := by
    simp only [a, Finset.sum_ite_mem, Finset.univ_inter, Finset.sum_const, nsmul_eq_mul]
    field_simp
  refine ⟨ha, ?_⟩
  funext k
  rw [C92_formula ha]
  have h2 : ∀ i, a i ^ 2 * y i * (x i k - ∑ j, a j * x j k) =
      1 / (S.card : K) * (a i * xDif a x i k * y i) := by
    intro i
    have : a i ^ 2 = 1 / (S.card : K) * a i := by
      simp only [a]
      split
      · ring
      · simp
    rw [this]
    unfold xDif wMean
    ring
  have h3 : ∑ i, a i * xDif a x i k * y i = localCov a x y k := by
    unfold localCov
    have h0 := sum_xDif ha x k
    have : ∀ i, a i * (x i k - ∑ j, a j * x j k) * (y i - ∑ j, a j * y j) =
        a i * xDif a x i k * y i - a i * xDif a x i k * ∑ j, a j * y j := by
      intro i; unfold xDif wMean; ring
    simp only [this, Finset.sum_sub_distrib, ← Finset.sum_mul, h0]
    ring
  simp only [h2, ← Finset.mul_sum, h3]
  ring

/-- **C92, refuted: attenuation.** When all weight lies evenly on `m` rows, as in a forest of one tree with `m` rows in
the leaf, the estimate is `1 - 1/m` times the coefficient of the local (ridge) regression: half of it for two rows, 0
for a single row. -/
theorem C92_attenuated_refuted (inv : Matrix (Fin d) (Fin d) K → Matrix (Fin d) (Fin d) K) (eps : K) {S : Finset (Fin n)}
    (hS : S.Nonempty) (x : Fin n → Fin d → K) (y : Fin n → K) :
    let a : Fin n → K := fun i => if i ∈ S then 1 / (S.card : K) else 0
    effectOf inv eps a x y = fun k => (1 - 1 / (S.card : K)) * ((inv (gradient eps a x)).mulVec (localCov a x y)) k := by
  intro a
  unfold effectOf
  rw [(uniform_num hS x y).2]
  have : (fun k => (1 - 1 / (S.card : K)) * localCov a x y k) = (1 - 1 / (S.card : K)) • localCov a x y := by
    funext k; simp
  rw [this, Matrix.mulVec_smul]
  funext k
  simp

/-- **C92.** For outcomes that are exactly linear in the treatments, `y = c + tau . x`, the covariance is the matrix
without ridge term applied to `tau`; so a local regression would return `tau` up to the ridge term. -/
theorem C92_linear_outcome {a : Fin n → K} (ha : ∑ i, a i = 1) (x : Fin n → Fin d → K) (c : K) (tau : Fin d → K) :
    localCov a x (fun i => c + ∑ k, tau k * x i k) = (gradient 0 a x).mulVec tau := by
  funext k
  have hy : ∀ i, (c + ∑ l, tau l * x i l) - ∑ j, a j * (c + ∑ l, tau l * x j l) = ∑ l, tau l * xDif a x i l := by
    intro i
    have : ∑ j, a j * (c + ∑ l, tau l * x j l) = c + ∑ l, tau l * wMean a x l := by
      simp only [mul_add, Finset.sum_add_distrib, ← Finset.sum_mul, ha, one_mul]
      congr 1
      unfold wMean
      simp only [Finset.mul_sum]
      rw [Finset.sum_comm]
      apply Finset.sum_congr rfl
      intro l _
      apply Finset.sum_congr rfl
      intro j _
      ring
    rw [this]
    unfold xDif
    simp only [mul_sub, Finset.sum_sub_distrib]
    ring
  unfold localCov
  simp only [hy]
  unfold Matrix.mulVec dotProduct gradient
  simp only [Matrix.of_apply, ite_self, add_zero, Finset.sum_mul]
  rw [Finset.sum_comm]
  apply Finset.sum_congr rfl
  intro i _
  rw [Finset.mul_sum]
  apply Finset.sum_congr rfl
  intro l _
  unfold xDif wMean
  ring

/-! ### the interface -/

theorem batches_flatten {B : Type} (size : Nat) (hs : 0 < size) : ∀ (fuel : Nat) (l : List B), l.length ≤ fuel →
    (batches size fuel l).flatten = l ∧ (l ≠ [] → batches size fuel l ≠ []) := by
  intro fuel
  induction fuel with
  | zero =>
    intro l hl
    have : l = [] := List.length_eq_zero_iff.mp (by omega)
    subst this
    exact ⟨rfl, fun h => absurd rfl h⟩
  | succ fuel ih =>
    intro l hl
    unfold batches
    by_cases h0 : l.length = 0
    · have : l = [] := List.length_eq_zero_iff.mp h0
      subst this
      exact ⟨rfl, fun h => absurd rfl h⟩
    · rw [if_neg h0]
      refine ⟨?_, by simp⟩
      rw [List.flatten_cons, (ih (l.drop size) (by rw [List.length_drop]; omega)).1, List.take_append_drop]

theorem allBatches_map {B C : Type} (f : B → C) (g : List B → Except String (List C)) (hg : ∀ b, g b = .ok (b.map f)) :
    ∀ l : List (List B), allBatches g l = .ok (l.map (fun b => b.map f)) := by
  intro l
  induction l with
  | nil => rfl
  | cons b bs ih =>
    unfold allBatches
    rw [hg, ih]
    rfl

/-- **C93.** `estimate(data)` for non-empty data returns one effect per row, that of the row alone: neither the size of
the batches nor the other rows matter. -/
theorem C93_rowwise (inv : Matrix (Fin d) (Fin d) K → Matrix (Fin d) (Fin d) K) (eps : K) {batch : Nat} (hb : 0 < batch)
    (f : Fitted K d n) (hf : f.outputs ≤ 1) (data : List (Nat → K)) (hd : data ≠ []) :
    estimate inv eps batch f (some data) = .ok (data.map (fun q =>
      effectOf inv eps (alpha f.trees q) (fun i => (f.rows i).x) (fun i => (f.rows i).y))) := by
  obtain ⟨h1, h2⟩ := batches_flatten batch hb data.length data le_rfl
  unfold Forest.estimate
  simp only
  rw [allBatches_map (fun q => effectOf inv eps (alpha f.trees q) (fun i => (f.rows i).x) (fun i => (f.rows i).y))]
  · show concatenate _ = _
    unfold concatenate
    rw [if_neg (by rw [List.length_map]; intro h; exact h2 hd (List.length_eq_zero_iff.mp h))]
    congr 1
    rw [← List.map_flatten, h1]
  · intro b
    unfold batchEffects
    rw [if_neg (by omega)]

/-- **C93, refuted for no rows.** `estimate` of an empty data frame is an error. -/
theorem C93_empty_refuted (inv : Matrix (Fin d) (Fin d) K → Matrix (Fin d) (Fin d) K) (eps : K) (batch : Nat)
    (f : Fitted K d n) : ∃ e, estimate inv eps batch f (some []) = .error e := ⟨_, rfl⟩

/-- **C93.** `estimate()` is `estimate` of the training covariates. -/
theorem C93_default (inv : Matrix (Fin d) (Fin d) K → Matrix (Fin d) (Fin d) K) (eps : K) (batch : Nat)
    (f : Fitted K d n) :
    estimate inv eps batch f none = estimate inv eps batch f (some ((List.finRange n).map (fun i => (f.rows i).v))) := rfl

/-- **C93.** Several outcomes can be fitted, but never estimated. -/
theorem C93_outputs_refuted (inv : Matrix (Fin d) (Fin d) K → Matrix (Fin d) (Fin d) K) (eps : K) (batch : Nat)
    (f : Fitted K d n) (hf : 1 < f.outputs) (data : Option (List (Nat → K))) :
    ∃ e, estimate inv eps batch f data = .error e := by
  have key : ∀ l : List (Nat → K), ∃ e, estimate inv eps batch f (some l) = .error e := by
    intro l
    cases l with
    | nil => exact ⟨_, rfl⟩
    | cons q qs =>
      refine ⟨"ValueError: more than one output", ?_⟩
      unfold Forest.estimate
      simp only [List.length_cons]
      unfold batches
      rw [if_neg (by simp)]
      unfold allBatches batchEffects
      rw [if_pos hf]
  cases data with
  | none => rw [C93_default]; exact key _
  | some l => exact key l

/-! ### fitting -/

theorem draws_ok (draw : Nat → Nat → List (Fin n)) (m : Int) : ∀ (c k : Nat),
    (∃ ss, draws draw m k c = .ok ss) ↔ (c = 0 ∨ (0 ≤ m ∧ m ≤ n)) := by
  intro c
  induction c with
  | zero => intro k; exact ⟨fun _ => Or.inl rfl, fun _ => ⟨[], rfl⟩⟩
  | succ c ih =>
    intro k
    unfold draws choice
    constructor
    · rintro ⟨ss, h⟩
      right
      by_cases h1 : m < 0
      · rw [if_pos h1] at h; cases h
      · rw [if_neg h1] at h
        by_cases h2 : (n : Int) < m
        · rw [if_pos h2] at h; cases h
        · omega
    · rintro (h | ⟨h1, h2⟩)
      · omega
      · obtain ⟨ss, hs⟩ := (ih (k + 1)).mpr (Or.inr ⟨h1, h2⟩)
        rw [if_neg (by omega), if_neg (by omega)]
        simp only
        rw [hs]
        exact ⟨_, rfl⟩

theorem draws_spec (draw : Nat → Nat → List (Fin n)) (m : Int) : ∀ (c k : Nat) (ss : List (List (Fin n))),
    draws draw m k c = .ok ss → ss.length = c ∧ ∀ i s, ss[i]? = some s → s = draw (k + i) m.toNat := by
  intro c
  induction c with
  | zero => intro k ss h; cases h; exact ⟨rfl, by intro i s h; simp at h⟩
  | succ c ih =>
    intro k ss h
    unfold draws choice at h
    by_cases h1 : m < 0
    · rw [if_pos h1] at h; cases h
    · rw [if_neg h1] at h
      by_cases h2 : (n : Int) < m
      · rw [if_pos h2] at h; cases h
      · rw [if_neg h2] at h
        simp only at h
        cases hd : draws draw m (k + 1) c with
        | error e => rw [hd] at h; cases h
        | ok ss' =>
          rw [hd] at h
          cases h
          obtain ⟨a1, a2⟩ := ih (k + 1) ss' hd
          refine ⟨by simp [a1], ?_⟩
          intro i s hi
          cases i with
          | zero => simp at hi; rw [← hi]; rfl
          | succ i =>
            have := a2 i s (by simpa using hi)
            rw [this]
            congr 1
            omega

/-- **C93.** Exactly when `fit` succeeds: the number of samples per tree is a count of at most `n` rows or a share;
`honest_subsample_num` is not a whole number; `n_estimators` is positive and not below the number of trees kept; and if
any tree is to be grown, the number of samples per tree lies between 0 and `n`. -/
theorem C93_fit_iff (E : Nat → GrfEnv K d) (g : GrfSettings K) (S : Settings) (dflt : Nat → Int)
    (draw : Nat → Nat → List (Fin n)) (w : Option (Fin n → K)) (rows : Fin n → GSample K d) (o : Nat)
    (old : Option (List (Grown K n))) :
    (∃ f, fitForest E g S dflt draw w rows o old = .ok f) ↔
      ∃ m : Int, subSampleNum dflt n S.subSample = .ok m ∧ (∀ c, S.honest ≠ .count c) ∧ 0 < S.nEstimators ∧
        ((kept S old).length : Int) ≤ S.nEstimators ∧
        (S.nEstimators = (kept S old).length ∨ (0 ≤ m ∧ m ≤ n)) := by
  unfold fitForest
  cases hm : subSampleNum dflt n S.subSample with
  | error e =>
    constructor
    · rintro ⟨f, hf⟩; cases hf
    · rintro ⟨m, h, _⟩; cases h
  | ok m =>
    simp only
    have hhon : (∀ c, S.honest ≠ .count c) ↔ ∃ h, honestNum m.toNat S.honest = .ok h := by
      cases S.honest with
      | absent => exact ⟨fun _ => ⟨_, rfl⟩, fun _ c h => by cases h⟩
      | count c => exact ⟨fun h => absurd rfl (h c), fun ⟨h, hh⟩ => by cases hh⟩
      | share r => exact ⟨fun _ => ⟨_, rfl⟩, fun _ c h => by cases h⟩
    rw [hhon]
    cases hh : honestNum m.toNat S.honest with
    | error e =>
      constructor
      · rintro ⟨f, hf⟩; cases hf
      · rintro ⟨m', _, ⟨h, h'⟩, _⟩; cases h'
    | ok h =>
      simp only
      by_cases h1 : S.nEstimators ≤ 0
      · rw [if_pos h1]
        constructor
        · rintro ⟨f, hf⟩; cases hf
        · rintro ⟨m', _, _, h3, _⟩; omega
      · rw [if_neg h1]
        by_cases h2 : S.nEstimators < ((kept S old).length : Int)
        · rw [if_pos h2]
          constructor
          · rintro ⟨f, hf⟩; cases hf
          · rintro ⟨m', _, _, _, h3, _⟩; omega
        · rw [if_neg h2]
          have hd := draws_ok draw m (S.nEstimators - (kept S old).length).toNat 0
          constructor
          · rintro ⟨f, hf⟩
            refine ⟨m, rfl, ⟨h, rfl⟩, by omega, by omega, ?_⟩
            have : ∃ ss, draws draw m 0 (S.nEstimators - (kept S old).length).toNat = .ok ss := by
              cases hds : draws draw m 0 (S.nEstimators - (kept S old).length).toNat with
              | error e => rw [hds] at hf; cases hf
              | ok ss => exact ⟨ss, rfl⟩
            rcases hd.mp this with h3 | h3
            · left; omega
            · exact Or.inr h3
          · rintro ⟨m', h3, _, _, _, h4⟩
            cases h3
            obtain ⟨ss, hss⟩ := hd.mpr (by
              rcases h4 with h4 | h4
              · left; omega
              · exact Or.inr h4)
            rw [hss]
            exact ⟨_, rfl⟩

/-- **C93.** After a successful `fit` there are `n_estimators` trees; those kept come first, unchanged, and tree `k` of
the new ones is grown and labelled with the `k`-th draw, whatever the order in which the trees are fitted. -/
theorem C93_trees (E : Nat → GrfEnv K d) (g : GrfSettings K) (S : Settings) (dflt : Nat → Int)
    (draw : Nat → Nat → List (Fin n)) (w : Option (Fin n → K)) (rows : Fin n → GSample K d) (o : Nat)
    (old : Option (List (Grown K n))) {f : Fitted K d n}
    (hf : fitForest E g S dflt draw w rows o old = .ok f) :
    (f.trees.length : Int) = S.nEstimators ∧ f.rows = rows ∧
    ∃ (m : Int) (h : Option Int), subSampleNum dflt n S.subSample = .ok m ∧ honestNum m.toNat S.honest = .ok h ∧
      ∃ new, f.trees = kept S old ++ new ∧
        ∀ k t, new[k]? = some t → t = fitOne (E k) g (h.map Int.toNat) w rows (draw k m.toNat) := by
  unfold fitForest at hf
  cases hm : subSampleNum dflt n S.subSample with
  | error e => rw [hm] at hf; cases hf
  | ok m =>
    rw [hm] at hf
    simp only at hf
    cases hh : honestNum m.toNat S.honest with
    | error e => rw [hh] at hf; cases hf
    | ok h =>
      rw [hh] at hf
      simp only at hf
      by_cases h1 : S.nEstimators ≤ 0
      · rw [if_pos h1] at hf; cases hf
      · rw [if_neg h1] at hf
        by_cases h2 : S.nEstimators < ((kept S old).length : Int)
        · rw [if_pos h2] at hf; cases hf
        · rw [if_neg h2] at hf
          cases hds : draws draw m 0 (S.nEstimators -
              ((kept S old).length : Int)).toNat with
          | error e => rw [hds] at hf; cases hf
          | ok ss =>
            rw [hds] at hf
            cases hf
            obtain ⟨l1, l2⟩ := draws_spec draw m _ 0 ss hds
            refine ⟨?_, rfl, m, h, rfl, hh, _, rfl, ?_⟩
            · simp only [List.length_append, List.length_mapIdx, Nat.cast_add, l1]
              omega
            · intro k t hk
              rw [List.getElem?_mapIdx] at hk
              cases hs : ss[k]? with
              | none => rw [hs] at hk; cases hk
              | some s =>
                rw [hs] at hk
                cases hk
                rw [l2 k s hs, Nat.zero_add]

/-- **C93.** The setting for the number of samples per tree: without it every new tree gets the default number; a whole number
is taken literally and refused when there are fewer rows; a share is rounded. -/
theorem C93_sub_samples (E : Nat → GrfEnv K d) (g : GrfSettings K) (S : Settings) (dflt : Nat → Int)
    (draw : Nat → Nat → List (Fin n)) (w : Option (Fin n → K)) (rows : Fin n → GSample K d) (o : Nat)
    (old : Option (List (Grown K n))) :
    (∀ m : Int, S.subSample = .count m → (n : Int) < m → ∃ e, fitForest E g S dflt draw w rows o old = .error e) ∧
    (∀ f, fitForest E g S dflt draw w rows o old = .ok f → ∃ h : Option Nat, ∃ new, f.trees = kept S old ++ new ∧
      ∀ k t, new[k]? = some t →
        (S.subSample = .absent → t = fitOne (E k) g h w rows (draw k (dflt n).toNat)) ∧
        (∀ m : Int, S.subSample = .count m → m ≤ n ∧ t = fitOne (E k) g h w rows (draw k m.toNat)) ∧
        (∀ r, S.subSample = .share r → t = fitOne (E k) g h w rows (draw k (r n).toNat))) ∧
    (∀ m : Int, S.subSample = .count m → 0 ≤ m → m ≤ n → S.honest = .absent → 0 < S.nEstimators →
      ((kept S old).length : Int) ≤ S.nEstimators → ∃ f, fitForest E g S dflt draw w rows o old = .ok f) := by
  refine ⟨fun m hm hlt => ?_, fun f hf => ?_, fun m hm h0 h1 hh hn hk => ?_⟩
  · cases hf : fitForest E g S dflt draw w rows o old with
    | error e => exact ⟨e, rfl⟩
    | ok f =>
      obtain ⟨m', h, _⟩ := (C93_fit_iff E g S dflt draw w rows o old).mp ⟨f, hf⟩
      rw [hm, show subSampleNum dflt n (.count m) = .error "ValueError: sub_samples_num" from if_pos hlt] at h
      cases h
  · obtain ⟨_, _, m, h, h1, _, new, h2, h3⟩ := C93_trees E g S dflt draw w rows o old hf
    refine ⟨h.map Int.toNat, new, h2, fun k t hk => ⟨fun ha => ?_, fun m' ha => ?_, fun r ha => ?_⟩⟩
    · rw [ha] at h1
      cases h1
      exact h3 k t hk
    · rw [ha] at h1
      by_cases hlt : (n : Int) < m'
      · rw [show subSampleNum dflt n (.count m') = .error "ValueError: sub_samples_num" from if_pos hlt] at h1
        cases h1
      · rw [show subSampleNum dflt n (.count m') = .ok m' from if_neg hlt] at h1
        cases h1
        exact ⟨not_lt.mp hlt, h3 k t hk⟩
    · rw [ha] at h1
      cases h1
      exact h3 k t hk
  · have e1 : subSampleNum dflt n S.subSample = .ok m := by
      rw [hm]; exact if_neg (not_lt.mpr h1)
    have e2 : ∀ c, S.honest ≠ .count c := by
      intro c hc
      rw [hh] at hc
      cases hc
    exact (C93_fit_iff E g S dflt draw w rows o old).mpr ⟨m, e1, e2, hn, hk, Or.inr ⟨h0, h1⟩⟩

/-- **C93, refuted for whole numbers.** `honest_subsample_num` given as a number of samples never works. -/
theorem C93_honest_count_refuted (E : Nat → GrfEnv K d) (g : GrfSettings K) (S : Settings) (dflt : Nat → Int)
    (draw : Nat → Nat → List (Fin n)) (w : Option (Fin n → K)) (rows : Fin n → GSample K d) (o : Nat)
    (old : Option (List (Grown K n))) (c : Int) (hc : S.honest = .count c) :
    ∃ e, fitForest E g S dflt draw w rows o old = .error e := by
  cases hf : fitForest E g S dflt draw w rows o old with
  | error e => exact ⟨e, rfl⟩
  | ok f =>
    obtain ⟨m, _, h, _⟩ := (C93_fit_iff E g S dflt draw w rows o old).mp ⟨f, hf⟩
    exact absurd hc (h c)

/-- **C93.** Honesty: the rows a tree is grown on and the rows it is labelled with are disjoint and together the
sub-sample. -/
theorem C93_honest_disjoint (h : Nat) {s : List (Fin n)} (hs : s.Nodup) :
    (∀ i, i ∈ labelRows (some h) s → i ∉ growRows (some h) s) ∧ labelRows (some h) s ++ growRows (some h) s = s := by
  have e : labelRows (some h) s ++ growRows (some h) s = s := List.take_append_drop h s
  refine ⟨?_, e⟩
  intro i h1 h2
  rw [← e] at hs
  exact (List.nodup_append.mp hs).2.2 i h1 i h2 rfl

/-- **C93, refuted for the sizes.** The documentation says that `honest_subsample_num * sub_sample_num` samples train a
tree and the rest label it; it is the other way round. -/
theorem C93_honest_sizes_refuted (h : Nat) {s : List (Fin n)} (hs : h ≤ s.length) :
    (labelRows (some h) s).length = h ∧ (growRows (some h) s).length = s.length - h := by
  unfold labelRows growRows
  simp [hs]

/-! ### concrete forests -/

/-- the inverse of a 1 x 1 matrix -/
def inv1 (M : Matrix (Fin 1) (Fin 1) ℚ) : Matrix (Fin 1) (Fin 1) ℚ := Matrix.of (fun _ _ => 1 / M 0 0)

theorem inv1_sound : SoundInv inv1 := by
  intro M hM
  rw [isUnit_iff_ne_zero, Matrix.det_fin_one] at hM
  ext i j
  have hi : i = 0 := Subsingleton.elim _ _
  have hj : j = 0 := Subsingleton.elim _ _
  subst hi hj
  rw [Matrix.mul_apply]
  simp [inv1, hM]

/-- three samples, all with outcome 1 -/
def flatRows : Fin 3 → GSample ℚ 1 := fun i => gs (i.1 : ℚ) (i.1 : ℚ) 1

/-- the draws of three trees -/
def flatDraw : Nat → Nat → List (Fin 3)
  | 0, _ => [0, 2]
  | 1, _ => [0, 2]
  | _, _ => [1, 2]

/-- the forest fitted to them -/
def flatForest : Except String (Fitted ℚ 1 3) :=
  fitForest (fun _ => stdEnv) (leaves none) ⟨3, false, .count 2, .absent⟩ (fun n => n) flatDraw none flatRows 1 none

/-- its estimates -/
def flatEffects (q : List (Nat → ℚ)) : Option (List ℚ) :=
  match flatForest with
  | .error _ => none
  | .ok f => match Forest.estimate inv1 (1 / 100000) 100 f (some q) with
    | .error _ => none
    | .ok l => some (l.map (fun t => t 0))

/-- its weights -/
def flatAlpha (q : Nat → ℚ) : Option (List ℚ) :=
  match flatForest with
  | .error _ => none
  | .ok f => some ((List.finRange 3).map (alpha f.trees q))

example : flatAlpha (fun _ => 1) = some [2 / 3, 1 / 3, 0] ∧ flatAlpha (fun _ => 2) = some [0, 0, 1] := by decide +kernel

/-- **C92, refuted for constant outcomes.** All outcomes are 1, and the forest reports an effect of about 1/3. -/
theorem C92_constant_outcome_refuted :
    (∀ i, (flatRows i).y = 1) ∧ flatEffects [fun _ => 1] = some [(2 / 27) / (2 / 9 + 1 / 100000)] := by
  constructor
  · intro i; rfl
  · decide +kernel

/-- **C91.** For every forest fitted afresh without honesty, the weights sum to 1 at every query. -/
theorem C91_fit_sum_one (E : Nat → GrfEnv K d) (hE : ∀ k, SoundEnv (E k)) (g : GrfSettings K) (S : Settings)
    (dflt : Nat → Int) (draw : Nat → Nat → List (Fin n)) (w : Option (Fin n → K)) (rows : Fin n → GSample K d) (o : Nat)
    (hn : 0 < n) (hh : S.honest = .absent) {f : Fitted K d n}
    (hf : fitForest E g S dflt draw w rows o none = .ok f) (q : Nat → K) : ∑ i, alpha f.trees q i = 1 := by
  obtain ⟨h1, h2, m, h, h3, h4, new, h5, h6⟩ := C93_trees E g S dflt draw w rows o none hf
  obtain ⟨_, _, _, hpos, _, _⟩ := (C93_fit_iff E g S dflt draw w rows o none).mp ⟨f, hf⟩
  have hk : kept S (none : Option (List (Grown K n))) = [] := by unfold kept; split <;> rfl
  rw [hk, List.nil_append] at h5
  rw [hh] at h4
  have hno : h = none := by unfold Forest.honestNum at h4; cases h4; rfl
  subst hno
  have hnew : new = ((List.range new.length).map (fun k => (k, draw k m.toNat))).map
      (fun p => fitOne (E p.1) g none w rows p.2) := by
    apply List.ext_getElem?
    intro k
    rw [List.map_map, List.getElem?_map]
    cases hk : new[k]? with
    | none =>
      have : new.length ≤ k := List.getElem?_eq_none_iff.mp hk
      rw [List.getElem?_eq_none (by simpa using this)]
      rfl
    | some t =>
      have hlt : k < new.length := (List.getElem?_eq_some_iff.mp hk).1
      rw [List.getElem?_range hlt]
      show some t = some _
      rw [h6 k t hk]
      rfl
  rw [h5, hnew]
  apply C91_sum_one E hE g w rows hn
  intro h0
  have : new.length = 0 := by
    have := congrArg List.length h0
    simpa using this
  rw [h5] at h1
  omega

/-- an honest tree: grown on rows 0 and 2, labelled with row 1 -/
def honestOne : Grown ℚ 3 := fitOne stdEnv (leaves none) (some 1) none flatRows [1, 0, 2]

/-- **C91, refuted for honest forests.** If no label row falls into the leaf of the query the tree gives no weight at
all, so the weights sum to less than 1. -/
theorem C91_honest_sum_refuted :
    honestOne.nodes.length = 3 ∧ ∑ i, alpha [honestOne] (fun _ => 0) i = 1 ∧
    ∑ i, alpha [honestOne] (fun _ => 2) i = 0 := by decide +kernel

/-- a tree that cannot be split: only one row was drawn, and all three rows get weight -/
example : (fitOne stdEnv (leaves none) none none flatRows [1]).nodes.length = 1 ∧
    (List.finRange 3).map (treeAlpha (fitOne stdEnv (leaves none) none none flatRows [1]) (fun _ => 1)) =
      [1 / 3, 1 / 3, 1 / 3] := by decide +kernel

/-- the hypotheses of `C91_tree_weights` are met -/
example : 1 < (fitOne stdEnv (leaves none) none none flatRows [0, 2]).nodes.length ∧
    labelled (fitOne stdEnv (leaves none) none none flatRows [0, 2]) flatRows [0, 2] (fun _ => 1) = [0] := by
  decide +kernel

/-- two rows, effect 10 -/
def pairForest : Grown ℚ 2 := fitOne stdEnv (leaves none) none none (fun i => gs 0 (i.1 : ℚ) (10 * (i.1 : ℚ))) [0, 1]

/-- outcome = 10 * treatment, and the estimate is 5 up to the ridge term -/
example : effectOf inv1 (1 / 100000) (alpha [pairForest] (fun _ => 0)) (fun i _ => (i.1 : ℚ)) (fun i => 10 * (i.1 : ℚ)) 0 =
    5 * (1 / 4) / (1 / 4 + 1 / 100000) := by decide +kernel

end YL.Props
