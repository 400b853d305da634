import Verif.Props.Policy

/-!
# C106: the settings of `PolicyTree`

Which settings `fit` accepts, and what each of them means for the fitted tree.
-/

set_option linter.unusedSectionVars false

namespace YL.Spec
open YL.Crit YL.Tree

variable {K : Type} [Field K] [LinearOrder K] {d : Nat}

/-- a count of rows is at least what an `int` or `float` setting asks for: an integer is a number of rows, a float a
share of the `n` rows of the training data -/
def RowsAtLeast (n : Nat) : Num K → Nat → Prop
  | .int m, k => m ≤ (k : Int)
  | .real r, k => r * (n : K) ≤ (k : K)

/-- documented values of `min_samples_leaf` -/
def LeafArg : Num K → Prop
  | .int m => 1 ≤ m
  | .real r => 0 < r

/-- documented values of `min_samples_split` -/
def SplitArg : Num K → Prop
  | .int m => 2 ≤ m
  | .real r => 0 < r ∧ r ≤ 1

/-- documented values of `max_features` -/
def FeaturesArg : MaxFeatures K → Prop
  | .all => True
  | .name s => s = "sqrt" ∨ s = "log2"
  | .num (.int m) => 1 ≤ m
  | .num (.real r) => 0 < r ∧ r ≤ 1

/-- `k` is the documented number of covariates drawn at a node, of `p` covariates: all; the integer part of the square
root or the binary logarithm; the number given; the integer part of the share given; but at least one -/
def DrawCount (p : Nat) : MaxFeatures K → Nat → Prop
  | .all, k => k = p
  | .name s, k => (s = "sqrt" → (k * k ≤ p ∨ k = 1) ∧ p < (k + 1) * (k + 1) ∧ 1 ≤ k) ∧
      (s = "log2" → (2 ^ k ≤ p ∨ k = 1) ∧ p < 2 ^ (k + 1) ∧ 1 ≤ k)
  | .num (.int m), k => m = (k : Int)
  | .num (.real r), k => ((k : K) ≤ r * (p : K) ∨ k = 1) ∧ r * (p : K) < (k : K) + 1 ∧ 1 ≤ k

/-- the documented settings and data of `PolicyTree.fit` -/
def Documented (g : PSettings K) (v : List (Nat → K)) (ce : List (Fin d → K)) (weights : Option (List K)) : Prop :=
  (∀ n, g.maxDepth = some n → 1 ≤ n) ∧ LeafArg g.minSamplesLeaf ∧ SplitArg g.minSamplesSplit ∧
  (∀ n, g.maxLeafNodes = some n → 2 ≤ n) ∧ 0 ≤ g.minWeightFraction ∧ g.minWeightFraction ≤ 1 / 2 ∧
  FeaturesArg g.maxFeatures ∧ 0 ≤ g.minDecrease ∧
  (g.criterion = "policy_reg" ∨ g.criterion = "policy_test" ∨ g.criterion = "policy_test1") ∧
  ce.length = v.length ∧ (∀ ws, weights = some ws → ws.length = v.length)

end YL.Spec

namespace YL.Props
open YL.Crit YL.Tree YL.Spec

section feature
variable {A M K V : Type} [AddCommGroup M] [Field K] [LinearOrder K] [IsStrictOrderedRing K]

theorem scan_feature_drawn (P : Params A K) (C : Criterion A M K V) (x : A → Nat → K) (f : Nat) (l : List A) :
    ∀ (fuel p : Nat) (c : Crit M) (best : Option (K × Split K)) (b : K × Split K),
      (scan P C x f l fuel p c best).2 = some b → best = some b ∨ b.2.feature = f := by
  intro fuel
  induction fuel with
  | zero => intro p c best b h; exact Or.inl h
  | succ fuel ih =>
    intro p c best b h
    rw [scan] at h
    by_cases h1 : p < l.length
    · rw [if_pos h1] at h
      simp only at h
      split at h
      · split at h
        · exact ih _ _ _ _ h
        · split at h
          · exact ih _ _ _ _ h
          · split at h
            · rcases ih _ _ _ _ h with h | h
              · cases h; exact Or.inr rfl
              · exact Or.inr h
            · exact ih _ _ _ _ h
      · exact ih _ _ _ _ h
    · rw [if_neg h1] at h
      exact Or.inl h

/-- the feature of the chosen cut was drawn -/
theorem nodeSplit_feature_drawn {P : Params A K} {C : Criterion A M K V} {x : A → Nat → K} {feats : List Nat} {l : List A} {imp : K}
    {s : Found A K} (h : nodeSplit P C x feats l imp = some s) : s.split.feature ∈ feats := by
  have key : ∀ (fs : List Nat) (st : List A × Crit M × Option (K × Split K)) (b : K × Split K),
      (fs.foldl (visit P C x) st).2.2 = some b → st.2.2 = some b ∨ b.2.feature ∈ fs := by
    intro fs
    induction fs with
    | nil => intro st b h; exact Or.inl h
    | cons f fs ih =>
      intro st b h
      rw [List.foldl_cons] at h
      rcases ih _ _ h with h | h
      · unfold visit at h
        simp only at h
        split at h
        · exact Or.inl h
        · rcases scan_feature_drawn _ _ _ _ _ _ _ _ _ _ h with h | h
          · exact Or.inl h
          · exact Or.inr (by rw [h]; exact List.mem_cons_self)
      · exact Or.inr (List.mem_cons_of_mem _ h)
  unfold nodeSplit at h
  split at h
  · cases h
  · rename_i l' c b s' heq
    cases h
    have := key feats _ (b, s') (by rw [heq])
    rcases this with h | h
    · cases h
    · exact h

end feature

variable {K : Type} [Field K] [LinearOrder K] [IsStrictOrderedRing K] [FloorRing K] {d : Nat}

theorem checkDepth_iff (big : Nat) (o : Option Int) : (∃ k, checkDepth big o = .ok k) ↔ ∀ n, o = some n → 1 ≤ n := by
  cases o with
  | none => simp [checkDepth]
  | some n =>
    by_cases h : n < 1
    · rw [show checkDepth big (some n) = .error "ValueError" from if_pos h]
      simp; omega
    · rw [show checkDepth big (some n) = .ok n.toNat from if_neg h]
      simp; omega

theorem checkLeaf_iff (n : Nat) (a : Num K) : (∃ k, checkLeaf n a = .ok k) ↔ LeafArg a := by
  cases a with
  | int m =>
    by_cases h : m < 1
    · rw [show checkLeaf n (.int m : Num K) = .error "ValueError" from if_pos h]
      simp [LeafArg]; omega
    · rw [show checkLeaf n (.int m : Num K) = .ok m.toNat from if_neg h]
      simp [LeafArg]; omega
  | real r =>
    by_cases h : r ≤ 0
    · rw [show checkLeaf n (.real r) = .error "ValueError" from if_pos h]
      simp [LeafArg, h]
    · rw [show checkLeaf n (.real r) = .ok ⌈r * (n : K)⌉.toNat from if_neg h]
      simp [LeafArg, not_le.mp h]

theorem checkSplit_iff (n leaf : Nat) (a : Num K) : (∃ k, checkSplit n leaf a = .ok k) ↔ SplitArg a := by
  cases a with
  | int m =>
    by_cases h : m < 2
    · rw [show checkSplit n leaf (.int m : Num K) = .error "ValueError" from if_pos h]
      simp [SplitArg]; omega
    · rw [show checkSplit n leaf (.int m : Num K) = .ok _ from if_neg h]
      simp [SplitArg]; omega
  | real r =>
    by_cases h : r ≤ 0 ∨ 1 < r
    · rw [show checkSplit n leaf (.real r) = .error "ValueError" from if_pos h]
      simp only [SplitArg, reduceCtorEq, exists_const, false_iff, not_and]
      intro h0
      rcases h with h | h
      · exact absurd h0 (not_lt.mpr h)
      · exact not_le.mpr h
    · rw [show checkSplit n leaf (.real r) = .ok _ from if_neg h]
      push Not at h
      simp [SplitArg, h]

theorem checkLeafNodes_iff (o : Option Int) : (∃ k, checkLeafNodes o = .ok k) ↔ ∀ n, o = some n → 2 ≤ n := by
  cases o with
  | none => simp [checkLeafNodes]
  | some n =>
    by_cases h : n < 2
    · rw [show checkLeafNodes (some n) = .error "ValueError" from if_pos h]
      simp; omega
    · rw [show checkLeafNodes (some n) = .ok (some n.toNat) from if_neg h]
      simp; omega

theorem checkFeatures_iff (p : Nat) (a : MaxFeatures K) : (∃ k, checkFeatures p a = .ok k) ↔ FeaturesArg a := by
  cases a with
  | all => simp [checkFeatures, FeaturesArg]
  | name s =>
    unfold checkFeatures FeaturesArg
    by_cases h1 : s = "sqrt"
    · simp [h1]
    · by_cases h2 : s = "log2" <;> simp [h1, h2]
  | num a =>
    cases a with
    | int m =>
      by_cases h : m < 1
      · rw [show checkFeatures p (.num (.int m) : MaxFeatures K) = .error "ValueError" from if_pos h]
        simp [FeaturesArg]; omega
      · rw [show checkFeatures p (.num (.int m) : MaxFeatures K) = .ok m.toNat from if_neg h]
        simp [FeaturesArg]; omega
    | real r =>
      by_cases h : r ≤ 0 ∨ 1 < r
      · rw [show checkFeatures p (.num (.real r)) = .error "ValueError" from if_pos h]
        simp only [FeaturesArg, reduceCtorEq, exists_const, false_iff, not_and]
        intro h0
        rcases h with h | h
        · exact absurd h0 (not_lt.mpr h)
        · exact not_le.mpr h
      · rw [show checkFeatures p (.num (.real r)) = _ from if_neg h]
        push Not at h
        rw [if_pos h.1]
        simp [FeaturesArg, h]

/-- **C106.** `fit` accepts exactly the documented settings. -/
theorem C106_accepted (E : PEnv K d) (g : PSettings K) (nFeat : Nat) (v : List (Nat → K)) (ce : List (Fin d → K))
    (weights : Option (List K)) : (∃ t, policyFit E g nFeat v ce weights = .ok t) ↔ Documented g v ce weights := by
  constructor
  · rintro ⟨t, h⟩
    obtain ⟨leaf, split, depth, nd, f⟩ := policyFit_ok h
    obtain ⟨ml, g1, g2⟩ := f.grown
    refine ⟨(checkDepth_iff _ _).1 ⟨_, f.depthOk⟩, (checkLeaf_iff _ _).1 ⟨_, f.leafOk⟩, (checkSplit_iff _ _ _).1 ⟨_, f.splitOk⟩,
      (checkLeafNodes_iff _).1 ⟨_, g1⟩, f.fraction.1, f.fraction.2, (checkFeatures_iff _ _).1 ⟨_, f.featuresOk⟩, f.decrease, ?_, f.sameRows, ?_⟩
    · by_contra hc
      push Not at hc
      have : ∀ N, criterionOf E N g.criterion = .error "KeyError" := by
        intro N
        unfold criterionOf
        rw [if_neg hc.1, if_neg hc.2.1, if_neg hc.2.2]
      unfold growPolicy at g2
      simp only [this] at g2
      cases ml <;> cases g2
    · intro ws hws
      have := f.sameWeights
      rw [hws] at this
      exact this
  · rintro ⟨h1, h2, h3, h4, h5, h6, h7, h8, h9, h10, h11⟩
    obtain ⟨depth, e1⟩ := (checkDepth_iff E.big _).2 h1
    obtain ⟨leaf, e2⟩ := (checkLeaf_iff v.length _).2 h2
    obtain ⟨split, e3⟩ := (checkSplit_iff v.length leaf _).2 h3
    obtain ⟨ml, e4⟩ := (checkLeafNodes_iff _).2 h4
    obtain ⟨nd, e5⟩ := (checkFeatures_iff nFeat _).2 h7
    have e6 : ¬ (g.minWeightFraction < 0 ∨ 1 / 2 < g.minWeightFraction) := by
      rintro (h | h)
      · exact absurd h5 (not_le.mpr h)
      · exact absurd h6 (not_le.mpr h)
    have e7 : ¬ (weights.getD (List.replicate v.length 1)).length ≠ v.length := by
      cases weights with
      | none => simp
      | some ws => simpa using h11 ws rfl
    have hcr : ∀ N, ∃ C, criterionOf E N g.criterion = .ok C := by
      intro N
      unfold criterionOf
      by_cases a1 : g.criterion = "policy_reg"
      · exact ⟨_, if_pos a1⟩
      · rw [if_neg a1]
        by_cases a2 : g.criterion = "policy_test"
        · exact ⟨_, if_pos a2⟩
        · rw [if_neg a2, if_pos (by tauto)]
          exact ⟨_, rfl⟩
    unfold policyFit
    simp only [e1, e2, e3, e4, e5, if_neg e6, if_neg (not_lt.mpr h8), if_neg (not_ne_iff.mpr h10), if_neg e7]
    unfold growPolicy
    cases ml with
    | none =>
      obtain ⟨C, hC⟩ := hcr ((pRows v ce (weights.getD (List.replicate v.length 1))).map (fun a => a.w)).sum
      simp only [hC]
      exact ⟨_, rfl⟩
    | some m =>
      obtain ⟨C, hC⟩ := hcr ((pRows v ce (weights.getD (List.replicate v.length 1))).length : K)
      simp only [hC]
      exact ⟨_, rfl⟩

theorem atLeast_ceil {r : K} {n k : Nat} (h : ⌈r * (n : K)⌉.toNat ≤ k) : r * (n : K) ≤ (k : K) := by
  have h1 : ⌈r * (n : K)⌉ ≤ (k : Int) := by omega
  have h2 := Int.ceil_le.1 h1
  exact_mod_cast h2

theorem checkLeaf_atLeast {n leaf : Nat} {a : Num K} (h : checkLeaf n a = .ok leaf) {k : Nat} (hk : leaf ≤ k) : RowsAtLeast n a k := by
  cases a with
  | int m =>
    by_cases h1 : m < 1
    · rw [show checkLeaf n (.int m : Num K) = .error "ValueError" from if_pos h1] at h; cases h
    · rw [show checkLeaf n (.int m : Num K) = .ok m.toNat from if_neg h1] at h
      cases h
      show m ≤ (k : Int)
      omega
  | real r =>
    by_cases h1 : r ≤ 0
    · rw [show checkLeaf n (.real r) = .error "ValueError" from if_pos h1] at h; cases h
    · rw [show checkLeaf n (.real r) = .ok ⌈r * (n : K)⌉.toNat from if_neg h1] at h
      cases h
      exact atLeast_ceil hk

theorem checkSplit_atLeast {n leaf split : Nat} {a : Num K} (h : checkSplit n leaf a = .ok split) {k : Nat} (hk : split ≤ k) :
    RowsAtLeast n a k := by
  cases a with
  | int m =>
    by_cases h1 : m < 2
    · rw [show checkSplit n leaf (.int m : Num K) = .error "ValueError" from if_pos h1] at h; cases h
    · rw [show checkSplit n leaf (.int m : Num K) = .ok (max m.toNat (2 * leaf)) from if_neg h1] at h
      cases h
      show m ≤ (k : Int)
      have := le_trans (le_max_left _ _) hk
      omega
  | real r =>
    by_cases h1 : r ≤ 0 ∨ 1 < r
    · rw [show checkSplit n leaf (.real r) = .error "ValueError" from if_pos h1] at h; cases h
    · rw [show checkSplit n leaf (.real r) = .ok (max (max 2 ⌈r * (n : K)⌉.toNat) (2 * leaf)) from if_neg h1] at h
      cases h
      exact atLeast_ceil (le_trans (le_trans (le_max_right _ _) (le_max_left _ _)) hk)

theorem checkFeatures_count {p nd : Nat} {a : MaxFeatures K} (h : checkFeatures p a = .ok nd) : DrawCount p a nd := by
  cases a with
  | all => cases h; rfl
  | name s =>
    unfold checkFeatures at h
    simp only at h
    refine ⟨fun hs => ?_, fun hs => ?_⟩
    · rw [if_pos hs] at h
      cases h
      have a1 := Nat.sqrt_le p
      have a2 := Nat.lt_succ_sqrt p
      refine ⟨?_, ?_, le_max_left _ _⟩
      · by_cases h1 : 1 ≤ p.sqrt
        · left; rw [max_eq_right h1]; exact a1
        · right; omega
      · refine lt_of_lt_of_le a2 (Nat.mul_le_mul ?_ ?_) <;> exact Nat.succ_le_succ (le_max_right _ _)
    · have hn : ¬ s = "sqrt" := by rw [hs]; decide
      rw [if_neg hn, if_pos hs] at h
      cases h
      refine ⟨?_, ?_, le_max_left _ _⟩
      · by_cases h1 : 1 ≤ p.log2
        · left
          rw [max_eq_right h1]
          exact Nat.log2_self_le (by rintro rfl; simp at h1)
        · right; omega
      · exact lt_of_lt_of_le (Nat.lt_log2_self) (Nat.pow_le_pow_right (by decide) (Nat.succ_le_succ (le_max_right _ _)))
  | num a =>
    cases a with
    | int m =>
      by_cases h1 : m < 1
      · rw [show checkFeatures p (.num (.int m) : MaxFeatures K) = .error "ValueError" from if_pos h1] at h; cases h
      · rw [show checkFeatures p (.num (.int m) : MaxFeatures K) = .ok m.toNat from if_neg h1] at h
        cases h
        show m = ((m.toNat : Nat) : Int)
        omega
    | real r =>
      by_cases h1 : r ≤ 0 ∨ 1 < r
      · rw [show checkFeatures p (.num (.real r)) = .error "ValueError" from if_pos h1] at h; cases h
      · rw [show checkFeatures p (.num (.real r)) = _ from if_neg h1] at h
        push Not at h1
        rw [if_pos h1.1] at h
        cases h
        have hr : 0 ≤ r * (p : K) := mul_nonneg h1.1.le (Nat.cast_nonneg _)
        have hf : 0 ≤ ⌊r * (p : K)⌋ := Int.floor_nonneg.2 hr
        have e : ((⌊r * (p : K)⌋.toNat : Nat) : K) = ((⌊r * (p : K)⌋ : Int) : K) := by
          rw [← Int.cast_natCast, Int.toNat_of_nonneg hf]
        refine ⟨?_, ?_, le_max_left _ _⟩
        · by_cases h2 : 1 ≤ ⌊r * (p : K)⌋.toNat
          · left
            rw [max_eq_right h2, e]
            exact Int.floor_le _
          · right; omega
        · refine lt_of_lt_of_le (Int.lt_floor_add_one _) ?_
          rw [← e]
          have : (⌊r * (p : K)⌋.toNat : Nat) ≤ max 1 ⌊r * (p : K)⌋.toNat := le_max_right _ _
          have : ((⌊r * (p : K)⌋.toNat : Nat) : K) ≤ ((max 1 ⌊r * (p : K)⌋.toNat : Nat) : K) := by exact_mod_cast this
          linarith

section fitted
variable {E : PEnv K d} {g : PSettings K} {nFeat : Nat} {v : List (Nat → K)} {ce : List (Fin d → K)}
  {weights : Option (List K)} {t : PFitted K d}

/-- **C106.** Every inner node had at least `min_samples_split` training rows, both sides of its cut have at least
`min_samples_leaf` rows and at least the share `min_weight_fraction_leaf` of the given weights, and its covariate is one of
the `max_features` covariates drawn at the node. -/
theorem C106_inner (hE : SoundPEnv E) (hf : policyFit E g nFeat v ce weights = .ok t) (hc : g.criterion = "policy_reg")
    {i : Nat} {n : Node K (Fin d → K)} (hi : t.nodes[i]? = some n) (hn : n.left ≠ none) :
    let S := atNode t (used g v ce weights) i
    let L := S.filter (fun a => decide (a.v n.feature ≤ n.threshold))
    let R := S.filter (fun a => decide (n.threshold < a.v n.feature))
    RowsAtLeast v.length g.minSamplesSplit S.length ∧
    RowsAtLeast v.length g.minSamplesLeaf L.length ∧ RowsAtLeast v.length g.minSamplesLeaf R.length ∧ 0 < L.length ∧ 0 < R.length ∧
    g.minWeightFraction * (givenWeights weights v.length).sum ≤ wTotal L ∧
    g.minWeightFraction * (givenWeights weights v.length).sum ≤ wTotal R ∧
    ∃ k, DrawCount nFeat g.maxFeatures k ∧ n.feature ∈ E.draw k i := by
  intro S L R
  obtain ⟨leaf, split, depth, nd, h⟩ := policyFit_ok hf
  obtain ⟨r, f1, f2, f3, _, _, f6⟩ := fit_node hE h hc hi
  obtain ⟨s, s1, s2, s3⟩ := f6 hn
  obtain ⟨a1, a2, a3, a4, a5, a6, a7⟩ := splitOf_spec (pParams_sound hE _) (policyReg_sound _ _) _ _ _ _ _ s1
  obtain ⟨c1, c2, c3, c4, c5, c6⟩ : PolicyCut leaf (g.minWeightFraction * (givenWeights weights v.length).sum) S n.feature n.threshold := by
    rw [s2, s3]
    exact policy_admissible.mp (admissible_perm f1 a1)
  unfold stops at a5
  simp only [Bool.or_eq_false_iff, decide_eq_false_iff_not, not_lt] at a5
  have hsz : split ≤ S.length := by rw [← f1.length_eq]; exact a5.1.1.1.2
  refine ⟨checkSplit_atLeast h.splitOk hsz, checkLeaf_atLeast h.leafOk c1, checkLeaf_atLeast h.leafOk c2, c3, c4, c5, c6,
    nd, checkFeatures_count h.featuresOk, ?_⟩
  rw [s2]
  exact nodeSplit_feature_drawn a7

/-- **C106.** No row needs more than `max_depth` questions. -/
theorem C106_depth (hE : SoundPEnv E) (hf : policyFit E g nFeat v ce weights = .ok t) (hc : g.criterion = "policy_reg")
    {m : Int} (hm : g.maxDepth = some m) :
    (t.depth : Int) ≤ m ∧ ∀ q, walk t.nodes q t.depth 0 = apply t.nodes q := by
  obtain ⟨leaf, split, depth, nd, h⟩ := policyFit_ok hf
  have hd : (depth : Int) = m := by
    have := h.depthOk
    rw [hm] at this
    by_cases h1 : m < 1
    · rw [show checkDepth E.big (some m) = .error "ValueError" from if_pos h1] at this; cases this
    · rw [show checkDepth E.big (some m) = .ok m.toNat from if_neg h1] at this
      cases this
      omega
  rcases fit_cases h hc with ⟨h1, h2, h3⟩ | ⟨m', h1, _, h2⟩
  · have := C82_depth (pParams_sound (leaf := leaf) (split := split) (depth := depth) (g := g) hE (givenWeights weights v.length))
      (policyReg_sound E.alpha (wTotal (used g v ce weights))) (fun a => a.v) (fun a => a.w) (E.draw nd)
      (pRows v ce (givenWeights weights v.length))
    rw [← h2] at this
    refine ⟨?_, this.2.1⟩
    have h4 : t.depth ≤ depth := this.1
    omega
  · have := C87_depth (P := pParams E g leaf split depth (givenWeights weights v.length))
      (C := fun _ => policyReg E.alpha (wTotal (used g v ce weights))) (x := fun a => a.v) (draw := E.draw nd)
      hE.heap m' (used g v ce weights)
    rw [← h2] at this
    refine ⟨?_, this.2⟩
    have h4 : t.depth ≤ depth := this.1
    omega

/-- **C106.** `decide` names the recommended treatment of every row, and fails exactly when a recommendation has no name. -/
theorem C106_decide {B : Type} (t : PFitted K d) (names : List B) (qs : List (Nat → K)) {ks : List Nat}
    (h : predictInd t (some qs) = .ok ks) :
    (∀ l, decideNames t names qs = .ok l ↔ ks.map (fun k => names[k]?) = l.map some) ∧
    ((∃ k ∈ ks, names.length ≤ k) ↔ ∃ e, decideNames t names qs = .error e) := by
  have key : ∀ ks : List Nat, (∀ k ∈ ks, k < names.length) → ks.map (fun k => names[k]?) = (ks.filterMap (fun k => names[k]?)).map some := by
    intro ks hk
    induction ks with
    | nil => rfl
    | cons k ks ih =>
      have h1 := hk k (by simp)
      rw [List.map_cons, List.filterMap_cons, List.getElem?_eq_getElem h1, ih (fun k hk' => hk k (by simp [hk']))]
      rfl
  unfold decideNames
  rw [h]
  simp only
  by_cases hall : ks.all (fun k => decide (k < names.length)) = true
  · rw [if_pos hall]
    have hk : ∀ k ∈ ks, k < names.length := by simpa using hall
    constructor
    · intro l
      rw [key ks hk]
      constructor
      · intro h; cases h; rfl
      · intro h
        rw [List.map_injective_iff.2 (Option.some_injective B) h]
    · constructor
      · rintro ⟨k, hk1, hk2⟩
        have := hk k hk1
        omega
      · rintro ⟨e, he⟩; cases he
  · rw [if_neg hall]
    have hk : ∃ k ∈ ks, names.length ≤ k := by simpa using hall
    constructor
    · intro l
      constructor
      · intro h; cases h
      · intro h
        obtain ⟨k, hk1, hk2⟩ := hk
        have h1 : names[k]? ∈ l.map some := by rw [← h]; exact List.mem_map.2 ⟨k, hk1, rfl⟩
        rw [List.getElem?_eq_none hk2] at h1
        simp at h1
    · exact ⟨fun _ => ⟨_, rfl⟩, fun _ => hk⟩

end fitted

/-- the settings of the example below are documented and their tree has an inner node -/
example : Documented (d := 2) ({ plainSettings with maxDepth := some 1, maxFeatures := .name "sqrt", minSamplesLeaf := .real (1 / 4) } : PSettings ℚ)
    [fun _ => 0, fun _ => 1, fun _ => 2, fun _ => 3] [![0, 5], ![0, 3], ![0, -1], ![0, -2]] none ∧
    ∃ t n, policyFit (plainEnv 2) { plainSettings with maxDepth := some 1, maxFeatures := .name "sqrt", minSamplesLeaf := .real (1 / 4) } 1
      [fun _ => 0, fun _ => 1, fun _ => 2, fun _ => 3] [![0, 5], ![0, 3], ![0, -1], ![0, -2]] none = .ok t ∧
      t.nodes[0]? = some n ∧ n.left ≠ none := by
  refine ⟨⟨?_, ?_, ?_, ?_, ?_, ?_, ?_, ?_, Or.inl rfl, rfl, ?_⟩, ?_⟩
  · intro n h; cases h; decide
  · show (0 : ℚ) < 1 / 4; norm_num
  · show (2 : Int) ≤ 2; decide
  · intro n h; cases h
  · show (0 : ℚ) ≤ 0; decide
  · show (0 : ℚ) ≤ 1 / 2; norm_num
  · exact Or.inl rfl
  · show (0 : ℚ) ≤ 0; decide
  · intro ws h; cases h
  · obtain ⟨t, h1, h2⟩ := okAnd_spec (e := policyFit (plainEnv 2)
        { plainSettings with maxDepth := some 1, maxFeatures := .name "sqrt", minSamplesLeaf := .real (1 / 4) } 1
        [fun _ => 0, fun _ => 1, fun _ => 2, fun _ => 3] [![0, 5], ![0, 3], ![0, -1], ![0, -2]] none)
      (p := fun t => match t.nodes[0]? with
        | some n => n.left.isSome
        | none => false) (by decide +kernel)
    cases hn : t.nodes[0]? with
    | none => rw [hn] at h2; cases h2
    | some n =>
      rw [hn] at h2
      refine ⟨t, n, h1, hn, ?_⟩
      intro h3
      simp only [h3] at h2
      cases h2

end YL.Props
