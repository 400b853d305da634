import Verif.Props.BestFirst
import Mathlib.Algebra.BigOperators.Group.List.Basic

/-!
# C87-C89 for `GrfTree`
-/

set_option linter.unusedSectionVars false

namespace YL.Spec
open YL.Crit YL.Tree

variable {K : Type} [Field K] [LinearOrder K] {d : Nat}

/-- What is assumed of the environment of a `GrfTree`: the sorting routine sorts, the midpoint of two floats lies
between them, the heap pops a record with the largest improvement. -/
structure SoundEnv (E : GrfEnv K d) : Prop where
  perm : ∀ (g : GSample K d → K) (l : List (GSample K d)), (E.sort g l).Perm l
  sorted : ∀ (g : GSample K d → K) (l : List (GSample K d)), (E.sort g l).Pairwise (fun a b => g a ≤ g b)
  mid : ∀ a b : K, a < b → a ≤ E.mid a b ∧ E.mid a b ≤ b
  thr : 0 ≤ E.thr
  heap : SoundHeap E.pick

/-- mean outcome of a set of samples -/
def meanY (l : List (GSample K d)) : K := (l.map (fun a => a.y)).sum / (l.length : K)

/-- the score of a cut for the pseudo outcomes `r`: (sum over the left)^2 / n_left + (sum over the right)^2 / n_right -/
def rhoScore (r : GSample K d → K) (S : List (GSample K d)) (f : Nat) (t : K) : K :=
  let L := S.filter (fun a => decide (a.v f ≤ t))
  let R := S.filter (fun a => decide (t < a.v f))
  (L.map r).sum ^ 2 / (L.length : K) + (R.map r).sum ^ 2 / (R.length : K)

/-- a cut along covariate `f` at `t` that leaves at least `m` samples, and at least one, on each side, where the two
sides are more than `thr` apart -/
def CutOk (m : Nat) (thr : K) (S : List (GSample K d)) (f : Nat) (t : K) : Prop :=
  m ≤ (S.filter (fun a => decide (a.v f ≤ t))).length ∧ m ≤ (S.filter (fun a => decide (t < a.v f))).length ∧
  0 < (S.filter (fun a => decide (a.v f ≤ t))).length ∧ 0 < (S.filter (fun a => decide (t < a.v f))).length ∧
  ∀ a ∈ S, ∀ b ∈ S, a.v f ≤ t → t < b.v f → a.v f + thr < b.v f

end YL.Spec

namespace YL.Props
open YL.Crit YL.Tree YL.Spec

variable {K : Type} [Field K] [LinearOrder K] [IsStrictOrderedRing K] {d : Nat}

theorem grfCriterion_sound (r : GSample K d → K) : SoundCriterion (grfCriterion r) := by
  intro h c p h1 h2 h3 h4 h5
  have hinv : CritInv h { c with right := (segment h c.pos c.stop).sum } :=
    ⟨h1, le_trans h2 h3, h4, h5, rfl⟩
  obtain ⟨u1, u2, u3, u4, u5⟩ := critInv_updateGrf (c := { c with right := (segment h c.pos c.stop).sum }) hinv h2 h3
  have e : updateGrf h { c with right := (segment h c.pos c.stop).sum } p = updateGrf h c p := by
    unfold updateGrf reverseReset
    rfl
  rw [e] at u1 u2 u3 u4 u5
  have f1 : (updateGrf h c p).start = c.start := rfl
  have f2 : (updateGrf h c p).stop = c.stop := rfl
  have f3 : (updateGrf h c p).total = c.total := rfl
  have f4 : (updateGrf h c p).pos = p := rfl
  show updateGrf h c p = _
  rw [f1, f4] at u4
  rw [f2, f4] at u5
  generalize updateGrf h c p = d at *
  obtain ⟨a, b, q, t, l, r⟩ := d
  simp only at f1 f2 f3 f4 u4 u5
  subst f1 f2 f3 f4 u4 u5
  rfl

/-- the parameters of a fitted tree -/
abbrev envParams (E : GrfEnv K d) (g : GrfSettings K) (w : Option (List K)) (n : Nat) : Params (GSample K d) K :=
  grfParams g E.bigDepth E.eps E.thr E.sort E.mid w n

theorem envParams_sound {E : GrfEnv K d} (hE : SoundEnv E) (g : GrfSettings K) (w : Option (List K)) (n : Nat) :
    SoundParams (envParams E g w n) := ⟨hE.perm, hE.sorted, hE.mid, hE.thr⟩

/-- the criterion of a fitted tree at a node -/
abbrev envCrit (E : GrfEnv K d) (l : List (GSample K d)) : Criterion (GSample K d) (K × K × K) K K :=
  grfCriterion (rho E.ridge E.solve E.pinv l)

theorem sum_fst3 (l : List (GSample K d)) (r : GSample K d → K) :
    (l.map (grfCriterion r).contrib).sum = ((l.length : K), (l.map r).sum, (l.map (fun a => a.y)).sum) := by
  induction l with
  | nil => simp; rfl
  | cons a l ih =>
    rw [List.map_cons, List.sum_cons, ih]
    simp [grfCriterion, contribGrf]
    ring

/-- **C87.** The prediction of a fitted `GrfTree` at `q` is the mean outcome of exactly the training samples in the leaf
of `q`. -/
theorem C87_grf_prediction {E : GrfEnv K d} (hE : SoundEnv E) (g : GrfSettings K) (w : Option (List K))
    (rows : List (GSample K d)) (q : Nat → K) :
    predict (grfFit E g w rows).1 q =
      some (meanY (mates (grfFit E g w rows).1 (fun a => a.v) rows q)) := by
  obtain ⟨l, h1, h2⟩ := C87_prediction (P := envParams E g w rows.length) (C := envCrit E) (x := fun a => a.v)
    (draw := E.draw) (envParams_sound hE g w rows.length) (fun l => grfCriterion_sound _) hE.heap
    (g.maxLeafNodes.getD 1000) rows q
  refine h2.trans ?_
  have e : (envCrit E l).value (l.map (envCrit E l).contrib).sum = meanY l := by
    rw [sum_fst3]; rfl
  rw [e]
  congr 1
  unfold meanY
  rw [(h1.map (fun a => a.y)).sum_eq, h1.length_eq]
  rfl

/-- **C88.** Without `max_leaf_nodes` a `GrfTree` has at most 1000 leaves, however many samples there are; with
`max_leaf_nodes = m` at most `max 1 m`. -/
theorem C88_grf_leaves {E : GrfEnv K d} (hE : SoundEnv E) (g : GrfSettings K) (w : Option (List K))
    (rows : List (GSample K d)) :
    ((grfFit E g w rows).1.filter (fun n => n.left.isNone)).length ≤ max 1 (g.maxLeafNodes.getD 1000) :=
  (C88_max_leaf_nodes (P := envParams E g w rows.length) (C := envCrit E) (x := fun a => a.v)
    (draw := E.draw) hE.heap (g.maxLeafNodes.getD 1000) rows).1

/-- **C88, refuted for the documented default.** "If `None` then unlimited number of leaf nodes": there are never more
than 1000. -/
theorem C88_unlimited_refuted {E : GrfEnv K d} (hE : SoundEnv E) (g : GrfSettings K) (hg : g.maxLeafNodes = none)
    (w : Option (List K)) (rows : List (GSample K d)) :
    ((grfFit E g w rows).1.filter (fun n => n.left.isNone)).length ≤ 1000 := by
  have := C88_grf_leaves hE g w rows
  rw [hg] at this
  simpa using this

/-! ### the pseudo outcomes -/

theorem meanTr_perm {l l' : List (GSample K d)} (h : l.Perm l') (k : Fin d) : meanTr l k = meanTr l' k := by
  unfold meanTr; rw [(h.map (fun a => a.x k)).sum_eq, h.length_eq]

theorem meanOut_perm {l l' : List (GSample K d)} (h : l.Perm l') : meanOut l = meanOut l' := by
  unfold meanOut; rw [(h.map (fun a => a.y)).sum_eq, h.length_eq]

theorem gradMat_perm (ridge : K) {l l' : List (GSample K d)} (h : l.Perm l') : gradMat ridge l = gradMat ridge l' := by
  funext j k
  unfold gradMat
  rw [meanTr_perm h, meanTr_perm h, h.length_eq, (h.map _).sum_eq]

theorem rho_perm (ridge : K) {solve : List (GSample K d) → Fin d → K} (hs : ∀ l l', l.Perm l' → solve l = solve l')
    (pinv : (Fin d → Fin d → K) → Fin d → Fin d → K) {l l' : List (GSample K d)} (h : l.Perm l') :
    rho ridge solve pinv l = rho ridge solve pinv l' := by
  funext a
  unfold rho residual
  rw [gradMat_perm ridge h, hs l l' h, meanOut_perm h]
  simp only [meanTr_perm h]

/-- **C89.** If the treatment does not vary in a node, all pseudo outcomes of the node are 0. -/
theorem rho_const (ridge : K) (solve : List (GSample K d) → Fin d → K)
    (pinv : (Fin d → Fin d → K) → Fin d → Fin d → K) {l : List (GSample K d)} {c : Fin d → K}
    (h : ∀ a ∈ l, a.x = c) {a : GSample K d} (ha : a ∈ l) : rho ridge solve pinv l a = 0 := by
  have hn : (l.length : K) ≠ 0 := by
    have := List.length_pos_of_mem ha
    exact_mod_cast this.ne'
  have hm : ∀ k, meanTr l k = c k := by
    intro k
    unfold meanTr
    have : l.map (fun a => a.x k) = List.replicate l.length (c k) := by
      rw [List.eq_replicate_iff]
      refine ⟨by simp, ?_⟩
      intro b hb
      obtain ⟨a', ha', rfl⟩ := List.mem_map.mp hb
      rw [h a' ha']
    rw [this, List.sum_replicate, nsmul_eq_mul]
    field_simp
  unfold rho
  apply Finset.sum_eq_zero
  intro k _
  apply Finset.sum_eq_zero
  intro j _
  rw [h a ha, hm j]
  simp

/-! ### the score -/

theorem not_le_decide (t : K) (a : GSample K d) (f : Nat) :
    (!decide (a.v f ≤ t)) = decide (t < a.v f) := by
  rw [Bool.eq_iff_iff]; simp

theorem grf_cutState (r : GSample K d → K) (S : List (GSample K d)) (f : Nat) (t : K) :
    cutState (grfCriterion r).contrib S (cut (fun a => a.v) f t) =
      ⟨0, S.length, (S.filter (fun a => decide (a.v f ≤ t))).length,
        ((S.length : K), (S.map r).sum, (S.map (fun a => a.y)).sum),
        (((S.filter (fun a => decide (a.v f ≤ t))).length : K), ((S.filter (fun a => decide (a.v f ≤ t))).map r).sum,
          ((S.filter (fun a => decide (a.v f ≤ t))).map (fun a => a.y)).sum),
        (((S.filter (fun a => decide (t < a.v f))).length : K), ((S.filter (fun a => decide (t < a.v f))).map r).sum,
          ((S.filter (fun a => decide (t < a.v f))).map (fun a => a.y)).sum)⟩ := by
  unfold cutState cut
  rw [sum_fst3, sum_fst3, sum_fst3]
  simp only [not_le_decide]

theorem grf_score (r : GSample K d → K) (S : List (GSample K d)) (f : Nat) (t : K) :
    score (grfCriterion r) (fun a => a.v) S f t = rhoScore r S f t := by
  unfold score
  rw [grf_cutState]
  simp only [grfCriterion, proxyGrf, rhoSides, rhoPart, rhoScore, pow_two]

theorem grf_admissible {P : Params (GSample K d) K} (hw : P.minWeightLeaf ≤ 0) (r : GSample K d → K)
    (S : List (GSample K d)) (f : Nat) (t : K) :
    (Admissible P (grfCriterion r) (fun a => a.v) S f t ∧ Apart P.thr (fun a => a.v) S f t) ↔
      CutOk P.minSamplesLeaf P.thr S f t := by
  have hlen : (S.filter (fun a => decide (a.v f ≤ t))).length + (S.filter (fun a => decide (t < a.v f))).length =
      S.length := by
    have := List.length_eq_length_filter_add (l := S) (fun a => decide (a.v f ≤ t))
    simp only [not_le_decide] at this
    exact this.symm
  unfold Admissible Apart CutOk
  simp only
  rw [grf_cutState]
  have e : S.filter (cut (fun a => a.v) f t) = S.filter (fun a => decide (a.v f ≤ t)) := rfl
  rw [e]
  have w1 : P.minWeightLeaf ≤ (((S.filter (fun a => decide (a.v f ≤ t))).length : Nat) : K) :=
    le_trans hw (Nat.cast_nonneg _)
  have w2 : P.minWeightLeaf ≤ (((S.filter (fun a => decide (t < a.v f))).length : Nat) : K) :=
    le_trans hw (Nat.cast_nonneg _)
  constructor
  · rintro ⟨⟨a1, a2, a3, a4, _, _⟩, a7⟩
    exact ⟨a1, by omega, a3, by omega, a7⟩
  · rintro ⟨a1, a2, a3, a4, a5⟩
    exact ⟨⟨a1, by omega, a3, by omega, w1, w2⟩, a5⟩

/-- the improvement stored for a cut of the forest's criterion is its score -/
theorem grf_improvement (r : GSample K d → K) {S rows : List (GSample K d)} {f : Nat} {t : K} {h : Nat → K × K × K}
    (hseg : segment h 0 S.length = rows.map (grfCriterion r).contrib)
    (htake : (rows.take (S.filter (fun a => decide (a.v f ≤ t))).length).Perm
      (S.filter (fun a => decide (a.v f ≤ t)))) :
    let ch := (grfCriterion r).children h (cutState (grfCriterion r).contrib S (cut (fun a => a.v) f t))
    ch = (((S.filter (fun a => decide (a.v f ≤ t))).map r).sum ^ 2 /
          ((S.filter (fun a => decide (a.v f ≤ t))).length : K),
        ((S.filter (fun a => decide (t < a.v f))).map r).sum ^ 2 /
          ((S.filter (fun a => decide (t < a.v f))).length : K)) := by
  intro ch
  have hle : (S.filter (fun a => decide (a.v f ≤ t))).length ≤ S.length := List.length_filter_le _ _
  have hsum : (sumUp (fun p => rhoPart (h p)) 0 (S.filter (fun a => decide (a.v f ≤ t))).length).2 =
      ((S.filter (fun a => decide (a.v f ≤ t))).map r).sum := by
    rw [sumUp_eq]
    have e1 : segment (fun p => rhoPart (h p)) 0 (S.filter (fun a => decide (a.v f ≤ t))).length =
        ((segment h 0 S.length).take (S.filter (fun a => decide (a.v f ≤ t))).length).map rhoPart := by
      have e3 : (segment h 0 S.length).take (S.filter (fun a => decide (a.v f ≤ t))).length =
          segment h 0 (S.filter (fun a => decide (a.v f ≤ t))).length := by
        rw [segment_append h (Nat.zero_le _) hle, List.take_append_of_le_length (by simp [segment]),
          List.take_of_length_le (by simp [segment])]
      rw [e3]
      exact (segment_map _ _ _ _).symm
    rw [e1, hseg, ← List.map_take, List.map_map]
    have e2 : ∀ l : List (GSample K d), ((l.map (rhoPart ∘ (grfCriterion r).contrib)).sum).2 = (l.map r).sum := by
      intro l
      induction l with
      | nil => rfl
      | cons a l ih => rw [List.map_cons, List.sum_cons, Prod.snd_add, ih]; simp [rhoPart, grfCriterion, contribGrf]
    rw [e2, (htake.map r).sum_eq]
  have htot : (S.map r).sum = ((S.filter (fun a => decide (a.v f ≤ t))).map r).sum +
      ((S.filter (fun a => decide (t < a.v f))).map r).sum := by
    clear hsum htake hseg hle ch
    induction S with
    | nil => simp
    | cons a S ih =>
      by_cases hc : a.v f ≤ t
      · simp [hc, not_lt.mpr hc, ih, add_assoc]
      · simp [hc, not_le.mp hc, ih]
        ring
  show (grfCriterion r).children h _ = _
  rw [grf_cutState]
  simp only [grfCriterion, childrenGrf, rhoSides]
  rw [hsum]
  simp only [rhoPart]
  rw [htot]
  simp [pow_two]

theorem cutOk_perm {m : Nat} {thr : K} {S S' : List (GSample K d)} (h : S.Perm S') {f : Nat} {t : K}
    (hc : CutOk m thr S f t) : CutOk m thr S' f t := by
  unfold CutOk at *
  rw [← (h.filter _).length_eq, ← (h.filter _).length_eq]
  exact ⟨hc.1, hc.2.1, hc.2.2.1, hc.2.2.2.1,
    fun a ha b hb => hc.2.2.2.2 a (h.symm.subset ha) b (h.symm.subset hb)⟩

theorem rhoScore_perm (r : GSample K d → K) {S S' : List (GSample K d)} (h : S.Perm S') (f : Nat) (t : K) :
    rhoScore r S f t = rhoScore r S' f t := by
  unfold rhoScore
  simp only
  rw [((h.filter _).map r).sum_eq, ((h.filter _).map r).sum_eq, (h.filter _).length_eq, (h.filter _).length_eq]

theorem minWeight_zero (E : GrfEnv K d) {g : GrfSettings K} (hw : g.minWeightFraction = 0) (w : Option (List K)) (n : Nat) :
    (envParams E g w n).minWeightLeaf = 0 := by
  unfold envParams grfParams
  cases w <;> simp [hw]

/-- what the builder's decision at a record says in terms of the pseudo outcomes -/
theorem grf_splitOf {E : GrfEnv K d} (hE : SoundEnv E) {g : GrfSettings K} (hw : g.minWeightFraction = 0)
    (w : Option (List K)) (n : Nat) (r0 : GSample K d → K) (i : Nat) (r : Rec (GSample K d) K)
    (s : Found (GSample K d) K)
    (h : splitOf (envParams E g w n) (grfCriterion r0) (fun a => a.v) E.draw i r = some s) :
    (g.minSamplesLeaf ≤ (r.rows.filter (fun a => decide (a.v s.split.feature ≤ s.split.threshold))).length ∧
      g.minSamplesLeaf ≤ (r.rows.filter (fun a => decide (s.split.threshold < a.v s.split.feature))).length ∧
      0 < (r.rows.filter (fun a => decide (a.v s.split.feature ≤ s.split.threshold))).length ∧
      0 < (r.rows.filter (fun a => decide (s.split.threshold < a.v s.split.feature))).length) ∧
    (∀ f ∈ E.draw i, ∀ t, CutOk g.minSamplesLeaf E.thr r.rows f t →
      rhoScore r0 r.rows f t ≤ rhoScore r0 r.rows s.split.feature s.split.threshold) ∧
    s.improvement = rhoScore r0 r.rows s.split.feature s.split.threshold ∧
    s.impurityLeft = ((r.rows.filter (fun a => decide (a.v s.split.feature ≤ s.split.threshold))).map r0).sum ^ 2 /
      ((r.rows.filter (fun a => decide (a.v s.split.feature ≤ s.split.threshold))).length : K) ∧
    s.impurityRight = ((r.rows.filter (fun a => decide (s.split.threshold < a.v s.split.feature))).map r0).sum ^ 2 /
      ((r.rows.filter (fun a => decide (s.split.threshold < a.v s.split.feature))).length : K) := by
  have hP := envParams_sound hE g w n
  have hC := grfCriterion_sound r0
  have hmw := minWeight_zero E hw w n
  obtain ⟨s1, s2, s3, s4, s5, s6, s7⟩ := splitOf_spec hP hC (fun a => a.v) E.draw i r s h
  have hspec := nodeSplit_spec hP hC (fun a => a.v) (E.draw i) r.rows r.impurity
  rw [s7] at hspec
  obtain ⟨t1, t2, t3, t4, t5, hh, t6, t7, t8⟩ := hspec
  have hch := grf_improvement r0 (S := r.rows) (rows := s.rows) (f := s.split.feature) (t := s.split.threshold) t6
    (by rw [t2] at t3; exact t3)
  have hch' : (s.impurityLeft, s.impurityRight) = _ := t7.trans hch
  rw [Prod.mk.injEq] at hch'
  have hlen : (r.rows.filter (fun a => decide (a.v s.split.feature ≤ s.split.threshold))).length +
      (r.rows.filter (fun a => decide (s.split.threshold < a.v s.split.feature))).length = r.rows.length := by
    have := List.length_eq_length_filter_add (l := r.rows) (fun a => decide (a.v s.split.feature ≤ s.split.threshold))
    simp only [not_le_decide] at this
    exact this.symm
  refine ⟨?_, ?_, ?_, hch'.1, hch'.2⟩
  · obtain ⟨a1, a2, a3, a4, _⟩ := t1
    have e : r.rows.filter (cut (fun a => a.v) s.split.feature s.split.threshold) =
      r.rows.filter (fun a => decide (a.v s.split.feature ≤ s.split.threshold)) := rfl
    rw [e] at a1 a2 a3 a4
    have e2 : (envParams E g w n).minSamplesLeaf = g.minSamplesLeaf := rfl
    rw [e2] at a1 a2
    exact ⟨a1, by omega, a3, by omega⟩
  · intro f hf t hok
    have := (grf_admissible (P := envParams E g w n) (le_of_eq hmw) r0 r.rows f t).mpr hok
    have h5 := t5 f hf t this.1 this.2
    rw [grf_score, grf_score] at h5
    exact h5
  · rw [t8]
    show s.impurityLeft + s.impurityRight = _
    rw [hch'.1, hch'.2]
    rfl

/-- **C89.** Every split of a `GrfTree` (without weight limit) is the best of all cuts along the features drawn there
that leave `min_samples_leaf` samples on each side, for the pseudo outcomes computed from the samples of that node: it
maximises (sum of the left)^2/n_left + (sum of the right)^2/n_right, that is, it minimises the squared deviations of the
pseudo outcomes from their means (C80). The solver is assumed not to depend on the order of the samples. -/
theorem C89_best_split {E : GrfEnv K d} (hE : SoundEnv E) (hs : ∀ l l', l.Perm l' → E.solve l = E.solve l')
    {g : GrfSettings K} (hw : g.minWeightFraction = 0) (w : Option (List K)) (rows : List (GSample K d)) {i : Nat}
    {n : Node K K} (hi : (grfFit E g w rows).1[i]? = some n) (hn : n.left ≠ none) :
    let S := passing (grfFit E g w rows).1 (fun a => a.v) rows i
    g.minSamplesLeaf ≤ (S.filter (fun a => decide (a.v n.feature ≤ n.threshold))).length ∧
    g.minSamplesLeaf ≤ (S.filter (fun a => decide (n.threshold < a.v n.feature))).length ∧
    ∀ f ∈ E.draw i, ∀ t, CutOk g.minSamplesLeaf E.thr S f t →
      rhoScore (rho E.ridge E.solve E.pinv S) S f t ≤
        rhoScore (rho E.ridge E.solve E.pinv S) S n.feature n.threshold := by
  intro S
  obtain ⟨r, s, h1, h2, h3, h4, h5⟩ := best_inner (P := envParams E g w rows.length) (C := envCrit E)
    (x := fun a => a.v) (draw := E.draw) (envParams_sound hE g w rows.length) (fun l => grfCriterion_sound _) hE.heap
    (g.maxLeafNodes.getD 1000) rows hi hn
  have hS : r.rows.Perm S := h1
  obtain ⟨a1, a2, a3, _⟩ := grf_splitOf hE hw w rows.length _ i r s h3
  rw [h4, h5]
  refine ⟨?_, ?_, ?_⟩
  · rw [← (hS.filter _).length_eq]; exact a1.1
  · rw [← (hS.filter _).length_eq]; exact a1.2.1
  · intro f hf t hok
    rw [← rho_perm E.ridge hs E.pinv hS, ← rhoScore_perm _ hS, ← rhoScore_perm _ hS]
    exact a2 f hf t (cutOk_perm hS.symm hok)

/-- **C88.** Best first in terms of the pseudo outcomes: if node `j` was there when node `i` was expanded (the children
of `i` have larger numbers than `j`), and `j` stayed a leaf although it has enough samples, an impurity above `eps`, and
the depth limit does not bind, then no cut available at `j` has a higher score than the one made at `i`, unless that
score is below `min_impurity_decrease`. -/
theorem C88_grf_best_first {E : GrfEnv K d} (hE : SoundEnv E) (hs : ∀ l l', l.Perm l' → E.solve l = E.solve l')
    {g : GrfSettings K} (hw : g.minWeightFraction = 0) (w : Option (List K)) (rows : List (GSample K d)) {i j l : Nat}
    {ni nj : Node K K} (hi : (grfFit E g w rows).1[i]? = some ni) (hil : ni.left = some l)
    (hj : (grfFit E g w rows).1[j]? = some nj) (hjl : nj.left = none) (hlt : j < l)
    (hd : (grfFit E g w rows).2 < g.maxDepth.getD E.bigDepth)
    (himp : E.eps < nj.impurity) :
    let Si := passing (grfFit E g w rows).1 (fun a => a.v) rows i
    let Sj := passing (grfFit E g w rows).1 (fun a => a.v) rows j
    g.minSamplesSplit ≤ Sj.length → 2 * g.minSamplesLeaf ≤ Sj.length →
    ∀ f ∈ E.draw j, ∀ t, CutOk g.minSamplesLeaf E.thr Sj f t →
      g.minDecrease ≤ rhoScore (rho E.ridge E.solve E.pinv Sj) Sj f t + E.eps →
      rhoScore (rho E.ridge E.solve E.pinv Sj) Sj f t ≤
        rhoScore (rho E.ridge E.solve E.pinv Si) Si ni.feature ni.threshold := by
  intro Si Sj hss hsl f hf t hok hdec
  obtain ⟨ri, rj, si, h1, h2, h3, h4, h5, h6, h7, h8, h9⟩ := C88_best_first (P := envParams E g w rows.length)
    (C := envCrit E) (x := fun a => a.v) (draw := E.draw) (envParams_sound hE g w rows.length)
    (fun l => grfCriterion_sound _) hE.heap (g.maxLeafNodes.getD 1000) rows hi hil hj hjl hlt
  have hSi : ri.rows.Perm Si := h1
  have hSj : rj.rows.Perm Sj := h3
  have hmw := minWeight_zero E hw w rows.length
  rw [← rho_perm E.ridge hs E.pinv hSj, ← rho_perm E.ridge hs E.pinv hSi, ← rhoScore_perm _ hSj,
    ← rhoScore_perm _ hSi] at *
  have hok' := cutOk_perm hSj.symm hok
  -- the builder does not stop at `j`
  have hst : stops (envParams E g w rows.length) (envCrit E rj.rows) rj = false := by
    unfold stops
    simp only [Bool.or_eq_false_iff, decide_eq_false_iff_not, not_le, not_lt]
    have e1 : (envParams E g w rows.length).maxDepth = g.maxDepth.getD E.bigDepth := rfl
    have e2 : (envParams E g w rows.length).minSamplesSplit = max g.minSamplesSplit (2 * g.minSamplesLeaf) := rfl
    have e3 : (envParams E g w rows.length).minSamplesLeaf = g.minSamplesLeaf := rfl
    have e4 : (envParams E g w rows.length).eps = E.eps := rfl
    have hlen := hSj.length_eq
    rw [e1, e2, e3, e4, hmw, h4]
    refine ⟨⟨⟨⟨lt_of_le_of_lt h5 hd, ?_⟩, ?_⟩, ?_⟩, himp⟩
    · rw [hlen]; exact max_le hss hsl
    · rw [hlen]; exact hsl
    · rw [mul_zero]; exact Nat.cast_nonneg _
  have hP := envParams_sound hE g w rows.length
  have hC := grfCriterion_sound (rho E.ridge E.solve E.pinv rj.rows)
  have hns := nodeSplit_spec hP hC (fun a => a.v) (E.draw j) rj.rows rj.impurity
  have had := (grf_admissible (P := envParams E g w rows.length) (le_of_eq hmw) (rho E.ridge E.solve E.pinv rj.rows)
    rj.rows f t).mpr hok'
  cases hsp : nodeSplit (envParams E g w rows.length) (grfCriterion (rho E.ridge E.solve E.pinv rj.rows))
      (fun a => a.v) (E.draw j) rj.rows rj.impurity with
  | none =>
    rw [hsp] at hns
    exact absurd had.2 (hns f hf t had.1)
  | some sj =>
    rw [hsp] at hns
    obtain ⟨t1, t2, t3, t4, t5, hh, t6, t7, t8⟩ := hns
    have hch := grf_improvement (rho E.ridge E.solve E.pinv rj.rows) (S := rj.rows) (rows := sj.rows)
      (f := sj.split.feature) (t := sj.split.threshold) t6 (by rw [t2] at t3; exact t3)
    have hch' : (sj.impurityLeft, sj.impurityRight) = _ := t7.trans hch
    rw [Prod.mk.injEq] at hch'
    have himpr : sj.improvement =
        rhoScore (rho E.ridge E.solve E.pinv rj.rows) rj.rows sj.split.feature sj.split.threshold := by
      rw [t8]
      show sj.impurityLeft + sj.impurityRight = _
      rw [hch'.1, hch'.2]
      rfl
    have hbest := t5 f hf t had.1 had.2
    rw [grf_score, grf_score, ← himpr] at hbest
    have hsplit : splitOf (envParams E g w rows.length) (envCrit E rj.rows) (fun a => a.v) E.draw j rj = some sj := by
      unfold splitOf
      rw [if_neg (by rw [hst]; simp)]
      have hsp' : nodeSplit (envParams E g w rows.length) (envCrit E rj.rows) (fun a => a.v) (E.draw j) rj.rows
          rj.impurity = some sj := hsp
      rw [hsp']
      simp only
      rw [if_neg]
      have e4 : (envParams E g w rows.length).eps = E.eps := rfl
      have e5 : (envParams E g w rows.length).minDecrease = g.minDecrease := rfl
      rw [e4, e5, not_lt]
      linarith
    have hle := h9 sj hsplit
    have hsi := (grf_splitOf hE hw w rows.length _ i ri si h6).2.2.1
    rw [h7, h8, ← hsi]
    exact le_trans hbest hle

/-- **C89.** Sample weights: the tree is the same for all weights with the same sum, and for all weights whatsoever if
`min_weight_fraction_leaf` is 0; `fit(..., sample_weight=...)` does not weight anything. -/
theorem C89_weights_ignored_refuted (E : GrfEnv K d) (g : GrfSettings K) (w : List K) (rows : List (GSample K d))
    (h : g.minWeightFraction = 0 ∨ w.sum = (rows.length : K)) : grfFit E g (some w) rows = grfFit E g none rows := by
  have e : grfParams g E.bigDepth E.eps E.thr E.sort E.mid (some w) rows.length =
      grfParams g E.bigDepth E.eps E.thr E.sort E.mid none rows.length := by
    unfold grfParams
    rcases h with h | h
    · simp [h]
    · simp [h]
  unfold grfFit
  rw [e]


theorem sum_rho_zero {l S : List (GSample K d)} {r : GSample K d → K} (h : ∀ a ∈ l, r a = 0) (hs : ∀ a ∈ S, a ∈ l) :
    (S.map r).sum = 0 := by
  have : S.map r = List.replicate S.length 0 := by
    rw [List.eq_replicate_iff]
    refine ⟨by simp, ?_⟩
    intro b hb
    obtain ⟨a, ha, rfl⟩ := List.mem_map.mp hb
    exact h a (hs a ha)
  rw [this]
  simp

/-- **C89.** The weight limit: both sides of every cut have at least `min_weight_fraction_leaf` times the sum of the given
weights (times the number of rows, without weights) many rows; and never fewer than `min_samples_leaf`. -/
theorem C89_weight_limit {E : GrfEnv K d} (hE : SoundEnv E) (g : GrfSettings K) (w : Option (List K)) (rows : List (GSample K d))
    {i : Nat} {n : Node K K} (hi : (grfFit E g w rows).1[i]? = some n) (hn : n.left ≠ none) :
    let S := passing (grfFit E g w rows).1 (fun a => a.v) rows i
    let L := S.filter (fun a => decide (a.v n.feature ≤ n.threshold))
    let R := S.filter (fun a => decide (n.threshold < a.v n.feature))
    let total : K := (w.map List.sum).getD (rows.length : K)
    g.minSamplesLeaf ≤ L.length ∧ g.minSamplesLeaf ≤ R.length ∧ 0 < L.length ∧ 0 < R.length ∧
    g.minWeightFraction * total ≤ (L.length : K) ∧ g.minWeightFraction * total ≤ (R.length : K) := by
  intro S L R total
  obtain ⟨r, s, h1, _, h2, h3, h4⟩ := best_inner (P := envParams E g w rows.length) (C := envCrit E) (x := fun a => a.v)
    (draw := E.draw) (envParams_sound hE g w rows.length) (fun l => grfCriterion_sound _) hE.heap
    (g.maxLeafNodes.getD 1000) rows hi hn
  obtain ⟨a1, -⟩ := splitOf_spec (envParams_sound hE g w rows.length) (grfCriterion_sound _) _ _ _ _ _ h2
  rw [← h3, ← h4] at a1
  obtain ⟨b1, b2, b3, b4, b5, b6⟩ := admissible_perm h1 a1
  have hlen : L.length + R.length = S.length := by
    have := List.length_eq_length_filter_add (l := S) (fun a => decide (a.v n.feature ≤ n.threshold))
    simp only [not_le_decide] at this
    exact this.symm
  have hmw : (envParams E g w rows.length).minWeightLeaf = g.minWeightFraction * total := by
    cases w <;> rfl
  rw [hmw, grf_cutState] at b5 b6
  have c1 : g.minSamplesLeaf ≤ L.length := b1
  have c2 : g.minSamplesLeaf ≤ S.length - L.length := b2
  have c3 : 0 < L.length := b3
  have c4 : L.length < S.length := b4
  exact ⟨c1, by omega, c3, by omega, b5, b6⟩

/-- **C89.** What the pseudo outcomes are: if the solver's pseudo inverse inverts the (ridge-regularised) covariance matrix of the
treatments of the node, the pseudo outcome of a row is the sum of the coefficients `ψ` that solve the linear system with this
matrix and with the row's centred treatments times its regression residual on the right: the influence of the row on the
local regression. -/
theorem C89_pseudo_outcome (ridge : K) (solve : List (GSample K d) → Fin d → K)
    (pinv : (Fin d → Fin d → K) → Fin d → Fin d → K) (rows : List (GSample K d)) (a : GSample K d) :
    let mx : Fin d → K := fun k => (rows.map (fun b => b.x k)).sum / (rows.length : K)
    let G : Fin d → Fin d → K := fun j k =>
      (rows.map (fun b => (b.x j - mx j) * (b.x k - mx k) / (rows.length : K))).sum + (if j = k then ridge else 0)
    let res : K := a.y - meanY rows - ∑ k, (a.x k - mx k) * solve rows k
    (∀ j l, ∑ k, pinv G j k * G k l = if j = l then 1 else 0) →
      ∃ ψ : Fin d → K, (∀ l, ∑ k, G l k * ψ k = (a.x l - mx l) * res) ∧ rho ridge solve pinv rows a = ∑ k, ψ k := by
  intro mx G res hinv
  have hsym : ∀ l k, G l k = G k l := by
    intro l k
    show (rows.map (fun b => (b.x l - mx l) * (b.x k - mx k) / (rows.length : K))).sum + (if l = k then ridge else 0) =
      (rows.map (fun b => (b.x k - mx k) * (b.x l - mx l) / (rows.length : K))).sum + (if k = l then ridge else 0)
    have e : (if l = k then ridge else 0) = if k = l then ridge else 0 := by
      by_cases h : l = k
      · simp [h]
      · rw [if_neg h, if_neg (Ne.symm h)]
    rw [e]
    congr 2
    apply List.map_congr_left
    intro b _
    ring
  refine ⟨fun k => ∑ j, pinv G j k * ((a.x j - mx j) * res), fun l => ?_, rfl⟩
  have e1 : ∑ k, G l k * ∑ j, pinv G j k * ((a.x j - mx j) * res) =
      ∑ j, (∑ k, pinv G j k * G k l) * ((a.x j - mx j) * res) := by
    simp only [Finset.mul_sum, Finset.sum_mul]
    rw [Finset.sum_comm]
    apply Finset.sum_congr rfl
    intro j _
    apply Finset.sum_congr rfl
    intro k _
    rw [hsym l k]
    ring
  rw [e1]
  simp [hinv]

/-- one treatment, rows with treatments 0 and 2: the matrix is `1 + ridge` and its inverse is the reciprocal -/
example : ∃ ψ : Fin 1 → ℚ, ∑ k, ψ k = rho (1 / 10) (fun _ _ => 3) (fun M j k => if j = k then 1 / M j j else 0)
    [⟨fun _ => 0, ![0], 1⟩, ⟨fun _ => 0, ![2], 5⟩] ⟨fun _ => 0, ![2], 5⟩ := by
  obtain ⟨ψ, -, h⟩ := C89_pseudo_outcome (d := 1) (1 / 10 : ℚ) (fun _ _ => 3) (fun M j k => if j = k then 1 / M j j else 0)
    [⟨fun _ => 0, ![0], 1⟩, ⟨fun _ => 0, ![2], 5⟩] ⟨fun _ => 0, ![2], 5⟩ (by decide +kernel)
  exact ⟨ψ, h.symm⟩

/-- **C89.** If all training samples have the same treatment, nothing can be learnt about its effect, and indeed only
the root can be split: the tree has depth at most 1. -/
theorem C89_constant_treatment {E : GrfEnv K d} (hE : SoundEnv E) (heps : 0 ≤ E.eps) {g : GrfSettings K}
    (hw : g.minWeightFraction = 0) (w : Option (List K)) (rows : List (GSample K d)) {c : Fin d → K}
    (hc : ∀ a ∈ rows, a.x = c) :
    (∀ i n, (grfFit E g w rows).1[i]? = some n → n.left ≠ none → i = 0) ∧ (grfFit E g w rows).2 ≤ 1 := by
  obtain ⟨G, sp, dd, e, h, h1, h2⟩ := buildBest_spec (P := envParams E g w rows.length) (C := envCrit E)
    (x := fun a => a.v) (draw := E.draw) hE.heap (g.maxLeafNodes.getD 1000) rows
  have e' : grfFit E g w rows = (G.map (fun p => p.2), dd) := e
  have hP := envParams_sound hE g w rows.length
  -- the children of a node have impurity 0
  have child : ∀ (j : Nat) (r : Rec (GSample K d) K) (n : Node K K), 0 < j → G[j]? = some (r, n) →
      r.impurity = 0 ∧ ∃ (p : Nat) (rp : Rec (GSample K d) K) (np : Node K K), G[p]? = some (rp, np) ∧ np.left ≠ none ∧ r.depth = rp.depth + 1 := by
    intro j r n hj hjr
    obtain ⟨p, rp, np, p1, p2, p3⟩ := h.par j r n hj hjr
    have hnl : np.left ≠ none := by
      rcases h.shape p rp np p2 with hh | ⟨s, l, nl, nr, _, hl, _⟩
      · rcases p3 with p3 | p3
        · rw [hh.1] at p3; cases p3.1
        · rw [hh.2] at p3; cases p3.1
      · rw [hl]; simp
    obtain ⟨s, l, nl, nr, s1, s2, s3, s4, s5, s6, s7, s8⟩ := inner_step h p2 hnl
    obtain ⟨_, _, _, i1, i2⟩ := grf_splitOf hE hw w rows.length _ p rp s s1
    have hsub : ∀ a ∈ rp.rows, a ∈ rows := by
      intro a ha
      have := (best_rows hP (fun l => grfCriterion_sound _) h p rp np p2).subset ha
      exact List.mem_of_mem_filter this
    have hz : ∀ a ∈ rp.rows, rho E.ridge E.solve E.pinv rp.rows a = 0 :=
      fun a ha => rho_const _ _ _ (fun b hb => hc b (hsub b hb)) ha
    rcases p3 with ⟨p3, _⟩ | ⟨p3, _⟩
    · have : l = j := by rw [s2] at p3; exact Option.some.inj p3
      subst this
      rw [s5] at hjr
      cases hjr
      refine ⟨?_, p, rp, np, p2, hnl, rfl⟩
      show s.impurityLeft = 0
      rw [i1, sum_rho_zero hz (fun a ha => List.mem_of_mem_filter ha)]
      simp
    · have : l + 1 = j := by rw [s3] at p3; exact Option.some.inj p3
      subst this
      rw [s6] at hjr
      cases hjr
      refine ⟨?_, p, rp, np, p2, hnl, rfl⟩
      show s.impurityRight = 0
      rw [i2, sum_rho_zero hz (fun a ha => List.mem_of_mem_filter ha)]
      simp
  have inner : ∀ (i : Nat) (r : Rec (GSample K d) K) (n : Node K K), G[i]? = some (r, n) → n.left ≠ none → i = 0 := by
    intro i r n hi hn
    by_contra h0
    obtain ⟨q1, _⟩ := child i r n (by omega) hi
    obtain ⟨s, l, nl, nr, s1, _⟩ := inner_step h hi hn
    have : cutOf (envParams E g w rows.length) (envCrit E) (fun a => a.v) E.draw i r = none := by
      unfold cutOf splitOf
      rw [if_pos]
      unfold stops
      simp only [Bool.or_eq_true, decide_eq_true_eq]
      right
      rw [q1]
      exact heps
    rw [this] at s1
    cases s1
  rw [e']
  constructor
  · intro i n hi hn
    simp only [List.getElem?_map] at hi
    cases hg : G[i]? with
    | none => rw [hg] at hi; cases hi
    | some rn =>
      obtain ⟨r, n'⟩ := rn
      rw [hg] at hi
      cases hi
      exact inner i r n' hg hn
  · show dd ≤ 1
    rcases h.attained with h0 | ⟨i, r, n, a1, a2⟩
    · omega
    · by_cases hi : i = 0
      · subst hi
        obtain ⟨n0, hn0⟩ := h.first
        rw [hn0] at a1
        cases a1
        have : (bestRoot (envCrit E) rows).depth = 0 := rfl
        omega
      · obtain ⟨_, p, rp, np, b1, b2, b3⟩ := child i r n (by omega) a1
        have := inner p rp np b1 b2
        subst this
        obtain ⟨n0, hn0⟩ := h.first
        rw [hn0] at b1
        cases b1
        have : (bestRoot (envCrit E) rows).depth = 0 := rfl
        omega

/-! ### a concrete forest tree -/

/-- the index of a record with the largest improvement -/
def argmaxFront {A K : Type} [Field K] [LinearOrder K] : List (Front A K) → Nat
  | [] => 0
  | f :: fs => match fs[argmaxFront fs]? with
    | none => 0
    | some f' => if f.improvement < f'.improvement then argmaxFront fs + 1 else 0

theorem argmaxFront_sound {A : Type} : SoundHeap (argmaxFront (A := A) (K := K)) := by
  intro front
  induction front with
  | nil => intro h; exact absurd rfl h
  | cons f fs ih =>
    intro _
    cases fs with
    | nil => exact ⟨f, rfl, by simp⟩
    | cons g gs =>
      obtain ⟨m, hm, hmax⟩ := ih (by simp)
      unfold argmaxFront
      rw [hm]
      simp only
      by_cases hlt : f.improvement < m.improvement
      · rw [if_pos hlt]
        refine ⟨m, by simpa using hm, ?_⟩
        intro f' hf'
        rcases List.mem_cons.mp hf' with rfl | hf'
        · exact hlt.le
        · exact hmax f' hf'
      · rw [if_neg hlt]
        refine ⟨f, rfl, ?_⟩
        intro f' hf'
        rcases List.mem_cons.mp hf' with rfl | hf'
        · exact le_rfl
        · exact le_trans (hmax f' hf') (not_lt.mp hlt)

/-- a `GrfTree` environment for one treatment column: least squares without intercept, as `eigen_solve` does, and the
reciprocal -/
def stdEnv : GrfEnv ℚ 1 where
  bigDepth := 2147483647
  eps := 0
  thr := 0
  ridge := 1 / 10000000
  sort g l := l.insertionSort (fun a b => g a ≤ g b)
  mid a b := (a + b) / 2
  solve l _ := (l.map (fun a => a.x 0 * a.y)).sum / (l.map (fun a => a.x 0 * a.x 0)).sum
  pinv m j k := 1 / m j k
  draw _ := [0]
  pick := argmaxFront

theorem stdEnv_sound : SoundEnv stdEnv where
  perm g l := List.perm_insertionSort _ l
  sorted g l := by
    haveI : Std.Total (fun a b : GSample ℚ 1 => g a ≤ g b) := ⟨fun a b => le_total (g a) (g b)⟩
    haveI : IsTrans (GSample ℚ 1) (fun a b => g a ≤ g b) := ⟨fun a b c => le_trans⟩
    exact List.pairwise_insertionSort _ l
  mid a b h := by
    constructor
    · show a ≤ (a + b) / 2
      linarith
    · show (a + b) / 2 ≤ b
      linarith
  thr := le_refl _
  heap := argmaxFront_sound

theorem stdEnv_solve : ∀ l l', l.Perm l' → stdEnv.solve l = stdEnv.solve l' := by
  intro l l' h
  funext k
  show (l.map (fun a => a.x 0 * a.y)).sum / (l.map (fun a => a.x 0 * a.x 0)).sum = _
  rw [(h.map _).sum_eq, (h.map (fun a : GSample ℚ 1 => a.x 0 * a.x 0)).sum_eq]
  rfl

/-- a sample -/
def gs (v x y : ℚ) : GSample ℚ 1 := ⟨fun _ => v, fun _ => x, y⟩

/-- the default settings with at most `m` leaves -/
def leaves (m : Option Nat) : GrfSettings ℚ := ⟨none, 2, 1, m, 0, 0⟩

/-- four samples without treatment effect for small covariates and with one for large ones -/
def grfRows : List (GSample ℚ 1) := [gs 0 0 1, gs 1 1 1, gs 2 0 0, gs 3 1 4]

/-- with three leaves allowed, one of the children of the root is expanded and the other stays a leaf -/
example : ((grfFit stdEnv (leaves (some 3)) none grfRows).1.map (fun n => (n.left, n.feature, n.threshold)) =
      [(some 1, 0, 3 / 2), (some 3, 0, 1 / 2), (none, 0, 0), (none, 0, 0), (none, 0, 0)] ∨
    (grfFit stdEnv (leaves (some 3)) none grfRows).1.map (fun n => (n.left, n.feature, n.threshold)) =
      [(some 1, 0, 3 / 2), (none, 0, 0), (some 3, 0, 5 / 2), (none, 0, 0), (none, 0, 0)]) ∧
    (grfFit stdEnv (leaves (some 3)) none grfRows).2 = 2 := by decide +kernel

/-- predictions, and the samples they average -/
example : predict (grfFit stdEnv (leaves (some 2)) none grfRows).1 (fun _ => 3) = some 2 ∧
    (mates (grfFit stdEnv (leaves (some 2)) none grfRows).1 (fun a => a.v) grfRows (fun _ => 3)).length = 2 := by
  decide +kernel

/-- the same treatment for all: one split -/
example : ((grfFit stdEnv (leaves none) none (grfRows.map (fun a => gs (a.v 0) 1 a.y))).1.map (fun n => n.left)) =
    [some 1, none, none] := by decide +kernel

/-- samples whose first split depends on the level of the outcome -/
def shiftRows (c : ℚ) : List (GSample ℚ 1) := [gs 0 1 (1 + c), gs 1 0 c, gs 2 1 c, gs 3 1 c]

/-- **C89, refuted for the level of the outcome.** Adding the same number to all outcomes changes no treatment effect,
but it changes where the tree is split: the local regression has no intercept. -/
theorem C89_shift_refuted :
    ((grfFit stdEnv (leaves (some 2)) none (shiftRows 0)).1.map (fun n => n.threshold)) = [1 / 2, 0, 0] ∧
    ((grfFit stdEnv (leaves (some 2)) none (shiftRows 10)).1.map (fun n => n.threshold)) = [3 / 2, 0, 0] := by
  decide +kernel

end YL.Props
