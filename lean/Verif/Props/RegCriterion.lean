import Verif.Model.RegCriterion
import Verif.Props.ClassCriterion

/-!
# C180: what the regression criteria measure
-/
set_option linter.unusedSectionVars false

namespace YL.Spec
open YL.Crit YL.Tree YL.Reg Finset

variable {K : Type} [Field K] [LinearOrder K]

/-- the total weight -/
def totalOf (S : List (Measured K)) : K := (S.map (fun a => a.w)).sum

/-- the weighted mean of an outcome -/
def outcomeMean (k : Nat) (S : List (Measured K)) : K := (S.map (fun a => a.w * a.y k)).sum / totalOf S

/-- the weighted variance, averaged over the outcomes -/
def varianceOf (outs : Nat) (S : List (Measured K)) : K :=
  (∑ k ∈ range outs, (S.map (fun a => a.w * (a.y k - outcomeMean k S) ^ 2)).sum / totalOf S) / (outs : K)

end YL.Spec

namespace YL.Props
open YL.Crit YL.Tree YL.Gini YL.Reg YL.Spec Finset

variable {K : Type} [Field K] [LinearOrder K] [IsStrictOrderedRing K]

/-- **C180.** The incrementally updated sums are those of the samples on the two sides, so that the theorems on splits
and trees (C79, C81-C83, C177) hold for `MSE` and `FriedmanMSE`. -/
theorem C180_sums_sound (outs : Nat) (N : K) :
    SoundCriterion (mseCriterion outs N) ∧ SoundCriterion (friedmanCriterion outs N) := by
  constructor
  all_goals
    intro h c p h1 h2 h3 h4 h5
    have hinv : CritInv h { c with right := (segment h c.pos c.stop).sum } :=
      ⟨h1, le_trans h2 h3, h4, h5, rfl⟩
    obtain ⟨u1, u2, u3, u4, u5⟩ := critInv_updateGrf (c := { c with right := (segment h c.pos c.stop).sum }) hinv h2 h3
    have e : updateGrf h { c with right := (segment h c.pos c.stop).sum } p = updateCounts h c p := by
      unfold updateGrf updateCounts reverseReset
      rfl
    rw [e] at u1 u2 u3 u4 u5
    have f1 : (updateCounts h c p).start = c.start := rfl
    have f2 : (updateCounts h c p).stop = c.stop := rfl
    have f3 : (updateCounts h c p).total = c.total := rfl
    have f4 : (updateCounts h c p).pos = p := rfl
    show updateCounts h c p = _
    rw [f1, f4] at u4
    rw [f2, f4] at u5
    generalize updateCounts h c p = d at *
    obtain ⟨a, b, q, t, l, r⟩ := d
    simp only at f1 f2 f3 f4 u4 u5
    subst f1 f2 f3 f4 u4 u5
    rfl

theorem moments_w (outs : Nat) (S : List (Measured K)) : ((S.map (momentsOf outs)).sum).2.2 = totalOf S := by
  unfold totalOf
  induction S with
  | nil => rfl
  | cons a S ih => simp only [List.map_cons, List.sum_cons, Prod.snd_add, ih]; rfl

theorem moments_q (outs : Nat) (S : List (Measured K)) :
    ((S.map (momentsOf outs)).sum).2.1 = ∑ k ∈ range outs, (S.map (fun a => a.w * a.y k * a.y k)).sum := by
  induction S with
  | nil => simp
  | cons a S ih =>
    simp only [List.map_cons, List.sum_cons, Prod.snd_add, Prod.fst_add, ih, Finset.sum_add_distrib]
    rfl

theorem moments_s (outs : Nat) (S : List (Measured K)) (k : Nat) :
    ((S.map (momentsOf outs)).sum).1 k = (S.map (fun a => a.w * a.y k)).sum := by
  induction S with
  | nil => rfl
  | cons a S ih => simp only [List.map_cons, List.sum_cons, Prod.fst_add, Pi.add_apply, ih]; rfl

theorem square_dev (k : Nat) (m : K) (S : List (Measured K)) :
    (S.map (fun a => a.w * (a.y k - m) ^ 2)).sum =
      (S.map (fun a => a.w * a.y k * a.y k)).sum - 2 * m * (S.map (fun a => a.w * a.y k)).sum + m ^ 2 * totalOf S := by
  unfold totalOf
  induction S with
  | nil => simp
  | cons a S ih => simp only [List.map_cons, List.sum_cons, ih]; ring

/-- **C180.** The mean squared error of a node is the weighted variance of its outcomes, averaged over the outcomes; its
value is the vector of weighted means. -/
theorem C180_mse_variance (outs : Nat) (N : K) (S : List (Measured K)) (hw : totalOf S ≠ 0) :
    (mseCriterion outs N).nodeImpurity ((S.map (momentsOf outs)).sum) = varianceOf outs S ∧
    (∀ k, (mseCriterion outs N).value ((S.map (momentsOf outs)).sum) k = outcomeMean k S) ∧
    (mseCriterion outs N).weight S = totalOf S := by
  refine ⟨?_, ?_, rfl⟩
  · show mse outs _ _ _ = _
    unfold mse varianceOf
    rw [moments_w, moments_q]
    congr 1
    rw [Finset.sum_div, ← Finset.sum_sub_distrib]
    apply Finset.sum_congr rfl
    intro k _
    rw [moments_s, square_dev]
    unfold outcomeMean
    field_simp
    ring
  · intro k
    show ((S.map (momentsOf outs)).sum).1 k / ((S.map (momentsOf outs)).sum).2.2 = _
    rw [moments_s, moments_w]
    rfl

theorem varianceOf_nonneg (outs : Nat) (S : List (Measured K)) (hw : ∀ a ∈ S, 0 ≤ a.w) : 0 ≤ varianceOf outs S := by
  have hW : 0 ≤ totalOf S := by
    apply List.sum_nonneg
    intro v hv
    obtain ⟨a, ha, rfl⟩ := List.mem_map.mp hv
    exact hw a ha
  apply div_nonneg _ (Nat.cast_nonneg _)
  apply Finset.sum_nonneg
  intro k _
  apply div_nonneg _ hW
  apply List.sum_nonneg
  intro v hv
  obtain ⟨a, ha, rfl⟩ := List.mem_map.mp hv
  exact mul_nonneg (hw a ha) (sq_nonneg _)

/-- The samples before the position are those on the left. -/
def InOrder (outs : Nat) (h : Nat → Moments K) (S : List (Measured K)) (le : Measured K → Bool) : Prop :=
  (segment h 0 (S.filter le).length).sum = ((S.filter le).map (momentsOf outs)).sum

/-- **C180.** The impurities of the two sides are their own variances, although the sum of squares is only known for
the node. -/
theorem C180_children (outs : Nat) (N : K) (S : List (Measured K)) (le : Measured K → Bool)
    (hl : totalOf (S.filter le) ≠ 0) (hr : totalOf (S.filter (fun a => !le a)) ≠ 0) (h : Nat → Moments K)
    (hh : InOrder outs h S le) :
    (mseCriterion outs N).children h (cutState (momentsOf outs) S le) =
      (varianceOf outs (S.filter le), varianceOf outs (S.filter (fun a => !le a))) := by
  rw [← (C180_mse_variance outs N _ hl).1, ← (C180_mse_variance outs N _ hr).1]
  show mseChildren outs h _ = _
  unfold mseChildren
  have e : sumUp h (cutState (momentsOf outs) S le).start (cutState (momentsOf outs) S le).pos =
      ((S.filter le).map (momentsOf outs)).sum := by
    rw [sumUp_eq]; exact hh
  have e2 : (cutState (momentsOf outs) S le).total.2.1 - (((S.filter le).map (momentsOf outs)).sum).2.1 =
      (((S.filter (fun a => !le a)).map (momentsOf outs)).sum).2.1 := by
    show ((S.map (momentsOf outs)).sum).2.1 - _ = _
    rw [sum_filter_split (momentsOf outs) le S]
    simp
  simp only [e, e2]
  rfl

/-- the improvement of a cut, times the constants, is the proxy less a constant of the node -/
theorem mse_improvement (outs : Nat) (ho : 0 < outs) (N : K) (hN : N ≠ 0) (S : List (Measured K))
    (le : Measured K → Bool) (hl : 0 < totalOf (S.filter le)) (hr : 0 < totalOf (S.filter (fun a => !le a)))
    (h : Nat → Moments K) (hh : InOrder outs h S le) :
    let C := mseCriterion outs N
    let c := cutState (momentsOf outs) S le
    N * outs * C.improvement (C.nodeImpurity c.total) (C.children h c).1 (C.children h c).2 c =
      C.proxy c - (∑ k ∈ range outs, ((S.map (momentsOf outs)).sum).1 k * ((S.map (momentsOf outs)).sum).1 k) /
        totalOf S := by
  intro C c
  have hT : totalOf S = totalOf (S.filter le) + totalOf (S.filter (fun a => !le a)) :=
    sum_filter_split (fun a : Measured K => a.w) le S
  have hS : 0 < totalOf S := by rw [hT]; exact add_pos hl hr
  have hout : (outs : K) ≠ 0 := by exact_mod_cast ne_of_gt ho
  have hc : C.children h c = (mse outs c.left.1 c.left.2.1 c.left.2.2, mse outs c.right.1 c.right.2.1 c.right.2.2) := by
    rw [C180_children outs N S le (ne_of_gt hl) (ne_of_gt hr) h hh, ← (C180_mse_variance outs N _ (ne_of_gt hl)).1,
      ← (C180_mse_variance outs N _ (ne_of_gt hr)).1]
    rfl
  rw [hc]
  show N * outs * (c.total.2.2 / N * (mse outs c.total.1 c.total.2.1 c.total.2.2 -
    c.right.2.2 / c.total.2.2 * mse outs c.right.1 c.right.2.1 c.right.2.2 -
    c.left.2.2 / c.total.2.2 * mse outs c.left.1 c.left.2.1 c.left.2.2)) = mseProxy outs c - _
  have w1 : c.total.2.2 = totalOf S := moments_w outs S
  have w2 : c.left.2.2 = totalOf (S.filter le) := moments_w outs _
  have w3 : c.right.2.2 = totalOf (S.filter (fun a => !le a)) := moments_w outs _
  have q1 : c.total.2.1 = c.left.2.1 + c.right.2.1 := by
    show ((S.map (momentsOf outs)).sum).2.1 = _
    rw [sum_filter_split (momentsOf outs) le S]
    rfl
  have s1 : c.total.1 = ((S.map (momentsOf outs)).sum).1 := rfl
  have key : ∀ (s : Nat → K) (q w : K), w ≠ 0 →
      w * mse outs s q w = (q - (∑ k ∈ range outs, s k * s k) / w) / outs := by
    intro s q w hw
    unfold mse
    have : ∑ k ∈ range outs, (s k / w) ^ 2 = (∑ k ∈ range outs, s k * s k) / w / w := by
      rw [Finset.sum_div, Finset.sum_div]
      apply Finset.sum_congr rfl
      intro k _
      field_simp
    rw [this]
    field_simp
  have k1 := key c.total.1 c.total.2.1 c.total.2.2 (by rw [w1]; exact ne_of_gt hS)
  have k2 := key c.left.1 c.left.2.1 c.left.2.2 (by rw [w2]; exact ne_of_gt hl)
  have k3 := key c.right.1 c.right.2.1 c.right.2.2 (by rw [w3]; exact ne_of_gt hr)
  have hw : c.total.2.2 ≠ 0 := by rw [w1]; exact ne_of_gt hS
  have e : N * outs * (c.total.2.2 / N * (mse outs c.total.1 c.total.2.1 c.total.2.2 -
      c.right.2.2 / c.total.2.2 * mse outs c.right.1 c.right.2.1 c.right.2.2 -
      c.left.2.2 / c.total.2.2 * mse outs c.left.1 c.left.2.1 c.left.2.2)) =
      outs * (c.total.2.2 * mse outs c.total.1 c.total.2.1 c.total.2.2 -
        c.right.2.2 * mse outs c.right.1 c.right.2.1 c.right.2.2 -
        c.left.2.2 * mse outs c.left.1 c.left.2.1 c.left.2.2) := by
    generalize mse outs c.total.1 c.total.2.1 c.total.2.2 = m1
    generalize mse outs c.right.1 c.right.2.1 c.right.2.2 = m2
    generalize mse outs c.left.1 c.left.2.1 c.left.2.2 = m3
    field_simp
  rw [e, k1, k2, k3, ← sub_div, ← sub_div, mul_div_cancel₀ _ hout, q1, s1, w1]
  unfold mseProxy
  ring

/-- **C180.** No split makes the mean squared error worse. -/
theorem C180_mse_never_worse (outs : Nat) (ho : 0 < outs) (N : K) (hN : 0 < N) (S : List (Measured K))
    (le : Measured K → Bool) (hl : 0 < totalOf (S.filter le)) (hr : 0 < totalOf (S.filter (fun a => !le a)))
    (h : Nat → Moments K) (hh : InOrder outs h S le) :
    let C := mseCriterion outs N
    let c := cutState (momentsOf outs) S le
    0 ≤ C.improvement (C.nodeImpurity c.total) (C.children h c).1 (C.children h c).2 c := by
  intro C c
  have hi := mse_improvement outs ho N (ne_of_gt hN) S le hl hr h hh
  have hout : (0 : K) < outs := by exact_mod_cast ho
  have : 0 ≤ C.proxy c - (∑ k ∈ range outs, ((S.map (momentsOf outs)).sum).1 k * ((S.map (momentsOf outs)).sum).1 k) /
        totalOf S := by
    rw [sub_nonneg]
    show _ ≤ mseProxy outs c
    unfold mseProxy
    have w2 : c.left.2.2 = totalOf (S.filter le) := moments_w outs _
    have w3 : c.right.2.2 = totalOf (S.filter (fun a => !le a)) := moments_w outs _
    rw [w2, w3, sum_filter_split (fun a : Measured K => a.w) le S |> (fun e : totalOf S = totalOf (S.filter le) +
      totalOf (S.filter (fun a => !le a)) => e), Finset.sum_div, Finset.sum_div, Finset.sum_div,
      ← Finset.sum_add_distrib]
    apply Finset.sum_le_sum
    intro k _
    have es : ((S.map (momentsOf outs)).sum).1 k = c.left.1 k + c.right.1 k := by
      rw [sum_filter_split (momentsOf outs) le S]; rfl
    rw [es]
    exact square_split hl hr
  rw [← hi] at this
  exact nonneg_of_mul_nonneg_right this (mul_pos hN hout)

/-- **C180.** The proxy that the splitter compares ranks the cuts of a node exactly as the improvement does. -/
theorem C180_proxy_ranks (outs : Nat) (ho : 0 < outs) (N : K) (hN : 0 < N) (S : List (Measured K))
    (le le' : Measured K → Bool) (hl : 0 < totalOf (S.filter le)) (hr : 0 < totalOf (S.filter (fun a => !le a)))
    (hl' : 0 < totalOf (S.filter le')) (hr' : 0 < totalOf (S.filter (fun a => !le' a)))
    (h h' : Nat → Moments K) (hh : InOrder outs h S le) (hh' : InOrder outs h' S le') :
    let C := mseCriterion outs N
    let c := cutState (momentsOf outs) S le
    let c' := cutState (momentsOf outs) S le'
    C.proxy c ≤ C.proxy c' ↔
      C.improvement (C.nodeImpurity c.total) (C.children h c).1 (C.children h c).2 c ≤
      C.improvement (C.nodeImpurity c'.total) (C.children h' c').1 (C.children h' c').2 c' := by
  have i1 := mse_improvement outs ho N (ne_of_gt hN) S le hl hr h hh
  have i2 := mse_improvement outs ho N (ne_of_gt hN) S le' hl' hr' h' hh'
  have hout : (0 : K) < outs := by exact_mod_cast ho
  dsimp only at i1 i2 ⊢
  generalize (mseCriterion outs N).improvement _ _ _ (cutState (momentsOf outs) S le) = I at *
  generalize (mseCriterion outs N).improvement _ _ _ (cutState (momentsOf outs) S le') = I' at *
  have e := mul_le_mul_iff_right₀ (b := I) (c := I') (mul_pos hN hout)
  rw [i1, i2, sub_le_sub_iff_right] at e
  exact e

/-- **C180.** `FriedmanMSE` with one outcome: the improvement is formula (35), and it is `N` times that of `MSE`. -/
theorem C180_friedman (N : K) (hN : N ≠ 0) (S : List (Measured K)) (le : Measured K → Bool)
    (hl : 0 < totalOf (S.filter le)) (hr : 0 < totalOf (S.filter (fun a => !le a))) (h : Nat → Moments K)
    (hh : InOrder 1 h S le) (i a b : K) :
    let C := mseCriterion 1 N
    let F := friedmanCriterion 1 N
    let c := cutState (momentsOf 1) S le
    let R := S.filter (fun a => !le a)
    F.improvement i a b c = totalOf (S.filter le) * totalOf R * (outcomeMean 0 (S.filter le) - outcomeMean 0 R) ^ 2 /
      (totalOf (S.filter le) + totalOf R) ∧
    F.improvement i a b c = N * C.improvement (C.nodeImpurity c.total) (C.children h c).1 (C.children h c).2 c ∧
    F.proxy c = totalOf S * F.improvement i a b c := by
  intro C F c R
  have hT : totalOf S = totalOf (S.filter le) + totalOf R :=
    sum_filter_split (fun a : Measured K => a.w) le S
  have hS : 0 < totalOf S := by rw [hT]; exact add_pos hl hr
  have w1 : c.total.2.2 = totalOf S := moments_w 1 S
  have w2 : c.left.2.2 = totalOf (S.filter le) := moments_w 1 _
  have w3 : c.right.2.2 = totalOf R := moments_w 1 _
  have s2 : c.left.1 0 = outcomeMean 0 (S.filter le) * totalOf (S.filter le) := by
    rw [outcomeMean, div_mul_cancel₀ _ (ne_of_gt hl)]; exact moments_s 1 _ 0
  have s3 : c.right.1 0 = outcomeMean 0 R * totalOf R := by
    rw [outcomeMean, div_mul_cancel₀ _ (ne_of_gt hr)]; exact moments_s 1 _ 0
  have f1 : F.improvement i a b c = totalOf (S.filter le) * totalOf R *
      (outcomeMean 0 (S.filter le) - outcomeMean 0 R) ^ 2 / (totalOf (S.filter le) + totalOf R) := by
    show friedmanImprovement 1 c = _
    unfold friedmanImprovement
    simp only [Finset.sum_range_one, w1, w2, w3, s2, s3, hT, Nat.cast_one, div_one]
    have := ne_of_gt (add_pos hl hr)
    have h1 := ne_of_gt hl
    have h2 := ne_of_gt hr
    generalize totalOf (S.filter le) = p at *
    generalize totalOf R = q at *
    generalize outcomeMean 0 (S.filter le) = m at *
    generalize outcomeMean 0 R = n at *
    field_simp
  refine ⟨f1, ?_, ?_⟩
  · have hi := mse_improvement 1 one_pos N hN S le hl hr h hh
    rw [Nat.cast_one, mul_one] at hi
    rw [hi, f1]
    show _ = mseProxy 1 c - _
    unfold mseProxy
    have es : ((S.map (momentsOf 1)).sum).1 0 = c.left.1 0 + c.right.1 0 := by
      rw [sum_filter_split (momentsOf 1) le S]; rfl
    simp only [Finset.sum_range_one, es, w2, w3, s2, s3, hT]
    have := ne_of_gt (add_pos hl hr)
    have h1 := ne_of_gt hl
    have h2 := ne_of_gt hr
    change totalOf R ≠ 0 at h2
    change totalOf (S.filter le) + totalOf R ≠ 0 at this
    generalize totalOf (S.filter le) = p at *
    generalize totalOf R = q at *
    generalize outcomeMean 0 (S.filter le) = m at *
    generalize outcomeMean 0 R = n at *
    field_simp
    ring
  · show friedmanProxy 1 c = totalOf S * friedmanImprovement 1 c
    unfold friedmanProxy friedmanImprovement
    simp only [Nat.cast_one, div_one, w1]
    rw [mul_div_assoc', mul_comm (totalOf S), mul_div_mul_right _ _ (ne_of_gt hS)]

/-! ### concrete cases -/

/-- three samples of two outcomes that move in opposite directions -/
def measuredRows : List (Measured ℚ) :=
  [⟨fun _ => 0, fun k => if k = 0 then 1 else 9, 1⟩, ⟨fun _ => 1, fun k => if k = 0 then 5 else 5, 2⟩,
   ⟨fun _ => 1, fun k => if k = 0 then 9 else 1, 2⟩]

/-- the cut that separates the first sample -/
def measuredCut (a : Measured ℚ) : Bool := decide (a.x 0 ≤ 0)

example : totalOf measuredRows = 5 ∧ varianceOf 1 measuredRows = 224 / 25 ∧
    0 < totalOf (measuredRows.filter measuredCut) ∧ 0 < totalOf (measuredRows.filter (fun a => !measuredCut a)) := by
  decide +kernel

example : InOrder 2 (fun p => ((measuredRows.map (momentsOf 2))[p]?).getD 0) measuredRows measuredCut := by
  rfl

/-- With several outcomes `FriedmanMSE` compares the sums of all of them, so that opposite differences cancel: this cut
separates the two outcomes, and gets improvement 0, although `MSE` improves. -/
theorem C180_friedman_cancels_refuted :
    friedmanImprovement 2 (cutState (momentsOf 2) measuredRows measuredCut) = 0 ∧
    friedmanProxy 2 (cutState (momentsOf 2) measuredRows measuredCut) = 0 ∧
    varianceOf 2 (measuredRows.filter measuredCut) = 0 ∧
    varianceOf 2 (measuredRows.filter (fun a => !measuredCut a)) = 4 ∧ varianceOf 2 measuredRows = 224 / 25 := by
  decide +kernel

end YL.Props
