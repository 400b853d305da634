import Verif.Model.ClassCriterion
import Verif.Props.GrfTree
import Mathlib.Analysis.SpecialFunctions.Log.NegMulLog
import Mathlib.Algebra.BigOperators.Ring.List
import Mathlib.Algebra.Order.BigOperators.Group.Finset
import Mathlib.Algebra.Order.BigOperators.Group.List
import Mathlib.Algebra.BigOperators.Field
import Mathlib.Tactic.FieldSimp
import Mathlib.Tactic.Ring
import Mathlib.Tactic.Linarith
import Mathlib.Tactic.Positivity

/-!
# C179: what the classification criteria measure
-/
set_option linter.unusedSectionVars false

namespace YL.Spec
open YL.Crit YL.Tree YL.Gini

variable {K : Type} [Field K] [LinearOrder K]

/-- the weight of all ordered pairs of samples whose classes differ -/
def unlikePairs (k : Nat) (S : List (Labelled K)) : K :=
  (S.map (fun a => (S.map (fun b => if a.y k ≠ b.y k then a.w * b.w else 0)).sum)).sum

/-- the total weight -/
def labelWeight (S : List (Labelled K)) : K := (S.map (fun a => a.w)).sum

/-- the classes are those announced -/
def LabelsBelow (outs : Nat) (ncl : Nat → Nat) (S : List (Labelled K)) : Prop :=
  ∀ a ∈ S, ∀ k, k < outs → a.y k < ncl k

/-- all samples agree in every output -/
def OneClass (outs : Nat) (S : List (Labelled K)) : Prop :=
  ∀ a ∈ S, ∀ b ∈ S, ∀ k, k < outs → a.y k = b.y k

end YL.Spec

namespace YL.Props
open YL.Crit YL.Tree YL.Gini YL.Spec Finset

variable {K : Type} [Field K] [LinearOrder K] [IsStrictOrderedRing K]

/-- **C179.** The incrementally updated class weights are those of the samples on the two sides, so that the theorems
on splits and trees (C79, C81-C83, C177) hold for these criteria. -/
theorem C179_sums_sound (imp : Counts K → K) (N : K) : SoundCriterion (classification imp N) := by
  intro h c p h1 h2 h3 h4 h5
  have hinv : CritInv h { c with right := (segment h c.pos c.stop).sum } :=
    ⟨h1, le_trans h2 h3, h4, h5, rfl⟩
  obtain ⟨u1, u2, u3, u4, u5⟩ := critInv_updateGrf (c := { c with right := (segment h c.pos c.stop).sum }) hinv h2 h3
  have e : updateGrf h { c with right := (segment h c.pos c.stop).sum } p = updateCounts h c p := by
    unfold updateGrf updateCounts reverseReset
    rfl
  rw [e] at u1 u2 u3 u4 u5
  have f1 : (updateCounts h c p).start = c.start := rfl
  have f2 : (updateCounts h c p).stop = c.stop := rfl
  have f3 : (updateCounts h c p).total = c.total := rfl
  have f4 : (updateCounts h c p).pos = p := rfl
  show updateCounts h c p = _
  rw [f1, f4] at u4
  rw [f2, f4] at u5
  generalize updateCounts h c p = d at *
  obtain ⟨a, b, q, t, l, r⟩ := d
  simp only at f1 f2 f3 f4 u4 u5
  subst f1 f2 f3 f4 u4 u5
  rfl

theorem counts_snd (S : List (Labelled K)) : ((S.map countOf).sum).2 = labelWeight S := by
  unfold labelWeight
  induction S with
  | nil => rfl
  | cons a S ih => simp only [List.map_cons, List.sum_cons, Prod.snd_add, ih]; rfl

theorem counts_fst (S : List (Labelled K)) (k c : Nat) :
    ((S.map countOf).sum).1 k c = (S.map (fun a => if a.y k = c then a.w else 0)).sum := by
  induction S with
  | nil => rfl
  | cons a S ih => simp only [List.map_cons, List.sum_cons, Prod.fst_add, Pi.add_apply, ih]; rfl

theorem sum_by_class (n : Nat) (y : Labelled K → Nat) (g : Nat → K) : ∀ T : List (Labelled K), (∀ a ∈ T, y a < n) →
    ∑ c ∈ range n, (T.map (fun a => if y a = c then a.w else 0)).sum * g c = (T.map (fun a => a.w * g (y a))).sum := by
  intro T
  induction T with
  | nil => intro _; simp
  | cons a T ih =>
    intro h
    simp only [List.map_cons, List.sum_cons, add_mul, Finset.sum_add_distrib]
    rw [ih (fun b hb => h b (List.mem_cons_of_mem _ hb))]
    congr 1
    simp only [ite_mul, zero_mul, Finset.sum_ite_eq, Finset.mem_range]
    rw [if_pos (h a (List.mem_cons_self ..))]

theorem unlike_add (k n : Nat) (S : List (Labelled K)) (h : ∀ a ∈ S, a.y k < n) :
    unlikePairs k S + ∑ c ∈ range n, ((S.map countOf).sum).1 k c * ((S.map countOf).sum).1 k c =
      labelWeight S * labelWeight S := by
  have e : ∀ c, ((S.map countOf).sum).1 k c = (S.map (fun a => if a.y k = c then a.w else 0)).sum := counts_fst S k
  simp only [e]
  rw [sum_by_class n (fun a => a.y k) (fun c => (S.map (fun a => if a.y k = c then a.w else 0)).sum) S h]
  unfold unlikePairs
  rw [← List.sum_map_add]
  have : labelWeight S * labelWeight S = (S.map (fun a => a.w * labelWeight S)).sum := by
    rw [List.sum_map_mul_right]; rfl
  rw [this]
  congr 1
  apply List.map_congr_left
  intro a _
  unfold labelWeight
  rw [← List.sum_map_mul_left, ← List.sum_map_mul_left, ← List.sum_map_add]
  congr 1
  apply List.map_congr_left
  intro b _
  by_cases hab : a.y k = b.y k
  · rw [if_neg (not_not.mpr hab), if_pos hab.symm, zero_add]
  · rw [if_pos hab, if_neg (fun h => hab h.symm), mul_zero, add_zero]

/-- **C179.** The Gini index of a node is the chance that two samples drawn from it by weight differ in their class,
averaged over the outputs. -/
theorem C179_gini_pairs (outs : Nat) (ncl : Nat → Nat) (S : List (Labelled K)) (hl : LabelsBelow outs ncl S)
    (hw : labelWeight S ≠ 0) :
    gini outs ncl ((S.map countOf).sum) =
      (∑ k ∈ range outs, unlikePairs k S / (labelWeight S * labelWeight S)) / (outs : K) := by
  unfold gini
  congr 1
  apply Finset.sum_congr rfl
  intro k hk
  rw [counts_snd]
  have h := unlike_add k (ncl k) S (fun a ha => hl a ha k (Finset.mem_range.mp hk))
  have hww : labelWeight S * labelWeight S ≠ 0 := mul_ne_zero hw hw
  rw [eq_div_iff hww, sub_mul, div_mul_cancel₀ _ hww, ← h]
  ring

theorem labelWeight_pos {S : List (Labelled K)} (hS : S ≠ []) (hw : ∀ a ∈ S, 0 < a.w) : 0 < labelWeight S := by
  unfold labelWeight
  induction S with
  | nil => exact absurd rfl hS
  | cons a S ih =>
    simp only [List.map_cons, List.sum_cons]
    by_cases e : S = []
    · subst e; simpa using hw a (List.mem_cons_self ..)
    · exact add_pos (hw a (List.mem_cons_self ..)) (ih e (fun b hb => hw b (List.mem_cons_of_mem _ hb)))

theorem unlike_nonneg (k : Nat) (S : List (Labelled K)) (hw : ∀ a ∈ S, 0 < a.w) : 0 ≤ unlikePairs k S := by
  unfold unlikePairs
  apply List.sum_nonneg
  intro v hv
  obtain ⟨a, ha, rfl⟩ := List.mem_map.mp hv
  apply List.sum_nonneg
  intro v hv
  obtain ⟨b, hb, rfl⟩ := List.mem_map.mp hv
  by_cases e : a.y k = b.y k
  · rw [if_neg (not_not.mpr e)]
  · rw [if_pos e]; exact le_of_lt (mul_pos (hw a ha) (hw b hb))

theorem unlike_pos (k : Nat) (S : List (Labelled K)) (hw : ∀ a ∈ S, 0 < a.w) {a b : Labelled K} (ha : a ∈ S)
    (hb : b ∈ S) (hab : a.y k ≠ b.y k) : 0 < unlikePairs k S := by
  have inner : ∀ c ∈ S, ∀ v ∈ S.map (fun b => if c.y k ≠ b.y k then c.w * b.w else 0), 0 ≤ v := by
    intro c hc v hv
    obtain ⟨d, hd, rfl⟩ := List.mem_map.mp hv
    by_cases e : c.y k = d.y k
    · rw [if_neg (not_not.mpr e)]
    · rw [if_pos e]; exact le_of_lt (mul_pos (hw c hc) (hw d hd))
  have h1 : 0 < (S.map (fun b => if a.y k ≠ b.y k then a.w * b.w else 0)).sum := by
    refine lt_of_lt_of_le (mul_pos (hw a ha) (hw b hb)) (List.single_le_sum (inner a ha) _ ?_)
    exact List.mem_map.mpr ⟨b, hb, if_pos hab⟩
  refine lt_of_lt_of_le h1 (List.single_le_sum ?_ _ ?_)
  · intro v hv
    obtain ⟨c, hc, rfl⟩ := List.mem_map.mp hv
    exact List.sum_nonneg (inner c hc)
  · exact List.mem_map.mpr ⟨a, ha, rfl⟩

/-- **C179.** The Gini index is never negative, and 0 exactly at the nodes whose samples are all of one class. -/
theorem C179_gini_pure (outs : Nat) (ho : 0 < outs) (ncl : Nat → Nat) (S : List (Labelled K)) (hS : S ≠ [])
    (hl : LabelsBelow outs ncl S) (hw : ∀ a ∈ S, 0 < a.w) :
    0 ≤ gini outs ncl ((S.map countOf).sum) ∧ (gini outs ncl ((S.map countOf).sum) = 0 ↔ OneClass outs S) := by
  have hW := labelWeight_pos hS hw
  have ho' : (0 : K) < outs := by exact_mod_cast ho
  have hterm : ∀ k ∈ range outs, 0 ≤ unlikePairs k S / (labelWeight S * labelWeight S) :=
    fun k _ => div_nonneg (unlike_nonneg k S hw) (le_of_lt (mul_pos hW hW))
  rw [C179_gini_pairs outs ncl S hl (ne_of_gt hW)]
  refine ⟨div_nonneg (Finset.sum_nonneg hterm) (le_of_lt ho'), ?_⟩
  rw [div_eq_zero_iff, or_iff_left (ne_of_gt ho'), Finset.sum_eq_zero_iff_of_nonneg hterm]
  constructor
  · intro h a ha b hb k hk
    by_contra hab
    have := h k (Finset.mem_range.mpr hk)
    rw [div_eq_zero_iff, or_iff_left (ne_of_gt (mul_pos hW hW))] at this
    exact absurd this (ne_of_gt (unlike_pos k S hw ha hb hab))
  · intro h k hk
    rw [div_eq_zero_iff]
    left
    unfold unlikePairs
    apply List.sum_eq_zero
    intro v hv
    obtain ⟨a, ha, rfl⟩ := List.mem_map.mp hv
    apply List.sum_eq_zero
    intro v hv
    obtain ⟨b, hb, rfl⟩ := List.mem_map.mp hv
    rw [if_neg (not_not.mpr (h a ha b hb k (Finset.mem_range.mp hk)))]

/-! ### a split never makes things worse -/

theorem sum_filter_split {M : Type} [AddCommGroup M] {A : Type} (g : A → M) (le : A → Bool) (S : List A) :
    (S.map g).sum = ((S.filter le).map g).sum + ((S.filter (fun a => !le a)).map g).sum := by
  induction S with
  | nil => simp
  | cons a S ih =>
    cases h : le a
    · rw [List.filter_cons_of_neg (by simp [h]), List.filter_cons_of_pos (by simp [h])]
      simp only [List.map_cons, List.sum_cons, ih]; abel
    · rw [List.filter_cons_of_pos (by simp [h]), List.filter_cons_of_neg (by simp [h])]
      simp only [List.map_cons, List.sum_cons, ih]; abel

theorem square_split {a b p q : K} (hp : 0 < p) (hq : 0 < q) :
    (a + b) * (a + b) / (p + q) ≤ a * a / p + b * b / q := by
  rw [div_add_div _ _ (ne_of_gt hp) (ne_of_gt hq), div_le_div_iff₀ (add_pos hp hq) (mul_pos hp hq)]
  have : 0 ≤ (a * q - b * p) * (a * q - b * p) := mul_self_nonneg _
  nlinarith

theorem gini_split (outs : Nat) (ncl : Nat → Nat) (l r : Counts K) (hl : 0 < l.2) (hr : 0 < r.2) :
    l.2 * gini outs ncl l + r.2 * gini outs ncl r ≤ (l + r).2 * gini outs ncl (l + r) := by
  unfold gini
  rw [← mul_div_assoc, ← mul_div_assoc, ← mul_div_assoc, ← add_div]
  apply div_le_div_of_nonneg_right _ (Nat.cast_nonneg _)
  rw [Finset.mul_sum, Finset.mul_sum, Finset.mul_sum, ← Finset.sum_add_distrib]
  apply Finset.sum_le_sum
  intro k _
  have h2 : ∀ (w X : K), 0 < w → w * (1 - X / (w * w)) = w - X / w := by
    intro w X hw
    have := ne_of_gt hw
    field_simp
  have hs : (l + r).2 = l.2 + r.2 := rfl
  have hf : ∀ c, (l + r).1 k c = l.1 k c + r.1 k c := fun c => rfl
  rw [h2 _ _ hl, h2 _ _ hr, h2 _ _ (by rw [hs]; exact add_pos hl hr), hs]
  simp only [hf]
  have := Finset.sum_le_sum (s := range (ncl k)) (fun c _ => square_split (a := l.1 k c) (b := r.1 k c) hl hr)
  rw [Finset.sum_add_distrib, ← Finset.sum_div, ← Finset.sum_div, ← Finset.sum_div] at this
  linarith

theorem entropy_term {x w : ℝ} (hx : 0 ≤ x) :
    (if 0 < x then -(x / w * Real.log (x / w)) else 0) = Real.negMulLog (x / w) := by
  by_cases h : 0 < x
  · rw [if_pos h, Real.negMulLog, neg_mul]
  · rw [if_neg h, le_antisymm (not_lt.mp h) hx, zero_div, Real.negMulLog_zero]

theorem negMulLog_split {a b p q : ℝ} (ha : 0 ≤ a) (hb : 0 ≤ b) (hp : 0 < p) (hq : 0 < q) :
    p * Real.negMulLog (a / p) + q * Real.negMulLog (b / q) ≤ (p + q) * Real.negMulLog ((a + b) / (p + q)) := by
  have hpq := add_pos hp hq
  have h := Real.concaveOn_negMulLog.2 (show a / p ∈ Set.Ici (0 : ℝ) from div_nonneg ha hp.le)
    (show b / q ∈ Set.Ici (0 : ℝ) from div_nonneg hb hq.le)
    (show 0 ≤ p / (p + q) from div_nonneg hp.le hpq.le) (show 0 ≤ q / (p + q) from div_nonneg hq.le hpq.le)
    (by rw [← add_div, div_self (ne_of_gt hpq)])
  simp only [smul_eq_mul] at h
  have e : p / (p + q) * (a / p) + q / (p + q) * (b / q) = (a + b) / (p + q) := by
    field_simp
  rw [e] at h
  have := mul_le_mul_of_nonneg_left h hpq.le
  have e2 : (p + q) * (p / (p + q) * Real.negMulLog (a / p) + q / (p + q) * Real.negMulLog (b / q)) =
      p * Real.negMulLog (a / p) + q * Real.negMulLog (b / q) := by
    field_simp
  rw [e2] at this
  exact this

theorem entropy_split (outs : Nat) (ncl : Nat → Nat) (l r : Counts ℝ) (hl : 0 < l.2) (hr : 0 < r.2)
    (nl : ∀ k c, 0 ≤ l.1 k c) (nr : ∀ k c, 0 ≤ r.1 k c) :
    l.2 * entropy outs ncl l + r.2 * entropy outs ncl r ≤ (l + r).2 * entropy outs ncl (l + r) := by
  unfold entropy
  rw [← mul_div_assoc, ← mul_div_assoc, ← mul_div_assoc, ← add_div]
  apply div_le_div_of_nonneg_right _ (Nat.cast_nonneg _)
  rw [Finset.mul_sum, Finset.mul_sum, Finset.mul_sum, ← Finset.sum_add_distrib]
  apply Finset.sum_le_sum
  intro k _
  rw [Finset.mul_sum, Finset.mul_sum, Finset.mul_sum, ← Finset.sum_add_distrib]
  apply Finset.sum_le_sum
  intro c _
  have hs : (l + r).2 = l.2 + r.2 := rfl
  have hf : (l + r).1 k c = l.1 k c + r.1 k c := rfl
  rw [hs, hf, entropy_term (nl k c), entropy_term (nr k c), entropy_term (add_nonneg (nl k c) (nr k c))]
  exact negMulLog_split (nl k c) (nr k c) hl hr

theorem improvement_nonneg {N p a b : K} {c : Crit (Counts K)} (hN : 0 < N) (ht : c.total = c.left + c.right)
    (hl : 0 < c.left.2) (hr : 0 < c.right.2) (h : c.left.2 * a + c.right.2 * b ≤ c.total.2 * p) :
    0 ≤ improvementOf N p a b c := by
  unfold improvementOf
  have hT : 0 < c.total.2 := by rw [ht]; exact add_pos hl hr
  apply mul_nonneg (div_nonneg hT.le hN.le)
  rw [div_mul_eq_mul_div, div_mul_eq_mul_div, sub_sub, ← add_div, sub_nonneg, div_le_iff₀ hT]
  linarith

/-- **C179.** No split makes the Gini index worse: the reported improvement is never negative. -/
theorem C179_gini_never_worse (outs : Nat) (ncl : Nat → Nat) (N : K) (hN : 0 < N) (S : List (Labelled K))
    (le : Labelled K → Bool) (hl : 0 < labelWeight (S.filter le)) (hr : 0 < labelWeight (S.filter (fun a => !le a))) :
    let C := classification (gini outs ncl) N
    let c := cutState countOf S le
    ∀ h, 0 ≤ C.improvement (C.nodeImpurity c.total) (C.children h c).1 (C.children h c).2 c := by
  intro C c h
  have ht : (cutState countOf S le).total = (cutState countOf S le).left + (cutState countOf S le).right :=
    sum_filter_split countOf le S
  have hl' : 0 < (cutState countOf S le).left.2 := by
    show 0 < (((S.filter le).map countOf).sum).2
    rw [counts_snd]; exact hl
  have hr' : 0 < (cutState countOf S le).right.2 := by
    show 0 < (((S.filter (fun a => !le a)).map countOf).sum).2
    rw [counts_snd]; exact hr
  apply improvement_nonneg hN ht hl' hr'
  show _ ≤ _ * gini outs ncl _
  rw [ht]
  exact gini_split outs ncl _ _ hl' hr'

theorem counts_nonneg (S : List (Labelled ℝ)) (hw : ∀ a ∈ S, 0 ≤ a.w) (k c : Nat) :
    0 ≤ ((S.map countOf).sum).1 k c := by
  rw [counts_fst]
  apply List.sum_nonneg
  intro v hv
  obtain ⟨a, ha, rfl⟩ := List.mem_map.mp hv
  by_cases e : a.y k = c
  · rw [if_pos e]; exact hw a ha
  · rw [if_neg e]

/-- **C179.** The same for the entropy. -/
theorem C179_entropy_never_worse (outs : Nat) (ncl : Nat → Nat) (N : ℝ) (hN : 0 < N) (S : List (Labelled ℝ))
    (hw : ∀ a ∈ S, 0 ≤ a.w) (le : Labelled ℝ → Bool) (hl : 0 < labelWeight (S.filter le))
    (hr : 0 < labelWeight (S.filter (fun a => !le a))) :
    let C := classification (entropy outs ncl) N
    let c := cutState countOf S le
    ∀ h, 0 ≤ C.improvement (C.nodeImpurity c.total) (C.children h c).1 (C.children h c).2 c := by
  intro C c h
  have ht : (cutState countOf S le).total = (cutState countOf S le).left + (cutState countOf S le).right :=
    sum_filter_split countOf le S
  have hl' : 0 < (cutState countOf S le).left.2 := by
    show 0 < (((S.filter le).map countOf).sum).2
    rw [counts_snd]; exact hl
  have hr' : 0 < (cutState countOf S le).right.2 := by
    show 0 < (((S.filter (fun a => !le a)).map countOf).sum).2
    rw [counts_snd]; exact hr
  apply improvement_nonneg hN ht hl' hr'
  show _ ≤ _ * entropy outs ncl _
  rw [ht]
  exact entropy_split outs ncl _ _ hl' hr'
    (counts_nonneg _ (fun a ha => hw a (List.mem_filter.mp ha).1))
    (counts_nonneg _ (fun a ha => hw a (List.mem_filter.mp ha).1))

/-- **C179.** The entropy is never negative, and 0 exactly at the nodes whose samples are all of one class. -/
theorem C179_entropy_pure (outs : Nat) (ho : 0 < outs) (ncl : Nat → Nat) (S : List (Labelled ℝ)) (hS : S ≠ [])
    (hl : LabelsBelow outs ncl S) (hw : ∀ a ∈ S, 0 < a.w) :
    0 ≤ entropy outs ncl ((S.map countOf).sum) ∧
      (entropy outs ncl ((S.map countOf).sum) = 0 ↔ OneClass outs S) := by
  have hW := labelWeight_pos hS hw
  have ho' : (0 : ℝ) < outs := by exact_mod_cast ho
  have hn := counts_nonneg S (fun a ha => (hw a ha).le)
  have hle : ∀ k c, ((S.map countOf).sum).1 k c ≤ labelWeight S := by
    intro k c
    rw [counts_fst]
    unfold labelWeight
    apply List.sum_le_sum
    intro a ha
    by_cases e : a.y k = c
    · rw [if_pos e]
    · rw [if_neg e]; exact (hw a ha).le
  have hterm : ∀ k c, 0 ≤ Real.negMulLog (((S.map countOf).sum).1 k c / labelWeight S) := fun k c =>
    Real.negMulLog_nonneg (div_nonneg (hn k c) hW.le) ((div_le_one hW).mpr (hle k c))
  have heq : entropy outs ncl ((S.map countOf).sum) =
      (∑ k ∈ range outs, ∑ c ∈ range (ncl k), Real.negMulLog (((S.map countOf).sum).1 k c / labelWeight S)) / outs := by
    unfold entropy
    congr 1
    refine Finset.sum_congr rfl (fun k _ => Finset.sum_congr rfl (fun c _ => ?_))
    rw [entropy_term (hn k c), counts_snd]
  rw [heq]
  have h1 : ∀ k ∈ range outs, 0 ≤ ∑ c ∈ range (ncl k), Real.negMulLog (((S.map countOf).sum).1 k c / labelWeight S) :=
    fun k _ => Finset.sum_nonneg (fun c _ => hterm k c)
  refine ⟨div_nonneg (Finset.sum_nonneg h1) ho'.le, ?_⟩
  rw [div_eq_zero_iff, or_iff_left (ne_of_gt ho'), Finset.sum_eq_zero_iff_of_nonneg h1]
  have hpos : ∀ a ∈ S, ∀ k, 0 < ((S.map countOf).sum).1 k (a.y k) := by
    intro a ha k
    rw [counts_fst]
    refine lt_of_lt_of_le (hw a ha) (List.single_le_sum ?_ _ (List.mem_map.mpr ⟨a, ha, if_pos rfl⟩))
    intro v hv
    obtain ⟨b, hb, rfl⟩ := List.mem_map.mp hv
    by_cases e : b.y k = a.y k
    · rw [if_pos e]; exact (hw b hb).le
    · rw [if_neg e]
  have hall : ∀ a ∈ S, ∀ k, (((S.map countOf).sum).1 k (a.y k) = labelWeight S ↔ ∀ b ∈ S, b.y k = a.y k) := by
    intro a _ k
    rw [counts_fst]
    unfold labelWeight
    constructor
    · intro h b hb
      by_contra hne
      have : (S.map (fun a_1 => if a_1.y k = a.y k then a_1.w else 0)).sum < (S.map (fun a => a.w)).sum := by
        apply List.sum_lt_sum
        · intro d hd
          by_cases e : d.y k = a.y k
          · rw [if_pos e]
          · rw [if_neg e]; exact (hw d hd).le
        · exact ⟨b, hb, by rw [if_neg hne]; exact hw b hb⟩
      exact absurd h (ne_of_lt this)
    · intro h
      congr 1
      apply List.map_congr_left
      intro b hb
      rw [if_pos (h b hb)]
  constructor
  · intro h a ha b hb k hk
    have h2 := h k (Finset.mem_range.mpr hk)
    rw [Finset.sum_eq_zero_iff_of_nonneg (fun c _ => hterm k c)] at h2
    have h3 := h2 (a.y k) (Finset.mem_range.mpr (hl a ha k hk))
    have hp := hpos a ha k
    have : ((S.map countOf).sum).1 k (a.y k) = labelWeight S := by
      by_contra hne
      have hlt := lt_of_le_of_ne (hle k (a.y k)) hne
      have d0 := div_pos hp hW
      have d1 := (div_lt_one hW).mpr hlt
      have := Real.log_neg d0 d1
      rw [Real.negMulLog] at h3
      have : 0 < -(((S.map countOf).sum).1 k (a.y k) / labelWeight S) *
          Real.log (((S.map countOf).sum).1 k (a.y k) / labelWeight S) := by
        rw [neg_mul, neg_pos]; exact mul_neg_of_pos_of_neg d0 this
      linarith
    exact (((hall a ha k).mp this) b hb).symm
  · intro h k hk
    apply Finset.sum_eq_zero
    intro c _
    by_cases e : ∃ a ∈ S, a.y k = c
    · obtain ⟨a, ha, rfl⟩ := e
      rw [(hall a ha k).mpr (fun b hb => h b hb a ha k (Finset.mem_range.mp hk)), div_self (ne_of_gt hW),
        Real.negMulLog_one]
    · have : ((S.map countOf).sum).1 k c = 0 := by
        rw [counts_fst]
        apply List.sum_eq_zero
        intro v hv
        obtain ⟨a, ha, rfl⟩ := List.mem_map.mp hv
        rw [if_neg (fun h' => e ⟨a, ha, h'⟩)]
      rw [this, zero_div, Real.negMulLog_zero]

/-- **C179.** The proxy that the splitter compares ranks the cuts of a node exactly as the improvement does. -/
theorem C179_proxy_ranks (imp : Counts K → K) (N : K) (hN : 0 < N) (parent : K) (c c' : Crit (Counts K))
    (ht : c.total = c'.total) (hT : 0 < c.total.2) :
    let C := classification imp N
    ∀ h h', (C.proxy c ≤ C.proxy c' ↔ C.improvement parent (C.children h c).1 (C.children h c).2 c ≤
      C.improvement parent (C.children h' c').1 (C.children h' c').2 c') := by
  intro C h h'
  show proxyOf imp c ≤ proxyOf imp c' ↔ improvementOf N parent (imp c.left) (imp c.right) c ≤
    improvementOf N parent (imp c'.left) (imp c'.right) c'
  unfold improvementOf proxyOf
  rw [← ht, mul_le_mul_iff_right₀ (div_pos hT hN), sub_sub, sub_sub, sub_le_sub_iff_left, div_mul_eq_mul_div,
    div_mul_eq_mul_div, div_mul_eq_mul_div, div_mul_eq_mul_div, ← add_div, ← add_div, div_le_div_iff_of_pos_right hT]
  constructor <;> intro h <;> linarith

/-- **C179.** The improvement of a cut is the impurity of the node less that of the two sides, each one taken with its
weight, relative to the weight of all training samples. -/
theorem C179_improvement (imp : Counts K → K) (N : K) (hN : N ≠ 0) (S : List (Labelled K)) (le : Labelled K → Bool)
    (hS : labelWeight S ≠ 0) :
    let C := classification imp N
    let c := cutState countOf S le
    let R := S.filter (fun a => !le a)
    (∀ h, N * C.improvement (C.nodeImpurity c.total) (C.children h c).1 (C.children h c).2 c =
      labelWeight S * imp ((S.map countOf).sum) - labelWeight (S.filter le) * imp (((S.filter le).map countOf).sum) -
        labelWeight R * imp ((R.map countOf).sum)) ∧
    C.weightLeft c = labelWeight (S.filter le) ∧ C.weightRight c = labelWeight R ∧ C.weight S = labelWeight S ∧
    ∀ k v, C.value c.total k v = (S.map (fun a => if a.y k = v then a.w else 0)).sum := by
  refine ⟨?_, counts_snd _, counts_snd _, rfl, fun k v => counts_fst S k v⟩
  intro h
  show N * (((S.map countOf).sum).2 / N * (imp ((S.map countOf).sum) -
    (((S.filter (fun a => !le a)).map countOf).sum).2 / ((S.map countOf).sum).2 *
      imp (((S.filter (fun a => !le a)).map countOf).sum) -
    (((S.filter le).map countOf).sum).2 / ((S.map countOf).sum).2 * imp (((S.filter le).map countOf).sum))) = _
  rw [counts_snd, counts_snd, counts_snd]
  field_simp
  ring

/-! ### a concrete case -/

/-- four samples of two classes, one of them with weight 2 -/
def labelledRows : List (Labelled ℚ) :=
  [⟨fun _ => 0, fun _ => 0, 1⟩, ⟨fun _ => 0, fun _ => 0, 1⟩, ⟨fun _ => 1, fun _ => 1, 2⟩, ⟨fun _ => 1, fun _ => 0, 1⟩]

example : gini 1 (fun _ => 2) ((labelledRows.map countOf).sum) = 12 / 25 ∧
    unlikePairs 0 labelledRows = 12 ∧ labelWeight labelledRows = 5 ∧
    0 < labelWeight (labelledRows.filter (fun a => decide (a.x 0 ≤ 0))) := by decide +kernel

example : LabelsBelow 1 (fun _ => 2) labelledRows ∧ ∀ a ∈ labelledRows, 0 < a.w := by
  constructor
  · intro a ha k _
    simp only [labelledRows, List.mem_cons, List.not_mem_nil, or_false] at ha
    rcases ha with rfl | rfl | rfl | rfl <;> simp
  · intro a ha
    simp only [labelledRows, List.mem_cons, List.not_mem_nil, or_false] at ha
    rcases ha with rfl | rfl | rfl | rfl <;> norm_num

/-- two samples of different classes have entropy `log 2` -/
def twoClasses : List (Labelled ℝ) := [⟨fun _ => 0, fun _ => 0, 1⟩, ⟨fun _ => 1, fun _ => 1, 1⟩]

example : entropy 1 (fun _ => 2) ((twoClasses.map countOf).sum) = Real.log 2 ∧
    LabelsBelow 1 (fun _ => 2) twoClasses ∧ ∀ a ∈ twoClasses, 0 < a.w := by
  refine ⟨?_, ?_, ?_⟩
  · have h2 : Real.log (1 / 2) = -Real.log 2 := by rw [one_div, Real.log_inv]
    have w : ((twoClasses.map countOf).sum).2 = 2 := by rw [counts_snd]; norm_num [labelWeight, twoClasses]
    have c0 : ((twoClasses.map countOf).sum).1 0 0 = 1 := by rw [counts_fst]; norm_num [twoClasses]
    have c1 : ((twoClasses.map countOf).sum).1 0 1 = 1 := by rw [counts_fst]; norm_num [twoClasses]
    unfold entropy
    rw [Finset.sum_range_one, Finset.sum_range_succ, Finset.sum_range_one, c0, c1, w, h2, if_pos one_pos]
    push_cast
    ring
  · intro a ha k _
    simp only [twoClasses, List.mem_cons, List.not_mem_nil, or_false] at ha
    rcases ha with rfl | rfl <;> simp
  · intro a ha
    simp only [twoClasses, List.mem_cons, List.not_mem_nil, or_false] at ha
    rcases ha with rfl | rfl <;> norm_num

end YL.Props
