import Verif.Model.Criterion
import Mathlib.Algebra.BigOperators.Group.List.Basic
import Mathlib.Algebra.Order.Field.Basic
import Mathlib.Algebra.Order.Ring.Rat
import Mathlib.Tactic.Linarith
import Mathlib.Tactic.FieldSimp
import Mathlib.Tactic.LinearCombination
import Mathlib.Tactic.Positivity
import Mathlib.Tactic.NormNum
import Mathlib.Tactic.Abel
import Mathlib.Tactic.Ring

/-!
# C79, C80: the split criteria of the causal trees
-/

set_option linter.unusedSectionVars false

namespace YL.Spec

/-- The samples at the positions `a, ..., b - 1`. -/
def segment {A : Type} (s : Nat → A) (a b : Nat) : List A := (List.range' a (b - a)).map s

/-- The outcomes of one arm among samples `(weight, outcome)`: a positive weight marks a treated sample. -/
def arm {K : Type} [Zero K] [LinearOrder K] (treated : Bool) (l : List (K × K)) : List K :=
  (l.filter (fun p => decide (0 < p.1) == treated)).map (fun p => p.2)

/-- A legal sequence of calls: positions only move forward inside the node, sorting only permutes the samples of
the node. -/
def Legal {A : Type} (start stop : Nat) : (Nat → A) → Nat → List (Crit.Op A) → Prop
  | _, _, [] => True
  | s, _, .resort s' :: ops => (segment s' start stop).Perm (segment s start stop) ∧ Legal start stop s' start ops
  | s, _, .reset :: ops => Legal start stop s start ops
  | s, _, .reverseReset :: ops => Legal start stop s stop ops
  | s, pos, .update p :: ops => pos ≤ p ∧ p ≤ stop ∧ Legal start stop s p ops

/-- The order of the samples after the calls: that of the last sort. -/
def order {A : Type} (s : Nat → A) (ops : List (Crit.Op A)) : Nat → A :=
  ops.foldl (fun s op => match op with | .resort s' => s' | _ => s) s

/-- The position after the calls. -/
def position {A : Type} (start stop : Nat) (ops : List (Crit.Op A)) : Nat :=
  ops.foldl (fun pos op => match op with
    | .resort _ => start
    | .reset => start
    | .reverseReset => stop
    | .update p => p) start

end YL.Spec

namespace YL.Props

open YL.Crit YL.Spec

section generic

variable {A M : Type} [AddCommGroup M]

theorem sumUp_eq (f : Nat → M) (a b : Nat) : sumUp f a b = (segment f a b).sum := by
  unfold sumUp segment
  generalize List.range' a (b - a) = l
  have : ∀ (l : List Nat) (acc : M), l.foldl (fun acc p => acc + f p) acc = acc + (l.map f).sum := by
    intro l
    induction l with
    | nil => intro acc; simp
    | cons x l ih => intro acc; rw [List.foldl_cons, ih]; simp [add_assoc]
  rw [this]; simp

theorem foldl_add_eq (f : Nat → M) (a b : Nat) (acc : M) :
    (List.range' a (b - a)).foldl (fun acc p => acc + f p) acc = acc + (segment f a b).sum := by
  unfold segment
  generalize List.range' a (b - a) = l
  induction l generalizing acc with
  | nil => simp
  | cons x l ih => rw [List.foldl_cons, ih]; simp [add_assoc]

theorem subDown_eq (f : Nat → M) (a b : Nat) (acc : M) : subDown f a b acc = acc - (segment f a b).sum := by
  unfold subDown segment
  generalize List.range' a (b - a) = l
  rw [← List.sum_reverse, ← List.map_reverse]
  generalize l.reverse = l
  induction l generalizing acc with
  | nil => simp
  | cons x l ih => rw [List.foldl_cons, ih]; simp [sub_sub]

theorem segment_append (s : Nat → A) {a b c : Nat} (h : a ≤ b) (h' : b ≤ c) :
    segment s a c = segment s a b ++ segment s b c := by
  unfold segment
  rw [← List.map_append]
  congr 1
  have e : c - a = (b - a) + (c - b) := by omega
  have e2 : b = a + 1 * (b - a) := by omega
  rw [e]
  conv_rhs => rw [show List.range' b (c - b) = List.range' (a + 1 * (b - a)) (c - b) by rw [← e2]]
  rw [List.range'_append]

theorem segment_self (s : Nat → A) (a : Nat) : segment s a a = [] := by simp [segment]

theorem segment_map {B : Type} (s : Nat → A) (g : A → B) (a b : Nat) :
    (segment s a b).map g = segment (fun p => g (s p)) a b := by simp [segment]

/-- the state agrees with a computation from scratch -/
def CritInv (f : Nat → M) (c : Crit M) : Prop :=
  c.start ≤ c.pos ∧ c.pos ≤ c.stop ∧ c.total = (segment f c.start c.stop).sum ∧
    c.left = (segment f c.start c.pos).sum ∧ c.right = (segment f c.pos c.stop).sum

theorem critInv_reset {f : Nat → M} {c : Crit M} (h : c.start ≤ c.stop)
    (ht : c.total = (segment f c.start c.stop).sum) : CritInv f (reset c) :=
  ⟨le_refl _, h, ht, by simp [reset, segment_self], by simp [reset, ht]⟩

theorem critInv_reverseReset {f : Nat → M} {c : Crit M} (h : c.start ≤ c.stop)
    (ht : c.total = (segment f c.start c.stop).sum) : CritInv f (reverseReset c) :=
  ⟨h, le_refl _, ht, by simp [reverseReset, ht], by simp [reverseReset, segment_self]⟩

theorem critInv_update {f : Nat → M} {c : Crit M} (h : CritInv f c) {p : Nat} (h1 : c.pos ≤ p)
    (h2 : p ≤ c.stop) : CritInv f (update f c p) := by
  obtain ⟨ha, hb, ht, hl, hr⟩ := h
  have hsp : c.start ≤ p := le_trans ha h1
  have e1 : (segment f c.start c.stop).sum = (segment f c.start p).sum + (segment f p c.stop).sum := by
    rw [segment_append f hsp h2, List.sum_append]
  have e2 : (segment f c.start p).sum = (segment f c.start c.pos).sum + (segment f c.pos p).sum := by
    rw [segment_append f ha h1, List.sum_append]
  have hleft : (update f c p).left = (segment f c.start p).sum := by
    unfold update onUpdate
    by_cases hc : (p : Int) - c.pos ≤ (c.stop : Int) - p
    · simp only [hc, if_true, sumUp_eq]; rw [hl, e2]
    · simp only [hc, if_false, subDown_eq, reverseReset]; rw [ht, e1]; abel
  have hright : (update f c p).right = c.total - (update f c p).left := by
    unfold update; rfl
  have hst : (update f c p).start = c.start ∧ (update f c p).stop = c.stop ∧ (update f c p).pos = p ∧
      (update f c p).total = c.total := by
    unfold update
    by_cases hc : (p : Int) - c.pos ≤ (c.stop : Int) - p <;> simp [hc, reverseReset]
  obtain ⟨s1, s2, s3, s4⟩ := hst
  refine ⟨by rw [s1, s3]; exact hsp, by rw [s2, s3]; exact h2, by rw [s4, s1, s2]; exact ht, ?_, ?_⟩
  · rw [s1, s3]; exact hleft
  · rw [hright, hleft, s2, s3, ht, e1]; abel

theorem critInv_updateGrf {f : Nat → M} {c : Crit M} (h : CritInv f c) {p : Nat} (h1 : c.pos ≤ p)
    (h2 : p ≤ c.stop) : CritInv f (updateGrf f c p) := by
  obtain ⟨ha, hb, ht, hl, hr⟩ := h
  have hsp : c.start ≤ p := le_trans ha h1
  have e1 : (segment f c.start c.stop).sum = (segment f c.start p).sum + (segment f p c.stop).sum := by
    rw [segment_append f hsp h2, List.sum_append]
  have e2 : (segment f c.start p).sum = (segment f c.start c.pos).sum + (segment f c.pos p).sum := by
    rw [segment_append f ha h1, List.sum_append]
  have hleft : (updateGrf f c p).left = (segment f c.start p).sum := by
    unfold updateGrf
    by_cases hc : (p : Int) - c.pos ≤ (c.stop : Int) - p
    · simp only [hc, if_true, foldl_add_eq]; rw [hl, e2]
    · simp only [hc, if_false, subDown_eq, reverseReset]; rw [ht, e1]; abel
  have hright : (updateGrf f c p).right = c.total - (updateGrf f c p).left := by
    unfold updateGrf; rfl
  refine ⟨hsp, h2, ht, hleft, ?_⟩
  rw [hright, hleft]
  show c.total - _ = (segment f p c.stop).sum
  rw [ht, e1]; abel

/-- the operations seen by the criterion when samples of type `A` contribute by `g` -/
def liftOp (g : A → M) : Op A → Op M
  | .resort s => .resort (fun p => g (s p))
  | .reset => .reset
  | .reverseReset => .reverseReset
  | .update p => .update p

/-- the fold of `position` from any position on -/
def positionFrom (start stop pos : Nat) (ops : List (Op A)) : Nat :=
  ops.foldl (fun pos op => match op with
    | .resort _ => start
    | .reset => start
    | .reverseReset => stop
    | .update p => p) pos

theorem critInv_run (upd : (Nat → M) → Crit M → Nat → Crit M)
    (hupd : ∀ (f : Nat → M) (c : Crit M) (p : Nat), CritInv f c → c.pos ≤ p → p ≤ c.stop → CritInv f (upd f c p))
    (hseg : ∀ (f : Nat → M) (c : Crit M) (p : Nat),
      (upd f c p).start = c.start ∧ (upd f c p).stop = c.stop ∧ (upd f c p).pos = p)
    (g : A → M) (ops : List (Op A)) : ∀ (s : Nat → A) (c : Crit M),
    CritInv (fun p => g (s p)) c → Legal c.start c.stop s c.pos ops →
    CritInv (fun p => g (order s ops p)) (run upd (fun p => g (s p), c) (ops.map (liftOp g))).2 ∧
      (segment (order s ops) c.start c.stop).Perm (segment s c.start c.stop) ∧
      (run upd (fun p => g (s p), c) (ops.map (liftOp g))).1 = (fun p => g (order s ops p)) ∧
      (run upd (fun p => g (s p), c) (ops.map (liftOp g))).2.start = c.start ∧
      (run upd (fun p => g (s p), c) (ops.map (liftOp g))).2.stop = c.stop ∧
      (run upd (fun p => g (s p), c) (ops.map (liftOp g))).2.pos = positionFrom c.start c.stop c.pos ops := by
  induction ops with
  | nil => intro s c h _; exact ⟨h, List.Perm.refl _, rfl, rfl, rfl, rfl⟩
  | cons op ops ih =>
    intro s c h hl
    have hle : c.start ≤ c.stop := le_trans h.1 h.2.1
    cases op with
    | resort s' =>
      obtain ⟨hp, hl⟩ := hl
      have ht : c.total = (segment (fun p => g (s' p)) c.start c.stop).sum := by
        rw [h.2.2.1, ← segment_map s g, ← segment_map s' g]
        exact ((hp.map g).sum_eq).symm
      obtain ⟨e1, e2, e3⟩ := ih s' (reset c) (critInv_reset hle ht) hl
      exact ⟨e1, e2.trans hp, e3⟩
    | reset => exact ih s (reset c) (critInv_reset hle h.2.2.1) hl
    | reverseReset => exact ih s (reverseReset c) (critInv_reverseReset hle h.2.2.1) hl
    | update p =>
      obtain ⟨h1, h2, hl⟩ := hl
      obtain ⟨q1, q2, q3⟩ := hseg (fun p => g (s p)) c p
      have hl' : Legal (upd (fun p => g (s p)) c p).start (upd (fun p => g (s p)) c p).stop s
          (upd (fun p => g (s p)) c p).pos ops := by rw [q1, q2, q3]; exact hl
      obtain ⟨e1, e2, e3, e4, e5, e6⟩ := ih s (upd (fun p => g (s p)) c p) (hupd _ c p h h1 h2) hl'
      rw [q1, q2] at e2
      rw [q1, q2, q3] at e6
      exact ⟨e1, e2, e3, e4.trans q1, e5.trans q2, e6⟩

theorem update_seg (f : Nat → M) (c : Crit M) (p : Nat) :
    (update f c p).start = c.start ∧ (update f c p).stop = c.stop ∧ (update f c p).pos = p := by
  unfold update
  by_cases hc : (p : Int) - c.pos ≤ (c.stop : Int) - p <;> simp [hc, reverseReset]

end generic

variable {K : Type} [Field K] [LinearOrder K] [IsStrictOrderedRing K]

/-- the sums of a list of samples are those of its two arms -/
theorem contrib_sum (l : List (K × K)) : (l.map contrib).sum =
    (((arm true l).length : Int), ((arm false l).length : Int), (arm true l).sum, (arm false l).sum,
      ((arm true l).map (fun y => y * y)).sum, ((arm false l).map (fun y => y * y)).sum) := by
  induction l with
  | nil => simp [arm]; rfl
  | cons a l ih =>
    rw [List.map_cons, List.sum_cons, ih]
    by_cases h : 0 < a.1
    · simp [contrib, h, arm, add_comm]
    · simp [contrib, h, arm, add_comm]


/-- The criterion object after a sequence of calls at the node `samples[a:b]`. -/
def honestAfter (s : Nat → K × K) (a b : Nat) (ops : List (Op (K × K))) : Crit (Stats K) :=
  (run update (fun p => contrib (s p), init (fun p => contrib (s p)) a b) (ops.map (liftOp contrib))).2

/-- The criterion object of the forest after a sequence of calls at the node `samples[a:b]`. -/
def grfAfter (s : Nat → K × K) (a b : Nat) (ops : List (Op (K × K))) : Crit (K × K) :=
  (run updateGrf (fun p => contribGrf (s p), init (fun p => contribGrf (s p)) a b)
    (ops.map (liftOp contribGrf))).2

theorem honestAfter_inv (s : Nat → K × K) {a b : Nat} (hab : a ≤ b) (ops : List (Op (K × K)))
    (h : Legal a b s a ops) :
    CritInv (fun p => contrib (order s ops p)) (honestAfter s a b ops) ∧
    (segment (order s ops) a b).Perm (segment s a b) ∧
    (honestAfter s a b ops).start = a ∧ (honestAfter s a b ops).stop = b ∧
    (honestAfter s a b ops).pos = position a b ops := by
  have hi : CritInv (fun p => contrib (s p)) (init (fun p => contrib (s p)) a b) :=
    critInv_reset (c := ⟨a, b, a, sumUp (fun p => contrib (s p)) a b, 0, 0⟩) hab (sumUp_eq _ _ _)
  obtain ⟨e1, e2, e3, e4, e5, e6⟩ := critInv_run update (fun f c p h1 h2 h3 => critInv_update h1 h2 h3) update_seg
    contrib ops s _ hi h
  exact ⟨e1, e2, e4, e5, e6⟩

theorem grfAfter_inv (s : Nat → K × K) {a b : Nat} (hab : a ≤ b) (ops : List (Op (K × K)))
    (h : Legal a b s a ops) :
    CritInv (fun p => contribGrf (order s ops p)) (grfAfter s a b ops) ∧
    (segment (order s ops) a b).Perm (segment s a b) ∧
    (grfAfter s a b ops).start = a ∧ (grfAfter s a b ops).stop = b ∧
    (grfAfter s a b ops).pos = position a b ops ∧
    (run updateGrf (fun p => contribGrf (s p), init (fun p => contribGrf (s p)) a b)
      (ops.map (liftOp contribGrf))).1 = (fun p => contribGrf (order s ops p)) := by
  have hi : CritInv (fun p => contribGrf (s p)) (init (fun p => contribGrf (s p)) a b) :=
    critInv_reset (c := ⟨a, b, a, sumUp (fun p => contribGrf (s p)) a b, 0, 0⟩) hab (sumUp_eq _ _ _)
  obtain ⟨e1, e2, e3, e4, e5, e6⟩ := critInv_run updateGrf (fun f c p h1 h2 h3 => critInv_updateGrf h1 h2 h3)
    (fun f c p => ⟨rfl, rfl, rfl⟩) contribGrf ops s _ hi h
  exact ⟨e1, e2, e4, e5, e6, e3⟩

/-- **C79.** After every legal sequence of calls at a node, however long, the criterion of the causal tree holds
exactly the counts, sums and sums of squares of the two arms left and right of the current position, as if they
were computed afresh from the samples in their current order. -/
theorem C79_incremental (s : Nat → K × K) {a b : Nat} (hab : a ≤ b) (ops : List (Op (K × K)))
    (h : Legal a b s a ops) :
    let c := honestAfter s a b ops
    let l := segment (order s ops) a (position a b ops)
    let r := segment (order s ops) (position a b ops) b
    c.pos = position a b ops ∧
    c.left = (((arm true l).length : Int), ((arm false l).length : Int), (arm true l).sum, (arm false l).sum,
      ((arm true l).map (fun y => y * y)).sum, ((arm false l).map (fun y => y * y)).sum) ∧
    c.right = (((arm true r).length : Int), ((arm false r).length : Int), (arm true r).sum, (arm false r).sum,
      ((arm true r).map (fun y => y * y)).sum, ((arm false r).map (fun y => y * y)).sum) := by
  obtain ⟨h1, h2, h3, h4, h5⟩ := honestAfter_inv s hab ops h
  refine ⟨h5, ?_, ?_⟩
  · rw [h1.2.2.2.1, h3, h5, ← contrib_sum, segment_map]
  · rw [h1.2.2.2.2, h4, h5, ← contrib_sum, segment_map]

/-- **C79.** The same for the criterion of the forest: the sum of the weights and of the weighted pseudo outcomes
on either side. -/
theorem C79_grf_incremental (s : Nat → K × K) {a b : Nat} (hab : a ≤ b) (ops : List (Op (K × K)))
    (h : Legal a b s a ops) :
    let c := grfAfter s a b ops
    let l := segment (order s ops) a (position a b ops)
    let r := segment (order s ops) (position a b ops) b
    c.pos = position a b ops ∧
    c.left = ((l.map (fun p => p.1)).sum, (l.map (fun p => p.1 * p.2)).sum) ∧
    c.right = ((r.map (fun p => p.1)).sum, (r.map (fun p => p.1 * p.2)).sum) := by
  have hs : ∀ l : List (K × K), (l.map contribGrf).sum =
      ((l.map (fun p => p.1)).sum, (l.map (fun p => p.1 * p.2)).sum) := by
    intro l
    induction l with
    | nil => simp; rfl
    | cons a l ih => rw [List.map_cons, List.sum_cons, ih]; simp [contribGrf]
  obtain ⟨h1, h2, h3, h4, h5, _⟩ := grfAfter_inv s hab ops h
  refine ⟨h5, ?_, ?_⟩
  · rw [h1.2.2.2.1, h3, h5, ← hs, segment_map]
  · rw [h1.2.2.2.2, h4, h5, ← hs, segment_map]

/-- The samples of a node do not change: they are only reordered. -/
theorem C79_same_samples (s : Nat → K × K) {a b : Nat} (hab : a ≤ b) (ops : List (Op (K × K)))
    (h : Legal a b s a ops) : (segment (order s ops) a b).Perm (segment s a b) :=
  (honestAfter_inv s hab ops h).2.1

/-- four samples: treated 5, control 2, treated 7, control 1 -/
def critExample : Nat → ℚ × ℚ := fun p => ([(1, 5), (0, 2), (1, 7), (0, 1)] : List (ℚ × ℚ)).getD p (0, 0)

/-- the same samples sorted by another feature -/
def critExample' : Nat → ℚ × ℚ := fun p => ([(0, 1), (1, 7), (0, 2), (1, 5)] : List (ℚ × ℚ)).getD p (0, 0)

/-- a legal history with a jump over more than half of the node, a second feature and a restart -/
def critOps : List (Op (ℚ × ℚ)) := [.update 3, .resort critExample', .update 1, .update 3, .reset, .update 2]

example : Legal 0 4 critExample 0 critOps := by
  refine ⟨by decide, by decide, ?_, by decide, by decide, by decide, by decide, by decide, by decide, trivial⟩
  show List.Perm [((0 : ℚ), (1 : ℚ)), (1, 7), (0, 2), (1, 5)] [(1, 5), (0, 2), (1, 7), (0, 1)]
  decide

example : (honestAfter critExample 0 4 critOps).left = (1, 1, 7, 1, 49, 1) := by decide +kernel

/-- **C79, refuted for moves backwards.** `update` with a position left of the current one leaves the sums as they
were, although the position changes. -/
theorem C79_backward_refuted : ∃ (s : Nat → ℚ × ℚ) (ops : List (Op (ℚ × ℚ))),
    (honestAfter s 0 4 ops).pos = 1 ∧
    (honestAfter s 0 4 ops).left ≠ ((segment s 0 1).map contrib).sum :=
  ⟨critExample, [.update 2, .update 1], by decide +kernel, by decide +kernel⟩

/-! ### C80 -/

/-- The sums of a set of samples, as the criterion holds them for the node it is at. -/
def statsOf (l : List (K × K)) : Stats K := (l.map contrib).sum

/-- the mean of a list of numbers -/
def meanOf (l : List K) : K := l.sum / (l.length : K)

theorem statsOf_eq (l : List (K × K)) : statsOf l =
    (((arm true l).length : Int), ((arm false l).length : Int), (arm true l).sum, (arm false l).sum,
      ((arm true l).map (fun y => y * y)).sum, ((arm false l).map (fun y => y * y)).sum) := contrib_sum l

theorem nodeValue_eq (eps : K) (l : List (K × K)) : nodeValue eps (statsOf l) =
    (arm true l).sum / ((arm true l).length + eps) - (arm false l).sum / ((arm false l).length + eps) := by
  rw [statsOf_eq]; simp [nodeValue, Stats.yt, Stats.y0, Stats.nt, Stats.n0]

/-- **C80.** The value of a node that holds both arms is the difference of the mean outcomes up to a relative error
of `eps` over the size of the arm. -/
theorem C80_value_close {eps : K} (he : 0 < eps) (l : List (K × K)) (ht : arm true l ≠ []) (h0 : arm false l ≠ []) :
    |nodeValue eps (statsOf l) - (meanOf (arm true l) - meanOf (arm false l))| ≤
      eps * (|meanOf (arm true l)| / (arm true l).length + |meanOf (arm false l)| / (arm false l).length) := by
  have key : ∀ (s n : K), 0 < n → |s / (n + eps) - s / n| ≤ eps * (|s / n| / n) := by
    intro s n hn
    have hne : 0 < n + eps := by linarith
    have e : s / (n + eps) - s / n = -(eps * (s / n) / (n + eps)) := by field_simp; ring
    rw [e, abs_neg, abs_div, abs_mul, abs_of_pos he, abs_of_pos hne, mul_div_assoc]
    apply mul_le_mul_of_nonneg_left _ he.le
    exact div_le_div_of_nonneg_left (abs_nonneg _) hn (by linarith)
  have p1 : (0 : K) < ((arm true l).length : K) := by
    exact_mod_cast List.length_pos_of_ne_nil ht
  have p0 : (0 : K) < ((arm false l).length : K) := by
    exact_mod_cast List.length_pos_of_ne_nil h0
  rw [nodeValue_eq]
  unfold meanOf
  have a1 := key (arm true l).sum _ p1
  have a0 := key (arm false l).sum _ p0
  have := abs_sub (a := (arm true l).sum / ((arm true l).length + eps) - (arm true l).sum / (arm true l).length)
    (b := (arm false l).sum / ((arm false l).length + eps) - (arm false l).sum / (arm false l).length)
  rw [show ∀ x y z w : K, x - y - (z - w) = (x - z) - (y - w) by intros; ring]
  rw [mul_add]
  linarith

/-- samples with both arms -/
def bothArms : List (ℚ × ℚ) := [(1, 5), (0, 2), (1, 7), (0, 1)]

example : arm true bothArms ≠ [] ∧ arm false bothArms ≠ [] ∧
    meanOf (arm true bothArms) - meanOf (arm false bothArms) = 9 / 2 := by decide +kernel

/-- **C80, refuted for one arm.** In a node without control samples the value is (up to `eps`) the mean outcome of the
treated samples, not an effect: adding the same constant to every outcome, which changes no effect, changes it. -/
theorem C80_one_arm_refuted {eps : K} (he : 0 < eps) (l : List (K × K)) (h0 : arm false l = []) :
    nodeValue eps (statsOf l) = (arm true l).sum / ((arm true l).length + eps) ∧
    (∀ c : K, l ≠ [] → c ≠ 0 →
      nodeValue eps (statsOf (l.map (fun p => (p.1, p.2 + c)))) ≠ nodeValue eps (statsOf l)) := by
  have hv : ∀ m : List (K × K), arm false m = [] →
      nodeValue eps (statsOf m) = (arm true m).sum / ((arm true m).length + eps) := by
    intro m hm; rw [nodeValue_eq, hm]; simp
  refine ⟨hv l h0, ?_⟩
  intro c hl hc
  have harm : ∀ (t : Bool) (m : List (K × K)),
      arm t (m.map (fun p => (p.1, p.2 + c))) = (arm t m).map (fun y => y + c) := by
    intro t m
    induction m with
    | nil => rfl
    | cons a m ih =>
      unfold arm at ih ⊢
      rw [List.map_cons]
      by_cases hh : (decide (0 < a.1) == t) = true
      · rw [List.filter_cons_of_pos (by exact hh), List.filter_cons_of_pos (by exact hh), List.map_cons, List.map_cons,
          List.map_cons, ih]
      · rw [List.filter_cons_of_neg (by exact hh), List.filter_cons_of_neg (by exact hh), ih]
  have hsum : ∀ m : List K, (m.map (fun y => y + c)).sum = m.sum + m.length * c := by
    intro m
    induction m with
    | nil => simp
    | cons a m ih => simp only [List.map_cons, List.sum_cons, ih, List.length_cons]; push_cast; ring
  rw [hv _ (by rw [harm, h0]; rfl), hv l h0, harm, hsum, List.length_map]
  have hn : arm true l ≠ [] := by
    intro hn
    cases l with
    | nil => exact hl rfl
    | cons a l =>
      unfold arm at h0 hn
      by_cases hw : 0 < a.1
      · rw [List.filter_cons_of_pos (by simp [hw])] at hn; simp at hn
      · rw [List.filter_cons_of_pos (by simp [hw])] at h0; simp at h0
  have hp : (0 : K) < ((arm true l).length : K) := by exact_mod_cast List.length_pos_of_ne_nil hn
  intro hq
  have hd : (0 : K) < ((arm true l).length : K) + eps := by linarith
  rw [div_left_inj' hd.ne'] at hq
  have : ((arm true l).length : K) * c = 0 := by linear_combination hq
  rcases mul_eq_zero.mp this with h | h
  · exact hp.ne' h
  · exact hc h

example : arm false ([(1, 5), (1, 7)] : List (ℚ × ℚ)) = [] := by decide +kernel

/-- **C80.** Comparing two candidate positions of a node by the cheap proxy is comparing them by the impurity
improvement, whatever sequences of calls led to the two positions. -/
theorem C80_proxy_order {eps alpha parent : K} (he : 0 < eps) (s : Nat → K × K) {a b : Nat} (hab : a ≤ b)
    (ops ops' : List (Op (K × K))) (h : Legal a b s a ops) (h' : Legal a b s a ops') :
    proxy eps alpha (honestAfter s a b ops) ≤ proxy eps alpha (honestAfter s a b ops') ↔
    improvement eps alpha parent (honestAfter s a b ops) ≤ improvement eps alpha parent (honestAfter s a b ops') := by
  have tot : ∀ o, Legal a b s a o → (honestAfter s a b o).total = statsOf (segment s a b) := by
    intro o ho
    obtain ⟨h1, h2, h3, h4, h5⟩ := honestAfter_inv s hab o ho
    rw [h1.2.2.1, h3, h4]
    have : segment (fun p => contrib (order s o p)) a b = (segment (order s o) a b).map contrib := by
      rw [segment_map]
    rw [this]
    exact (h2.map contrib).sum_eq
  have e : ∀ c : Crit (Stats K), improvement eps alpha parent c =
      parent + proxy eps alpha c / (((c.total.nt + c.total.n0 : Int) : K) + eps) := by
    intro c; unfold improvement proxy; ring
  rw [e, e, tot ops h, tot ops' h']
  have hn : (0 : K) < ((((statsOf (segment s a b)).nt + (statsOf (segment s a b)).n0 : Int)) : K) + eps := by
    rw [statsOf_eq]
    simp only [Stats.nt, Stats.n0]
    have : (0 : K) ≤ (((arm true (segment s a b)).length + (arm false (segment s a b)).length : ℕ) : K) :=
      Nat.cast_nonneg _
    push_cast at this ⊢
    linarith
  rw [add_le_add_iff_left, div_le_div_iff_of_pos_right hn]

/-- the sum of squares of a list is at least the square of its sum over its length -/
theorem sq_sum_le (l : List K) : l.sum ^ 2 ≤ l.length * (l.map (fun y => y * y)).sum := by
  induction l with
  | nil => simp
  | cons a l ih =>
    simp only [List.map_cons, List.sum_cons, List.length_cons]
    push_cast
    have key : 2 * a * l.sum ≤ l.length * (a * a) + (l.map (fun y => y * y)).sum := by
      clear ih
      induction l with
      | nil => simp
      | cons b l ih2 =>
        simp only [List.map_cons, List.sum_cons, List.length_cons]
        push_cast
        nlinarith [sq_nonneg (a - b)]
    nlinarith

/-- **C80.** The impurity of a set of samples is at least `alpha` minus the squared value, so it is positive as long as
the squared value stays below `alpha`. -/
theorem C80_impurity_pos {eps alpha : K} (he : 0 < eps) (l : List (K × K)) :
    alpha - nodeValue eps (statsOf l) ^ 2 ≤ impurity eps alpha (statsOf l) ∧
    (nodeValue eps (statsOf l) ^ 2 < alpha → 0 < impurity eps alpha (statsOf l)) := by
  have key : ∀ m : List K, 0 ≤ 2 * ((m.map (fun y => y * y)).sum / (m.length + eps)
      - (m.sum / (m.length + eps)) ^ 2) / (m.length + eps) := by
    intro m
    have hm : (0 : K) ≤ m.length := Nat.cast_nonneg _
    have hn : (0 : K) < m.length + eps := by linarith
    have h1 := sq_sum_le m
    have h2 : 0 ≤ (m.map (fun y => y * y)).sum := by
      apply List.sum_nonneg
      intro x hx
      obtain ⟨y, _, rfl⟩ := List.mem_map.mp hx
      exact mul_self_nonneg y
    have h3 : (m.sum / (m.length + eps)) ^ 2 ≤ (m.map (fun y => y * y)).sum / (m.length + eps) := by
      rw [div_pow, div_le_div_iff₀ (by positivity) hn]
      nlinarith [mul_nonneg h2 he.le]
    exact div_nonneg (by linarith) hn.le
  have h1 : alpha - nodeValue eps (statsOf l) ^ 2 ≤ impurity eps alpha (statsOf l) := by
    have a1 := key (arm true l)
    have a0 := key (arm false l)
    rw [nodeValue_eq]
    unfold impurity
    rw [statsOf_eq]
    simp only [Stats.yt, Stats.y0, Stats.nt, Stats.n0, Stats.yt2, Stats.y02, Int.cast_natCast]
    linarith
  exact ⟨h1, fun h => by linarith⟩

example : nodeValue (1 / 100000 : ℚ) (statsOf bothArms) ^ 2 < 10000000000 := by decide +kernel

/-- **C80, refuted at large scales.** With the constants of the code, outcomes of a few hundred thousand (money, say)
make the impurity of a mixed node negative. -/
theorem C80_impurity_refuted : ∃ l : List (ℚ × ℚ), arm true l ≠ [] ∧ arm false l ≠ [] ∧
    impurity (1 / 100000) 10000000000 (statsOf l) < 0 :=
  ⟨[(1, 200000), (0, 0), (1, 200000), (0, 0)], by decide +kernel, by decide +kernel, by decide +kernel⟩

/-- **C80.** In the forest the proxy that ranks the candidate positions is the impurity improvement itself. -/
theorem C80_grf_improvement (s : Nat → K × K) {a b : Nat} (hab : a ≤ b) (ops : List (Op (K × K)))
    (h : Legal a b s a ops) :
    proxyGrf (grfAfter s a b ops) =
      improvementGrf (fun p => contribGrf (order s ops p)) (grfAfter s a b ops) := by
  obtain ⟨h1, h2, h3, h4, h5, _⟩ := grfAfter_inv s hab ops h
  have hs : sumUp (fun p => contribGrf (order s ops p)) (grfAfter s a b ops).start (grfAfter s a b ops).pos =
      (grfAfter s a b ops).left := by rw [sumUp_eq, h1.2.2.2.1]
  have ht : (grfAfter s a b ops).total = (grfAfter s a b ops).left + (grfAfter s a b ops).right := by
    rw [h1.2.2.1, h1.2.2.2.1, h1.2.2.2.2, ← List.sum_append, ← segment_append _ h1.1 h1.2.1]
  unfold proxyGrf improvementGrf childrenGrf
  rw [hs, ht]
  simp

/-- The weighted squared deviations of the pseudo outcomes `(weight, rho)` from the constant `m`. -/
def sseFrom (m : K) (l : List (K × K)) : K := (l.map (fun p => p.1 * (p.2 - m) ^ 2)).sum

/-- the weighted mean of pseudo outcomes -/
def wmean (l : List (K × K)) : K := (l.map (fun p => p.1 * p.2)).sum / (l.map (fun p => p.1)).sum

theorem sseFrom_eq (m : K) (l : List (K × K)) : sseFrom m l =
    (l.map (fun p => p.1 * p.2 ^ 2)).sum - 2 * m * (l.map (fun p => p.1 * p.2)).sum
      + m ^ 2 * (l.map (fun p => p.1)).sum := by
  induction l with
  | nil => simp [sseFrom]
  | cons a l ih =>
    unfold sseFrom at ih ⊢
    simp only [List.map_cons, List.sum_cons, ih]
    ring

/-- **C80.** Maximising the proxy of the forest's criterion is least squares: the squared deviations inside the two
children around their own means are the squares of the node minus the proxy. -/
theorem C80_grf_least_squares (s : Nat → K × K) {a b : Nat} (hab : a ≤ b) (ops : List (Op (K × K)))
    (h : Legal a b s a ops) :
    let l := segment (order s ops) a (position a b ops)
    let r := segment (order s ops) (position a b ops) b
    (l.map (fun p => p.1)).sum ≠ 0 → (r.map (fun p => p.1)).sum ≠ 0 →
    sseFrom (wmean l) l + sseFrom (wmean r) r =
      ((segment s a b).map (fun p => p.1 * p.2 ^ 2)).sum - proxyGrf (grfAfter s a b ops) := by
  intro l r hl hr
  obtain ⟨g1, g2, g3⟩ := C79_grf_incremental s hab ops h
  obtain ⟨h1, h2, h3, h4, h5, _⟩ := grfAfter_inv s hab ops h
  have b1 : a ≤ position a b ops := by have := h1.1; rwa [h3, h5] at this
  have b2 : position a b ops ≤ b := by have := h1.2.1; rwa [h5, h4] at this
  have e : ((segment s a b).map (fun p => p.1 * p.2 ^ 2)).sum =
      (l.map (fun p => p.1 * p.2 ^ 2)).sum + (r.map (fun p => p.1 * p.2 ^ 2)).sum := by
    rw [← List.sum_append, ← List.map_append, ← segment_append _ b1 b2]
    exact ((h2.map _).sum_eq).symm
  rw [e]
  unfold proxyGrf
  rw [g2, g3, sseFrom_eq, sseFrom_eq]
  show _ = _ - ((l.map (fun p => p.1 * p.2)).sum * (l.map (fun p => p.1 * p.2)).sum / (l.map (fun p => p.1)).sum +
    (r.map (fun p => p.1 * p.2)).sum * (r.map (fun p => p.1 * p.2)).sum / (r.map (fun p => p.1)).sum)
  unfold wmean
  field_simp
  ring

/-- **C80.** The child mean is the best constant: any other constant has at least its squared deviations. -/
theorem C80_grf_mean_best (l : List (K × K)) (hw : ∀ p ∈ l, 0 ≤ p.1) (hl : (l.map (fun p => p.1)).sum ≠ 0) (m : K) :
    sseFrom (wmean l) l ≤ sseFrom m l := by
  have hp : 0 ≤ (l.map (fun p => p.1)).sum := by
    apply List.sum_nonneg
    intro x hx
    obtain ⟨y, hy, rfl⟩ := List.mem_map.mp hx
    exact hw y hy
  rw [sseFrom_eq, sseFrom_eq]
  unfold wmean
  set S := (l.map (fun p => p.1 * p.2)).sum
  set W := (l.map (fun p => p.1)).sum
  have : 0 ≤ W * (m - S / W) ^ 2 := mul_nonneg hp (sq_nonneg _)
  have e1 : S = W * (S / W) := by field_simp
  have e2 : 2 * (S / W) * S = 2 * (S / W) * (W * (S / W)) := by rw [← e1]
  have e3 : 2 * m * S = 2 * m * (W * (S / W)) := by rw [← e1]
  nlinarith

example : (([(1, 5), (2, 2)] : List (ℚ × ℚ)).map (fun p => p.1)).sum ≠ 0 ∧
    wmean ([(1, 5), (2, 2)] : List (ℚ × ℚ)) = 3 := by decide +kernel

end YL.Props
