import Verif.Model.PartialDep
import Mathlib.Tactic.Ring
import Mathlib.Tactic.Linarith
import Mathlib.Tactic.NormNum
import Mathlib.Tactic.FieldSimp
import Mathlib.Algebra.Order.Ring.Rat
import Mathlib.Algebra.Order.Field.Rat

/-!
# C178: partial dependence of a compiled tree
-/
set_option linter.unusedSectionVars false

namespace YL.Spec
open YL.PD

variable {K : Type} [Field K] [LinearOrder K]

/-- the prediction of the tree for a fully known row -/
def treeValue (x : Nat → K) : PTree K → K
  | .leaf _ v => v
  | .node _ f t l r => if x f ≤ t then treeValue x l else treeValue x r

/-- the prediction when only some features are known: at a node that splits on another feature, the average of the
two branches, weighted by the training samples that went there -/
def averaged (g : Nat → Option K) : PTree K → K
  | .leaf _ v => v
  | .node w f t l r =>
    match g f with
    | some v => if v ≤ t then averaged g l else averaged g r
    | none => l.weight / w * averaged g l + (1 - l.weight / w) * averaged g r

/-- the weight and the value of every leaf -/
def leafValues : PTree K → List (K × K)
  | .leaf w v => [(w, v)]
  | .node _ _ _ l r => leafValues l ++ leafValues r

/-- every training sample of a node went to one of its children, and no node is empty -/
def Weighted : PTree K → Prop
  | .leaf w _ => 0 < w
  | .node w _ _ l r => w = l.weight + r.weight ∧ Weighted l ∧ Weighted r

/-- `g` knows exactly the target features, with the values of the grid point -/
def Known (targets : List Nat) (x : Nat → K) (g : Nat → Option K) : Prop :=
  (∀ (i f : Nat), targets[i]? = some f → g f = some (x i)) ∧ ∀ f, f ∉ targets → g f = none

end YL.Spec

namespace YL.Props
open YL.PD YL.Spec

variable {K : Type} [Field K] [LinearOrder K] [IsStrictOrderedRing K]

theorem targetPos_some (f : Nat) : ∀ (l : List Nat) (i j : Nat), targetPos f l i = some j →
    ∃ k, j = i + k ∧ l[k]? = some f := by
  intro l
  induction l with
  | nil => intro i j h; cases h
  | cons a l ih =>
    intro i j h
    unfold targetPos at h
    by_cases e : a = f
    · rw [if_pos e] at h
      cases h
      exact ⟨0, rfl, by simp [e]⟩
    · rw [if_neg e] at h
      obtain ⟨k, h1, h2⟩ := ih _ _ h
      exact ⟨k + 1, by omega, by simpa using h2⟩

theorem targetPos_none (f : Nat) : ∀ (l : List Nat) (i : Nat), targetPos f l i = none → f ∉ l := by
  intro l
  induction l with
  | nil => intro i _; simp
  | cons a l ih =>
    intro i h
    unfold targetPos at h
    by_cases e : a = f
    · rw [if_pos e] at h; cases h
    · rw [if_neg e] at h
      simp only [List.mem_cons, not_or]
      exact ⟨fun h' => e h'.symm, ih _ h⟩

/-- the nodes below the stack -/
def stackCount (st : List (PTree K × K)) : Nat := (st.map (fun p => p.1.count)).sum

theorem count_pos (T : PTree K) : 0 < T.count := by
  cases T <;> simp [PTree.count]

theorem length_le_stackCount (st : List (PTree K × K)) : st.length ≤ stackCount st := by
  induction st with
  | nil => simp
  | cons p st ih =>
    have := count_pos p.1
    simp only [stackCount, List.map_cons, List.sum_cons, List.length_cons] at *
    omega

theorem walk_spec (cap : Nat) {targets : List Nat} {x : Nat → K} {g : Nat → Option K} (hg : Known targets x g) :
    ∀ (fuel : Nat) (st : List (PTree K × K)) (out total : K), stackCount st ≤ fuel → stackCount st ≤ cap →
    walk cap targets x fuel st out total =
      .ok (out + (st.map (fun p => p.2 * averaged g p.1)).sum, total + (st.map Prod.snd).sum) := by
  intro fuel
  induction fuel with
  | zero =>
    intro st out total h _
    cases st with
    | nil => simp [walk]
    | cons p st =>
      have := count_pos p.1
      simp only [stackCount, List.map_cons, List.sum_cons] at h
      omega
  | succ fuel ih =>
    intro st out total h hc
    cases st with
    | nil => simp [walk]
    | cons p st =>
      obtain ⟨T, w⟩ := p
      have hlen := length_le_stackCount st
      cases T with
      | leaf lw v =>
        simp only [stackCount, List.map_cons, List.sum_cons, PTree.count] at h hc hlen
        unfold walk
        rw [ih _ _ _ (by simp only [stackCount]; omega) (by simp only [stackCount]; omega)]
        simp only [List.map_cons, List.sum_cons, averaged]
        rw [add_assoc, add_assoc]
      | node nw f t l r =>
        have pl := count_pos l
        have pr := count_pos r
        simp only [stackCount, List.map_cons, List.sum_cons, PTree.count] at h hc hlen
        unfold walk
        cases ht : targetPos f targets 0 with
        | some i =>
          simp only
          obtain ⟨k, hk, hk'⟩ := targetPos_some f _ _ _ ht
          have gf := hg.1 k f hk'
          have : i = k := by omega
          subst this
          rw [if_neg (by omega)]
          by_cases hx : x i ≤ t
          · rw [if_pos hx, ih _ _ _ (by simp only [stackCount, List.map_cons, List.sum_cons]; omega)
              (by simp only [stackCount, List.map_cons, List.sum_cons]; omega)]
            simp only [List.map_cons, List.sum_cons, averaged, gf, if_pos hx]
          · rw [if_neg hx, ih _ _ _ (by simp only [stackCount, List.map_cons, List.sum_cons]; omega)
              (by simp only [stackCount, List.map_cons, List.sum_cons]; omega)]
            simp only [List.map_cons, List.sum_cons, averaged, gf, if_neg hx]
        | none =>
          simp only
          have gf := hg.2 f (targetPos_none f _ _ ht)
          rw [if_neg (by omega), ih _ _ _ (by simp only [stackCount, List.map_cons, List.sum_cons]; omega)
              (by simp only [stackCount, List.map_cons, List.sum_cons]; omega)]
          simp only [List.map_cons, List.sum_cons, averaged, gf]
          congr 2 <;> ring

/-- **C178.** The partial dependence at a grid point is the average of the tree over the features that are not given;
the check of the total weight never fails, the loop ends and the stacks are long enough, whatever the tree. -/
theorem C178_partial_dependence {targets : List Nat} {x : Nat → K} {g : Nat → Option K} (hg : Known targets x g)
    (T : PTree K) (out : K) : partialDependence targets x T out = .ok (out + averaged g T) := by
  unfold partialDependence
  rw [walk_spec _ hg _ _ _ _ (by simp [stackCount]) (by simp [stackCount])]
  simp only [List.map_cons, List.map_nil, List.sum_cons, List.sum_nil, add_zero, one_mul, zero_add]
  rw [if_pos (by constructor <;> norm_num)]

/-- **C178.** If every feature is a target, it is the prediction of the tree. -/
theorem C178_all_targets {x : Nat → K} {g : Nat → Option K} {y : Nat → K} (hg : ∀ f, g f = some (y f)) (T : PTree K) :
    averaged g T = treeValue y T := by
  induction T with
  | leaf w v => rfl
  | node w f t l r hl hr => simp only [averaged, hg, treeValue, hl, hr]

theorem weight_pos {T : PTree K} (h : Weighted T) : 0 < T.weight := by
  induction T with
  | leaf w v => exact h
  | node w f t l r hl hr =>
    obtain ⟨h1, h2, h3⟩ := h
    show 0 < w
    rw [h1]
    exact add_pos (hl h2) (hr h3)

/-- **C178.** If no feature the tree splits on is a target, it is the average prediction over the training samples. -/
theorem C178_no_targets {T : PTree K} (h : Weighted T) :
    averaged (fun _ => none) T * T.weight = ((leafValues T).map (fun p => p.1 * p.2)).sum ∧
      T.weight = ((leafValues T).map Prod.fst).sum := by
  induction T with
  | leaf w v => simp [averaged, leafValues, PTree.weight, mul_comm]
  | node w f t l r hl hr =>
    obtain ⟨h1, h2, h3⟩ := h
    obtain ⟨l1, l2⟩ := hl h2
    obtain ⟨r1, r2⟩ := hr h3
    have pl := weight_pos h2
    have pr := weight_pos h3
    have pw : 0 < w := by rw [h1]; exact add_pos pl pr
    constructor
    · simp only [averaged, leafValues, List.map_append, List.sum_append, ← l1, ← r1]
      show (l.weight / w * averaged (fun _ => none) l + (1 - l.weight / w) * averaged (fun _ => none) r) * w = _
      have e : 1 - l.weight / w = r.weight / w := by
        rw [eq_div_iff (ne_of_gt pw), sub_mul, div_mul_cancel₀ _ (ne_of_gt pw), h1]; ring
      rw [e, add_mul]
      have e1 : l.weight / w * averaged (fun _ => none) l * w = averaged (fun _ => none) l * l.weight := by
        rw [mul_right_comm, div_mul_cancel₀ _ (ne_of_gt pw), mul_comm]
      have e2 : r.weight / w * averaged (fun _ => none) r * w = averaged (fun _ => none) r * r.weight := by
        rw [mul_right_comm, div_mul_cancel₀ _ (ne_of_gt pw), mul_comm]
      rw [e1, e2]
    · simp only [leafValues, List.map_append, List.sum_append, ← l2, ← r2]
      exact h1

/-- **C178.** It lies between the least and the greatest value of the leaves. -/
theorem C178_between {T : PTree K} (h : Weighted T) (g : Nat → Option K) (lo hi : K)
    (hb : ∀ p ∈ leafValues T, lo ≤ p.2 ∧ p.2 ≤ hi) : lo ≤ averaged g T ∧ averaged g T ≤ hi := by
  induction T with
  | leaf w v => exact hb (w, v) (List.mem_singleton.mpr rfl)
  | node w f t l r hl hr =>
    obtain ⟨h1, h2, h3⟩ := h
    obtain ⟨l1, l2⟩ := hl h2 (fun p hp => hb p (List.mem_append_left _ hp))
    obtain ⟨r1, r2⟩ := hr h3 (fun p hp => hb p (List.mem_append_right _ hp))
    have pl := weight_pos h2
    have pr := weight_pos h3
    have pw : 0 < w := by rw [h1]; exact add_pos pl pr
    unfold averaged
    cases hgf : g f with
    | some v =>
      simp only
      by_cases hv : v ≤ t
      · rw [if_pos hv]; exact ⟨l1, l2⟩
      · rw [if_neg hv]; exact ⟨r1, r2⟩
    | none =>
      simp only
      have f0 : 0 ≤ l.weight / w := le_of_lt (div_pos pl pw)
      have f1 : 0 ≤ 1 - l.weight / w := by
        rw [sub_nonneg, div_le_one pw, h1]; linarith
      generalize l.weight / w = q at *
      constructor
      · have a1 := mul_le_mul_of_nonneg_left l1 f0
        have a2 := mul_le_mul_of_nonneg_left r1 f1
        linarith
      · have a1 := mul_le_mul_of_nonneg_left l2 f0
        have a2 := mul_le_mul_of_nonneg_left r2 f1
        linarith

/-! ### a concrete case -/

/-- 4 samples, 1 of them left at the root by feature 0, the others split by feature 5 -/
def pdTree : PTree ℚ := .node 4 0 (1 / 2) (.leaf 1 8) (.node 3 5 2 (.leaf 2 1) (.leaf 1 7))

example : Weighted pdTree ∧ Known [5] (fun _ => (2 : ℚ)) (fun f => if f = 5 then some 2 else none) := by
  refine ⟨by simp [Weighted, pdTree, PTree.weight]; norm_num, ?_, ?_⟩
  · intro i f h
    cases i with
    | zero => simp at h; simp [← h]
    | succ i => simp at h
  · intro f h
    simp at h
    simp [h]

/-- a quarter of the samples is at 8, the others at the left leaf of feature 5 -/
example : partialDependence [5] (fun _ => 2) pdTree 0 = .ok (11 / 4) := by decide +kernel

end YL.Props
