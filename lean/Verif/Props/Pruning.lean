import Verif.Model.Pruning
import Mathlib.Algebra.BigOperators.Group.List.Basic
import Mathlib.Data.List.Nodup
import Mathlib.Tactic.Ring
import Mathlib.Tactic.Linarith
import Mathlib.Tactic.FieldSimp

/-!
# C176: cost complexity pruning finds the cheapest subtree

Specification: pruned trees, their impurity and size, and the cost of Breiman et al.
-/
set_option linter.unusedSectionVars false

namespace YL.Props
open YL.Ccp

/-! ## Specification -/

/-- `PrunedFrom s t`: `s` results from `t` when some nodes are made leaves. -/
inductive PrunedFrom : RT → RT → Prop
  | leaf (i : Nat) (r : ℚ) : PrunedFrom (.leaf i r) (.leaf i r)
  | cut (i : Nat) (r : ℚ) (a b : RT) : PrunedFrom (.leaf i r) (.node i r a b)
  | keep (i : Nat) (r : ℚ) (a b a' b' : RT) : PrunedFrom a' a → PrunedFrom b' b →
      PrunedFrom (.node i r a' b') (.node i r a b)

/-- The total impurity of the leaves. -/
def risk : RT → ℚ
  | .leaf _ r => r
  | .node _ _ a b => risk a + risk b

/-- The number of leaves. -/
def leafCount : RT → Nat
  | .leaf _ _ => 1
  | .node _ _ a b => leafCount a + leafCount b

/-- The cost of a tree: impurity and, at the price `alpha` each, leaves. -/
def ccost (alpha : ℚ) (t : RT) : ℚ := risk t + alpha * leafCount t

/-- The indices of the nodes. -/
def nodeIds : RT → List Nat
  | .leaf i _ => [i]
  | .node i _ a b => i :: (nodeIds a ++ nodeIds b)

/-- The impurity of the root as a leaf. -/
def rootRisk : RT → ℚ
  | .leaf _ r => r
  | .node _ r _ _ => r

/-- No split makes the impurity larger. -/
def SplitsHelp : RT → Prop
  | .leaf _ _ => True
  | .node _ r a b => rootRisk a + rootRisk b ≤ r ∧ SplitsHelp a ∧ SplitsHelp b

/-! ## Helpers -/

theorem leafCount_pos (t : RT) : 1 ≤ leafCount t := by
  induction t with
  | leaf i r => exact le_refl _
  | node i r a b ha hb => simp only [leafCount]; omega

theorem leafCount_posQ (t : RT) : (1 : ℚ) ≤ leafCount t := by
  exact_mod_cast leafCount_pos t

/-- All links are worth at least `g` per leaf. -/
def Strong (g : ℚ) : RT → Prop
  | .leaf _ _ => True
  | .node _ r a b => g * ((leafCount a + leafCount b : ℚ) - 1) ≤ r - (risk a + risk b) ∧
      Strong g a ∧ Strong g b

/-- The cheapest, and of those the smallest, pruned tree. -/
def opt (alpha : ℚ) : RT → RT
  | .leaf i r => .leaf i r
  | .node i r a b =>
    if r + alpha ≤ ccost alpha (opt alpha a) + ccost alpha (opt alpha b) then .leaf i r
    else .node i r (opt alpha a) (opt alpha b)

theorem ccost_leaf (alpha : ℚ) (i : Nat) (r : ℚ) : ccost alpha (.leaf i r) = r + alpha := by
  simp [ccost, risk, leafCount]

theorem ccost_node (alpha : ℚ) (i : Nat) (r : ℚ) (a b : RT) :
    ccost alpha (.node i r a b) = ccost alpha a + ccost alpha b := by
  simp only [ccost, risk, leafCount]
  push_cast
  ring

theorem PrunedFrom.refl (t : RT) : PrunedFrom t t := by
  induction t with
  | leaf i r => exact .leaf i r
  | node i r a b ha hb => exact .keep _ _ _ _ _ _ ha hb

theorem PrunedFrom.trans {s t u : RT} (h1 : PrunedFrom s t) (h2 : PrunedFrom t u) :
    PrunedFrom s u := by
  induction h2 generalizing s with
  | leaf i r => exact h1
  | cut i r a b => cases h1; exact .cut _ _ _ _
  | keep i r a b a' b' _ _ iha ihb =>
    cases h1 with
    | cut => exact .cut _ _ _ _
    | keep _ _ _ _ a'' b'' ha hb => exact .keep _ _ _ _ _ _ (iha ha) (ihb hb)

theorem opt_pruned (alpha : ℚ) (t : RT) : PrunedFrom (opt alpha t) t := by
  induction t with
  | leaf i r => exact .leaf i r
  | node i r a b ha hb =>
    simp only [opt]
    split
    · exact .cut _ _ _ _
    · exact .keep _ _ _ _ _ _ ha hb

theorem opt_le {alpha : ℚ} {s t : RT} (h : PrunedFrom s t) :
    ccost alpha (opt alpha t) ≤ ccost alpha s := by
  induction h with
  | leaf i r => exact le_refl _
  | cut i r a b =>
    simp only [opt]
    split
    · exact le_refl _
    · rename_i h
      rw [ccost_leaf, ccost_node]
      exact le_of_lt (not_le.mp h)
  | keep i r a b a' b' _ _ iha ihb =>
    simp only [opt]
    split
    · rename_i h
      rw [ccost_leaf, ccost_node]
      linarith
    · rw [ccost_node, ccost_node]
      linarith

theorem opt_least {alpha : ℚ} {s t : RT} (h : PrunedFrom s t)
    (hc : ccost alpha s ≤ ccost alpha (opt alpha t)) : PrunedFrom (opt alpha t) s := by
  induction h with
  | leaf i r => exact .leaf i r
  | cut i r a b =>
    simp only [opt] at hc ⊢
    split at hc
    · rename_i h; rw [if_pos h]; exact .leaf _ _
    · rename_i h
      rw [ccost_leaf, ccost_node] at hc
      exact absurd hc h
  | keep i r a b a' b' ha hb iha ihb =>
    have h1 := opt_le (alpha := alpha) ha
    have h2 := opt_le (alpha := alpha) hb
    simp only [opt] at hc ⊢
    split at hc
    · rename_i h; rw [if_pos h]; exact .cut _ _ _ _
    · rename_i h
      rw [if_neg h]
      rw [ccost_node, ccost_node] at hc
      exact .keep _ _ _ _ _ _ (iha (by linarith)) (ihb (by linarith))

theorem strong_le {g : ℚ} {s t : RT} (h : PrunedFrom s t) (hs : Strong g t) :
    ccost g t ≤ ccost g s := by
  induction h with
  | leaf i r => exact le_refl _
  | cut i r a b =>
    have := hs.1
    rw [ccost_leaf]
    simp only [ccost, risk, leafCount]
    push_cast
    linarith
  | keep i r a b a' b' _ _ iha ihb =>
    rw [ccost_node, ccost_node]
    have h1 := iha hs.2.1
    have h2 := ihb hs.2.2
    linarith

theorem ccost_shift (alpha g : ℚ) (t : RT) :
    ccost alpha t = ccost g t + (alpha - g) * leafCount t := by
  simp only [ccost]; ring

theorem opt_of_strong {alpha g : ℚ} (hg : alpha < g) {t : RT} (hs : Strong g t) :
    opt alpha t = t := by
  induction t with
  | leaf i r => rfl
  | node i r a b ha hb =>
    obtain ⟨h1, h2, h3⟩ := hs
    simp only [opt]
    rw [ha h2, hb h3, if_neg]
    intro h
    simp only [ccost] at h
    have p1 := leafCount_posQ a
    have p2 := leafCount_posQ b
    have : (g - alpha) * ((leafCount a + leafCount b : ℚ) - 1) ≤ 0 := by linarith
    have h4 : 0 < g - alpha := by linarith
    have h5 : (0 : ℚ) < (leafCount a + leafCount b : ℚ) - 1 := by linarith
    have := mul_pos h4 h5
    linarith

/-- The records are right. -/
def RecOk : BT → Prop
  | .leaf _ _ => True
  | .node _ _ rb nl a b => rb = risk (strip a) + risk (strip b) ∧
      nl = leafCount (strip a) + leafCount (strip b) ∧ RecOk a ∧ RecOk b

/-- The link of the node with index `k` is worth exactly `g` per leaf. -/
def LinkAt (g : ℚ) (k : Nat) : RT → Prop
  | .leaf _ _ => True
  | .node i r a b => (i = k → g * ((leafCount a + leafCount b : ℚ) - 1) = r - (risk a + risk b)) ∧
      LinkAt g k a ∧ LinkAt g k b

/-- The index belongs to a node that is no leaf. -/
def InnerAt (k : Nat) : RT → Prop
  | .leaf _ _ => False
  | .node i _ a b => i = k ∨ InnerAt k a ∨ InnerAt k b

theorem innerAt_mem {k : Nat} {t : RT} (h : InnerAt k t) : k ∈ nodeIds t := by
  induction t with
  | leaf i r => cases h
  | node i r a b ha hb =>
    simp only [nodeIds, List.mem_cons, List.mem_append]
    rcases h with h | h | h
    · exact Or.inl h.symm
    · exact Or.inr (Or.inl (ha h))
    · exact Or.inr (Or.inr (hb h))

theorem linkAt_absent {g : ℚ} {k : Nat} {t : RT} (h : k ∉ nodeIds t) : LinkAt g k t := by
  induction t with
  | leaf i r => trivial
  | node i r a b ha hb =>
    simp only [nodeIds, List.mem_cons, List.mem_append, not_or] at h
    exact ⟨fun e => absurd e.symm h.1, ha h.2.1, hb h.2.2⟩

theorem leafRisks_sum (t : RT) : (leafRisks t).sum = risk t ∧ (leafRisks t).length = leafCount t := by
  induction t with
  | leaf i r => simp [leafRisks, risk, leafCount]
  | node i r a b ha hb =>
    simp only [leafRisks, risk, leafCount, List.sum_append, List.length_append]
    rw [ha.1, hb.1, ha.2, hb.2]
    exact ⟨rfl, rfl⟩

theorem strip_start (t : RT) : strip (start t) = t := by
  induction t with
  | leaf i r => rfl
  | node i r a b ha hb => simp only [start, strip]; rw [ha, hb]

theorem start_ok (t : RT) : RecOk (start t) := by
  induction t with
  | leaf i r => trivial
  | node i r a b ha hb =>
    refine ⟨?_, ?_, ha, hb⟩
    · rw [strip_start, strip_start, List.sum_append, (leafRisks_sum a).1, (leafRisks_sum b).1]
    · rw [strip_start, strip_start, List.length_append, (leafRisks_sum a).2, (leafRisks_sum b).2]

theorem rBranch_ok {t : BT} (h : RecOk t) : rBranch t = risk (strip t) := by
  cases t with
  | leaf i r => rfl
  | node i r rb nl a b => exact h.1

/-- `x` is no better than the candidate `y`. -/
def Beats (g : ℚ) (y : Option (ℚ × Nat)) : Prop := ∀ x, y = some x → g ≤ x.1

theorem best_spec {x y : Option (ℚ × Nat)} {p : ℚ × Nat} (h : best x y = some p) :
    (x = some p ∨ y = some p) ∧ Beats p.1 x ∧ Beats p.1 y := by
  cases x with
  | none =>
    simp only [best] at h
    subst h
    refine ⟨Or.inr rfl, ?_, ?_⟩
    · intro q e; cases e
    · intro q e; cases e; exact le_refl _
  | some x =>
    cases y with
    | none =>
      simp only [best] at h
      cases h
      refine ⟨Or.inl rfl, ?_, ?_⟩
      · intro q e; cases e; exact le_refl _
      · intro q e; cases e
    | some y =>
      simp only [best] at h
      split at h
      · rename_i hc
        cases h
        refine ⟨Or.inr rfl, ?_, ?_⟩
        · intro q e; cases e
          rcases hc with hc | hc
          · exact le_of_lt hc
          · exact le_of_eq hc.1
        · intro q e; cases e; exact le_refl _
      · rename_i hc
        cases h
        refine ⟨Or.inl rfl, ?_, ?_⟩
        · intro q e; cases e; exact le_refl _
        · intro q e; cases e
          exact not_lt.mp (fun hlt => hc (Or.inl hlt))

theorem best_none {x y : Option (ℚ × Nat)} (h : best x y = none) : x = none ∧ y = none := by
  cases x with
  | none => cases y with
    | none => exact ⟨rfl, rfl⟩
    | some y => cases h
  | some x => cases y with
    | none => cases h
    | some y => simp only [best] at h; split at h <;> cases h

theorem weakest_none {t : BT} (h : weakest t = none) : ∃ i r, t = .leaf i r := by
  cases t with
  | leaf i r => exact ⟨i, r, rfl⟩
  | node i r rb nl a b =>
    have := (best_none (best_none h).1).1
    cases this

theorem strong_of_beats {g : ℚ} {t : BT} (hr : RecOk t) (h : Beats g (weakest t)) :
    Strong g (strip t) := by
  induction t generalizing g with
  | leaf i r => trivial
  | node i r rb nl a b ha hb =>
    obtain ⟨h1, h2, h3, h4⟩ := hr
    cases hw : weakest (.node i r rb nl a b) with
    | none => obtain ⟨_, _, e⟩ := weakest_none hw; cases e
    | some p =>
      have hgp := h p hw
      have hw2 := hw
      simp only [weakest] at hw2
      obtain ⟨_, hx, hy⟩ := best_spec hw2
      cases hin : best (some ((r - rb) / ((nl : ℚ) - 1), i)) (weakest a) with
      | none => cases (best_none hin).1
      | some q =>
        have hpq := hx q hin
        obtain ⟨_, hq1, hq2⟩ := best_spec hin
        have e0 := hq1 _ rfl
        simp only at e0
        refine ⟨?_, ha h3 ?_, hb h4 ?_⟩
        · have p1 := leafCount_posQ (strip a)
          have p2 := leafCount_posQ (strip b)
          rw [h1, h2] at e0
          push_cast at e0
          have hpos : (0 : ℚ) < (leafCount (strip a) + leafCount (strip b) : ℚ) - 1 := by linarith
          have : g ≤ (r - (risk (strip a) + risk (strip b))) /
              ((leafCount (strip a) + leafCount (strip b) : ℚ) - 1) := by linarith
          exact (le_div_iff₀ hpos).mp this
        · intro x e; have := hq2 x e; linarith
        · intro x e; have := hy x e; linarith

theorem weakest_link {g : ℚ} {k : Nat} {t : BT} (hr : RecOk t) (hn : (nodeIds (strip t)).Nodup)
    (h : weakest t = some (g, k)) : InnerAt k (strip t) ∧ LinkAt g k (strip t) := by
  induction t generalizing g with
  | leaf i r => cases h
  | node i r rb nl a b ha hb =>
    obtain ⟨h1, h2, h3, h4⟩ := hr
    simp only [strip, nodeIds, List.nodup_cons, List.nodup_append, List.mem_append, not_or] at hn
    obtain ⟨⟨hia, hib⟩, hna, hnb, hdis⟩ := hn
    simp only [weakest] at h
    obtain ⟨hp, _, _⟩ := best_spec h
    have case0 : some ((r - rb) / ((nl : ℚ) - 1), i) = some (g, k) →
        InnerAt k (strip (.node i r rb nl a b)) ∧ LinkAt g k (strip (.node i r rb nl a b)) := by
      intro e
      simp only [Option.some.injEq, Prod.mk.injEq] at e
      obtain ⟨e1, e2⟩ := e
      subst e2
      refine ⟨Or.inl rfl, fun _ => ?_, linkAt_absent hia, linkAt_absent hib⟩
      have p1 := leafCount_posQ (strip a)
      have p2 := leafCount_posQ (strip b)
      rw [h1, h2] at e1
      push_cast at e1
      have hpos : (0 : ℚ) < (leafCount (strip a) + leafCount (strip b) : ℚ) - 1 := by linarith
      rw [← e1, div_mul_cancel₀ _ (ne_of_gt hpos)]
    rcases hp with hp | hp
    · obtain ⟨hp2, _, _⟩ := best_spec hp
      rcases hp2 with hp2 | hp2
      · exact case0 hp2
      · obtain ⟨q1, q2⟩ := ha h3 hna hp2
        have hk := innerAt_mem q1
        refine ⟨Or.inr (Or.inl q1), fun e => ?_, q2, linkAt_absent ?_⟩
        · subst e; exact absurd hk hia
        · intro hk2; exact hdis _ hk _ hk2 rfl
    · obtain ⟨q1, q2⟩ := hb h4 hnb hp
      have hk := innerAt_mem q1
      refine ⟨Or.inr (Or.inr q1), fun e => ?_, linkAt_absent ?_, q2⟩
      · subst e; exact absurd hk hib
      · intro hk2; exact hdis _ hk2 _ hk rfl

theorem pruneAt_absent {k : Nat} {t : BT} (h : ¬ InnerAt k (strip t)) : pruneAt k t = none := by
  induction t with
  | leaf i r => rfl
  | node i r rb nl a b ha hb =>
    simp only [strip, InnerAt, not_or] at h
    simp only [pruneAt]
    rw [if_neg h.1, ha h.2.1, hb h.2.2]

theorem pruneAt_spec {g : ℚ} {k : Nat} {t : BT} (hr : RecOk t) (hk : InnerAt k (strip t))
    (hl : LinkAt g k (strip t)) :
    ∃ t' d n, pruneAt k t = some (t', d, n) ∧ RecOk t' ∧ d = g * (n : ℚ) ∧
      risk (strip t') = risk (strip t) + d ∧ leafCount (strip t') + n = leafCount (strip t) ∧
      PrunedFrom (strip t') (strip t) ∧ inner (strip t') < inner (strip t) ∧
      (nodeIds (strip t')).Sublist (nodeIds (strip t)) ∧
      (Strong g (strip t) → Strong g (strip t') ∧
        ∀ alpha, g ≤ alpha → opt alpha (strip t') = opt alpha (strip t)) := by
  induction t with
  | leaf i r => cases hk
  | node i r rb nl a b ha hb =>
    obtain ⟨h1, h2, h3, h4⟩ := hr
    obtain ⟨l1, l2, l3⟩ := hl
    have p1 := leafCount_pos (strip a)
    have p2 := leafCount_pos (strip b)
    by_cases e : i = k
    · refine ⟨.leaf i r, r - rb, nl - 1, by simp only [pruneAt]; rw [if_pos e], trivial, ?_, ?_, ?_,
        .cut _ _ _ _, by simp [strip, inner], by simp [strip, nodeIds], ?_⟩
      · have := l1 e
        rw [h1, ← this, h2, Nat.cast_sub (by omega)]
        push_cast
        rfl
      · simp only [strip, risk]; rw [h1]; ring
      · simp only [strip, leafCount]; omega
      · intro hs
        refine ⟨trivial, ?_⟩
        intro alpha hga
        simp only [strip, opt]
        rw [if_pos]
        have q := l1 e
        have q1 := strong_le (opt_pruned alpha (strip a)) hs.2.1
        have q2 := strong_le (opt_pruned alpha (strip b)) hs.2.2
        rw [ccost_shift alpha g (opt alpha (strip a)), ccost_shift alpha g (opt alpha (strip b))]
        have r1 := mul_le_mul_of_nonneg_left (leafCount_posQ (opt alpha (strip a)))
          (sub_nonneg.mpr hga)
        have r2 := mul_nonneg (sub_nonneg.mpr hga)
          (le_trans zero_le_one (leafCount_posQ (opt alpha (strip b))))
        have q3 : ccost g (strip a) + ccost g (strip b) = r + g := by
          simp only [ccost]; linarith
        linarith
    · have up : ∀ (x : RT) (d : ℚ) (n m m' : Nat), d = g * (n : ℚ) → m' + n = m →
          g * ((m : ℚ) - 1) ≤ x.casesOn (fun _ _ => 0) (fun _ _ _ _ => 0) + g * ((m : ℚ) - 1) := by
        intro x d n m m' _ _
        cases x <;> simp
      by_cases ka : InnerAt k (strip a)
      · obtain ⟨a', d, n, e1, e2, e3, e4, e5, e6, e7, e8, e9⟩ := ha h3 ka l2
        refine ⟨.node i r (rb + d) (nl - n) a' b, d, n,
          by simp only [pruneAt]; rw [if_neg e, e1], ⟨?_, ?_, e2, h4⟩, e3, ?_, ?_,
          .keep _ _ _ _ _ _ e6 (PrunedFrom.refl _), ?_, ?_, ?_⟩
        · rw [e4, h1]; ring
        · omega
        · simp only [strip, risk]; rw [e4]; ring
        · simp only [strip, leafCount]; omega
        · simp only [strip, inner]; omega
        · simp only [strip, nodeIds]
          exact (List.Sublist.append e8 (List.Sublist.refl _)).cons_cons i
        · intro hs
          obtain ⟨s1, s2⟩ := e9 hs.2.1
          refine ⟨⟨?_, s1, hs.2.2⟩, ?_⟩
          · have := hs.1
            rw [e4, e3]
            have e5q : (leafCount (strip a') : ℚ) + n = leafCount (strip a) := by
              exact_mod_cast e5
            rw [← e5q] at this
            linarith
          · intro alpha hga
            simp only [strip, opt]
            rw [s2 alpha hga]
      · have kb : InnerAt k (strip b) := by
          rcases hk with hk | hk | hk
          · exact absurd hk e
          · exact absurd hk ka
          · exact hk
        obtain ⟨b', d, n, e1, e2, e3, e4, e5, e6, e7, e8, e9⟩ := hb h4 kb l3
        refine ⟨.node i r (rb + d) (nl - n) a b', d, n,
          by simp only [pruneAt]; rw [if_neg e, pruneAt_absent ka, e1], ⟨?_, ?_, h3, e2⟩, e3, ?_, ?_,
          .keep _ _ _ _ _ _ (PrunedFrom.refl _) e6, ?_, ?_, ?_⟩
        · rw [e4, h1]; ring
        · omega
        · simp only [strip, risk]; rw [e4]; ring
        · simp only [strip, leafCount]; omega
        · simp only [strip, inner]; omega
        · simp only [strip, nodeIds]
          exact (List.Sublist.append (List.Sublist.refl _) e8).cons_cons i
        · intro hs
          obtain ⟨s1, s2⟩ := e9 hs.2.2
          refine ⟨⟨?_, hs.2.1, s1⟩, ?_⟩
          · have := hs.1
            rw [e4, e3]
            have e5q : (leafCount (strip b') : ℚ) + n = leafCount (strip b) := by
              exact_mod_cast e5
            rw [← e5q] at this
            linarith
          · intro alpha hga
            simp only [strip, opt]
            rw [s2 alpha hga]

theorem link_ge {g0 g : ℚ} {k : Nat} {t : RT} (hk : InnerAt k t) (hl : LinkAt g k t)
    (hs : Strong g0 t) : g0 ≤ g := by
  induction t with
  | leaf i r => cases hk
  | node i r a b ha hb =>
    rcases hk with hk | hk | hk
    · have q1 := hl.1 hk
      have q2 := hs.1
      rw [← q1] at q2
      have p1 := leafCount_posQ a
      have p2 := leafCount_posQ b
      exact le_of_mul_le_mul_right q2 (by linarith)
    · exact ha hk hl.2.1 hs.2.1
    · exact hb hk hl.2.2 hs.2.2

theorem pruned_root {s t : RT} (h : PrunedFrom s t) : rootRisk s = rootRisk t := by
  cases h <;> rfl

theorem helps_strong {t : RT} (h : SplitsHelp t) : Strong 0 t ∧ risk t ≤ rootRisk t := by
  induction t with
  | leaf i r => exact ⟨trivial, le_refl _⟩
  | node i r a b ha hb =>
    obtain ⟨h1, h2, h3⟩ := h
    obtain ⟨a1, a2⟩ := ha h2
    obtain ⟨b1, b2⟩ := hb h3
    refine ⟨⟨by linarith, a1, b1⟩, ?_⟩
    simp only [risk, rootRisk]
    linarith

/-- One round of the loop. -/
theorem round {t : BT} (hr : RecOk t) (hn : (nodeIds (strip t)).Nodup) {g : ℚ} {k : Nat}
    (hw : weakest t = some (g, k)) :
    Strong g (strip t) ∧ ∃ t' d n, pruneAt k t = some (t', d, n) ∧ RecOk t' ∧
      (nodeIds (strip t')).Nodup ∧ inner (strip t') < inner (strip t) ∧
      PrunedFrom (strip t') (strip t) ∧ Strong g (strip t') ∧
      ∀ alpha, g ≤ alpha → opt alpha (strip t') = opt alpha (strip t) := by
  obtain ⟨h1, h2⟩ := weakest_link hr hn hw
  have h3 : Strong g (strip t) := strong_of_beats hr (by
    intro x e; rw [hw] at e; cases e; exact le_refl _)
  obtain ⟨t', d, n, e1, e2, _, _, _, e6, e7, e8, e9⟩ := pruneAt_spec hr h1 h2
  exact ⟨h3, t', d, n, e1, e2, hn.sublist e8, e7, e6, (e9 h3).1, (e9 h3).2⟩

theorem loop_opt (alpha : ℚ) (fuel : Nat) (t : BT) (hr : RecOk t)
    (hn : (nodeIds (strip t)).Nodup) (hf : inner (strip t) ≤ fuel) :
    strip (loop (fun g => decide (alpha < g)) fuel t).2 = opt alpha (strip t) := by
  induction fuel generalizing t with
  | zero =>
    cases t with
    | leaf i r => rfl
    | node i r rb nl a b => simp [strip, inner] at hf
  | succ fuel ih =>
    simp only [loop]
    cases hw : weakest t with
    | none =>
      obtain ⟨i, r, rfl⟩ := weakest_none hw
      rfl
    | some p =>
      obtain ⟨g, k⟩ := p
      obtain ⟨h3, t', d, n, e1, e2, e3, e4, _, _, e6⟩ := round hr hn hw
      simp only
      by_cases hg : alpha < g
      · simp only [hg, decide_true, if_true]
        exact (opt_of_strong hg h3).symm
      · simp only [hg, decide_false, e1]
        have := ih t' e2 e3 (by omega)
        rw [← e6 alpha (not_lt.mp hg), ← this]
        rfl

theorem pruneTree_opt (alpha : ℚ) (t : RT) (hn : (nodeIds t).Nodup) :
    pruneTree alpha t = opt alpha t := by
  unfold pruneTree
  have := loop_opt alpha (inner t) (start t) (start_ok t) (by rw [strip_start]; exact hn)
    (by rw [strip_start])
  rw [this, strip_start]

theorem opt_nested {alpha beta : ℚ} (h : alpha ≤ beta) (t : RT) :
    PrunedFrom (opt beta t) (opt alpha t) := by
  induction t with
  | leaf i r => exact .leaf i r
  | node i r a b ha hb =>
    simp only [opt]
    by_cases c : r + alpha ≤ ccost alpha (opt alpha a) + ccost alpha (opt alpha b)
    · rw [if_pos c, if_pos]
      · exact .leaf _ _
      · have q1 := opt_le (alpha := alpha) (opt_pruned beta a)
        have q2 := opt_le (alpha := alpha) (opt_pruned beta b)
        rw [ccost_shift beta alpha (opt beta a), ccost_shift beta alpha (opt beta b)]
        have r1 := mul_le_mul_of_nonneg_left (leafCount_posQ (opt beta a)) (sub_nonneg.mpr h)
        have r2 := mul_nonneg (sub_nonneg.mpr h)
          (le_trans zero_le_one (leafCount_posQ (opt beta b)))
        linarith
    · rw [if_neg c]
      split
      · exact .cut _ _ _ _
      · exact .keep _ _ _ _ _ _ ha hb

theorem loop_path (T : RT) (fuel : Nat) (t : BT) (hr : RecOk t)
    (hn : (nodeIds (strip t)).Nodup) (hf : inner (strip t) ≤ fuel) (g0 : ℚ)
    (hs : Strong g0 (strip t)) (hp : PrunedFrom (strip t) T)
    (ho : ∀ alpha, g0 ≤ alpha → opt alpha (strip t) = opt alpha T) :
    ((loop (fun _ => false) fuel t).1.map Prod.fst).Pairwise (· ≤ ·) ∧
    (∀ p ∈ (loop (fun _ => false) fuel t).1, g0 ≤ p.1 ∧
      ∃ s, PrunedFrom s T ∧ p.2 = risk s ∧ ∀ s', PrunedFrom s' T → ccost p.1 s ≤ ccost p.1 s') ∧
    (((loop (fun _ => false) fuel t).1.map Prod.snd).getLast?.getD (rBranch t)
      = rootRisk (strip t)) := by
  induction fuel generalizing t g0 with
  | zero =>
    cases t with
    | leaf i r => simp [loop, rBranch, strip, rootRisk]
    | node i r rb nl a b => simp [strip, inner] at hf
  | succ fuel ih =>
    simp only [loop]
    cases hw : weakest t with
    | none =>
      obtain ⟨i, r, rfl⟩ := weakest_none hw
      simp [rBranch, strip, rootRisk]
    | some p =>
      obtain ⟨g, k⟩ := p
      obtain ⟨h3, t', d, n, e1, e2, e3, e4, e5, e6, e7⟩ := round hr hn hw
      have hg : g0 ≤ g := by
        obtain ⟨q1, q2⟩ := weakest_link hr hn hw
        exact link_ge q1 q2 hs
      have ho' : ∀ alpha, g ≤ alpha → opt alpha (strip t') = opt alpha T := by
        intro alpha h
        rw [e7 alpha h, ho alpha (le_trans hg h)]
      obtain ⟨i1, i2, i3⟩ := ih t' e2 e3 (by omega) g e6 (e5.trans hp) ho'
      simp only [e1, Bool.false_eq_true, if_false]
      refine ⟨?_, ?_, ?_⟩
      · rw [List.map_cons, List.pairwise_cons]
        refine ⟨?_, i1⟩
        intro x hx
        obtain ⟨p, hp1, rfl⟩ := List.mem_map.mp hx
        exact (i2 p hp1).1
      · intro p hp1
        rcases List.mem_cons.mp hp1 with rfl | hp1
        · refine ⟨hg, strip t', e5.trans hp, rBranch_ok e2, ?_⟩
          intro s' hs'
          have q1 := opt_le (alpha := g) hs'
          have q2 := strong_le (opt_pruned g (strip t')) e6
          rw [ho' g (le_refl _)] at q2
          exact le_trans q2 q1
        · obtain ⟨q1, q2⟩ := i2 p hp1
          exact ⟨le_trans hg q1, q2⟩
      · have hroot : rootRisk (strip t') = rootRisk (strip t) := pruned_root e5
        rw [← hroot, ← i3, List.map_cons, List.getLast?_cons]
        simp

/-! ## Theorems -/

/-- **C176.** The pruned tree is the cheapest of all trees that pruning can give, and it is
contained in every other one that is as cheap. -/
theorem C176_cheapest (alpha : ℚ) (t : RT) (hn : (nodeIds t).Nodup) :
    PrunedFrom (pruneTree alpha t) t ∧
    (∀ s, PrunedFrom s t → ccost alpha (pruneTree alpha t) ≤ ccost alpha s) ∧
    ∀ s, PrunedFrom s t → ccost alpha s ≤ ccost alpha (pruneTree alpha t) →
      PrunedFrom (pruneTree alpha t) s := by
  rw [pruneTree_opt alpha t hn]
  exact ⟨opt_pruned alpha t, fun s hs => opt_le hs, fun s hs hc => opt_least hs hc⟩

/-- **C176.** A larger `ccp_alpha` prunes the tree further. -/
theorem C176_nested (alpha beta : ℚ) (h : alpha ≤ beta) (t : RT) (hn : (nodeIds t).Nodup) :
    PrunedFrom (pruneTree beta t) (pruneTree alpha t) := by
  rw [pruneTree_opt alpha t hn, pruneTree_opt beta t hn]
  exact opt_nested h t

/-- **C176.** If no split makes the impurity larger, `ccp_alpha = 0` costs no impurity, and the
whole pruning path ascends; it starts with the full tree and ends with its root, and every entry is
an alpha with the impurity of a subtree that is cheapest for it. -/
theorem C176_path (t : RT) (hn : (nodeIds t).Nodup) (hh : SplitsHelp t) :
    ((pruningPath t).map Prod.fst).Pairwise (· ≤ ·) ∧
    (pruningPath t).head? = some (0, risk t) ∧
    ((pruningPath t).map Prod.snd).getLast? = some (rootRisk t) ∧
    (∀ p ∈ pruningPath t, ∃ s, PrunedFrom s t ∧ p.2 = risk s ∧
      ∀ s', PrunedFrom s' t → ccost p.1 s ≤ ccost p.1 s') ∧
    risk (pruneTree 0 t) = risk t := by
  have hs := helps_strong hh
  obtain ⟨i1, i2, i3⟩ := loop_path t (inner t) (start t) (start_ok t)
    (by rw [strip_start]; exact hn) (by rw [strip_start]) 0 (by rw [strip_start]; exact hs.1)
    (by rw [strip_start]; exact PrunedFrom.refl t) (by intro alpha _; rw [strip_start])
  have hb : rBranch (start t) = risk t := by rw [rBranch_ok (start_ok t), strip_start]
  refine ⟨?_, ?_, ?_, ?_, ?_⟩
  · unfold pruningPath
    rw [List.map_cons, List.pairwise_cons]
    refine ⟨?_, i1⟩
    intro x hx
    obtain ⟨p, hp, rfl⟩ := List.mem_map.mp hx
    exact (i2 p hp).1
  · unfold pruningPath
    rw [List.head?_cons, hb]
  · unfold pruningPath
    rw [strip_start] at i3
    rw [← i3, List.map_cons, List.getLast?_cons]
  · intro p hp
    unfold pruningPath at hp
    rcases List.mem_cons.mp hp with rfl | hp
    · exact ⟨t, PrunedFrom.refl t, hb, fun s' hs' => strong_le hs' hs.1⟩
    · exact (i2 p hp).2
  · obtain ⟨c1, c2, _⟩ := C176_cheapest 0 t hn
    have q1 := c2 t (PrunedFrom.refl t)
    have q2 := strong_le c1 hs.1
    simp only [ccost] at q1 q2
    linarith

/-- The weighted impurity of the leaves of the grown tree. -/
def grownRisk : Grown → ℚ
  | .leaf _ w p => w * p
  | .node _ _ _ a b => grownRisk a + grownRisk b

/-- The weighted impurity of the root. -/
def grownRoot : Grown → ℚ
  | .leaf _ w p => w * p
  | .node _ w p _ _ => w * p

/-- The weighted number of all samples. -/
def grownWeight : Grown → ℚ
  | .leaf _ w _ => w
  | .node _ w _ _ _ => w

/-- The indices of the nodes. -/
def grownIds : Grown → List Nat
  | .leaf i _ _ => [i]
  | .node i _ _ a b => i :: (grownIds a ++ grownIds b)

/-- **C176.** Impurities are weighted with the share of the samples: the risks above are the
averages over all samples of the impurity of their leaf. -/
theorem C176_weights (t : Grown) (h : grownWeight t ≠ 0) :
    risk (weigh t.weight t) * grownWeight t = grownRisk t ∧
    rootRisk (weigh t.weight t) * grownWeight t = grownRoot t ∧
    nodeIds (weigh t.weight t) = grownIds t := by
  have e : grownWeight t = t.weight := by cases t <;> rfl
  rw [e] at h ⊢
  clear e
  generalize t.weight = w at h
  refine ⟨?_, ?_, ?_⟩
  · induction t with
    | leaf i v p => simp only [weigh, risk, grownRisk]; field_simp
    | node i v p a b ha hb => simp only [weigh, risk, grownRisk]; rw [add_mul, ha, hb]
  · cases t with
    | leaf i v p => simp only [weigh, rootRisk, grownRoot]; field_simp
    | node i v p a b => simp only [weigh, rootRisk, grownRoot]; field_simp
  · induction t with
    | leaf i v p => rfl
    | node i v p a b ha hb => simp only [weigh, nodeIds, grownIds]; rw [ha, hb]

/-- **C176, finding.** Where a split makes the impurity larger, the path starts with an alpha of 0
all the same and then goes down; even without any price for leaves the branch is cut. -/
theorem C176_worse_split_descends :
    pruningPath (.node 0 0 (.leaf 1 1) (.leaf 2 1)) = [(0, 2), (-2, 0)] ∧
    pruneTree (-1) (.node 0 0 (.leaf 1 1) (.leaf 2 1)) = .leaf 0 0 := by
  constructor <;> decide +kernel

/-- Non-vacuity: a tree of three splits with its path, and the tree pruned at 1. -/
def samplePrune : RT :=
  .node 0 10 (.node 1 4 (.leaf 2 1) (.leaf 3 2)) (.node 4 4 (.leaf 5 0) (.leaf 6 1))

example : (nodeIds samplePrune).Nodup ∧ SplitsHelp samplePrune ∧
    pruningPath samplePrune = [(0, 4), (1, 5), (5 / 2, 10)] ∧
    pruneTree 1 samplePrune = .node 0 10 (.leaf 1 4) (.node 4 4 (.leaf 5 0) (.leaf 6 1)) := by
  refine ⟨by decide +kernel, ?_, by decide +kernel, by decide +kernel⟩
  simp only [samplePrune, SplitsHelp, rootRisk]
  norm_num

end YL.Props
