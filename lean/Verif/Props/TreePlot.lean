import Verif.Model.TreePlot
import Verif.Props.Importance
import Mathlib.Algebra.Order.Round
import Mathlib.Data.List.Duplicate

/-!
# C155: the pictures of trees
-/

set_option linter.unusedSectionVars false

namespace YL.Props

open YL Tree TreePlot Spec

/-! ### The palette -/

section Palette

theorem hueColor_inj : ((List.range' 25 360).map hueColor).Nodup := by decide +kernel

theorem hue_bounds (n k : Nat) (hk : k < n) : 25 ≤ (25 * n + 360 * k) / n ∧ (25 * n + 360 * k) / n < 385 := by
  have hn : 0 < n := by omega
  constructor
  · rw [Nat.le_div_iff_mul_le hn]; omega
  · rw [Nat.div_lt_iff_lt_mul hn]; nlinarith

theorem hue_lt (n k k' : Nat) (h0 : 0 < n) (hn : n ≤ 360) (h : k < k') : (25 * n + 360 * k) / n < (25 * n + 360 * k') / n := by
  rw [Nat.lt_iff_add_one_le, Nat.le_div_iff_mul_le h0, add_mul, one_mul]
  have := Nat.div_mul_le_self (25 * n + 360 * k) n
  nlinarith

/-- C155. Up to 360 treatments have colours that are pairwise different. -/
theorem C155_palette (n : Nat) (hn : n ≤ 360) : (colorBrew n).length = n ∧ (colorBrew n).Nodup := by
  refine ⟨by simp [colorBrew, hues], ?_⟩
  unfold colorBrew hues
  rw [List.map_map, List.nodup_map_iff_inj_on List.nodup_range]
  intro a ha b hb hab
  rw [List.mem_range] at ha hb
  have inj := hueColor_inj
  rw [List.nodup_map_iff_inj_on List.nodup_range'] at inj
  have m : ∀ k, k < n → (25 * n + 360 * k) / n ∈ List.range' 25 360 := fun k hk => by
    have := hue_bounds n k hk
    rw [List.mem_range'_1]; omega
  have e := inj _ (m a ha) _ (m b hb) hab
  rcases Nat.lt_trichotomy a b with h | h | h
  · exact absurd e (hue_lt n a b (by omega) hn h).ne
  · exact h
  · exact absurd e (hue_lt n b a (by omega) hn h).ne'

/-- C155, refuted beyond: with more than 360 treatments two have the same colour. -/
theorem C155_palette_refuted (n : Nat) (hn : 360 < n) : ¬ (colorBrew n).Nodup := by
  intro h
  have h1 : (colorBrew n).toFinset.card = n := by
    rw [List.toFinset_card_of_nodup h]; simp [colorBrew, hues]
  have h2 : (colorBrew n).toFinset ⊆ ((List.range' 25 360).map hueColor).toFinset := by
    intro c hc
    simp only [colorBrew, hues, List.map_map, List.mem_toFinset, List.mem_map, List.mem_range] at hc ⊢
    obtain ⟨k, hk, rfl⟩ := hc
    refine ⟨(25 * n + 360 * k) / n, ?_, rfl⟩
    have := hue_bounds n k hk
    rw [List.mem_range'_1]; omega
  have h3 := Finset.card_le_card h2
  have h4 := List.toFinset_card_le ((List.range' 25 360).map hueColor)
  simp at h4
  omega

example : colorBrew 2 = [(229, 129, 57), (57, 157, 229)] := by decide +kernel

end Palette

variable {K : Type} [Field K] [LinearOrder K] [IsStrictOrderedRing K] {V : Type}

/-! ### The boxes -/

/-- `Below nodes k0 i0 p0 k i p`: going down from node `i0` at depth `k0` one meets node `i` at depth `k`; `p` is the node above and whether the way leads to its left child -/
inductive Below (nodes : List (Node K V)) (k0 i0 : Nat) (p0 : Option (Nat × Bool)) : Nat → Nat → Option (Nat × Bool) → Prop
  | start : Below nodes k0 i0 p0 k0 i0 p0
  | left {k i p n l r} : Below nodes k0 i0 p0 k i p → nodes[i]? = some n → n.left = some l → n.right = some r → Below nodes k0 i0 p0 (k + 1) l (some (i, true))
  | right {k i p n l r} : Below nodes k0 i0 p0 k i p → nodes[i]? = some n → n.left = some l → n.right = some r → Below nodes k0 i0 p0 (k + 1) r (some (i, false))

/-- node `i` of a tree is at depth `k`, under `p` -/
def AtDepth (nodes : List (Node K V)) : Nat → Nat → Option (Nat × Bool) → Prop := Below nodes 0 0 none

/-- the word beside the arrow to a child -/
def wordOf (left : Bool) : String := if left then "yes" else "no"

theorem below_depth {nodes : List (Node K V)} {k0 i0 : Nat} {p0 : Option (Nat × Bool)} {k i : Nat} {p : Option (Nat × Bool)} (h : Below nodes k0 i0 p0 k i p) : k0 ≤ k := by
  induction h with
  | start => exact le_refl _
  | left _ _ _ _ ih => omega
  | right _ _ _ _ ih => omega

theorem below_leaf {nodes : List (Node K V)} {k0 i0 : Nat} {p0 : Option (Nat × Bool)} (hn : ∀ n, nodes[i0]? = some n → n.left = none) {k i : Nat} {p : Option (Nat × Bool)} :
    Below nodes k0 i0 p0 k i p ↔ k = k0 ∧ i = i0 ∧ p = p0 := by
  constructor
  · intro h
    induction h with
    | start => exact ⟨rfl, rfl, rfl⟩
    | left _ h1 h2 _ ih => obtain ⟨_, rfl, _⟩ := ih; rw [hn _ h1] at h2; cases h2
    | right _ h1 h2 _ ih => obtain ⟨_, rfl, _⟩ := ih; rw [hn _ h1] at h2; cases h2
  · rintro ⟨rfl, rfl, rfl⟩; exact .start

theorem below_split {nodes : List (Node K V)} {k0 i0 : Nat} {p0 : Option (Nat × Bool)} {n : Node K V} {l r : Nat} (hn : nodes[i0]? = some n) (hl : n.left = some l) (hr : n.right = some r) {k i : Nat}
    {p : Option (Nat × Bool)} : Below nodes k0 i0 p0 k i p ↔
      (k = k0 ∧ i = i0 ∧ p = p0) ∨ Below nodes (k0 + 1) l (some (i0, true)) k i p ∨ Below nodes (k0 + 1) r (some (i0, false)) k i p := by
  constructor
  · intro h
    induction h with
    | start => exact .inl ⟨rfl, rfl, rfl⟩
    | left _ h1 h2 h3 ih =>
      rcases ih with ⟨rfl, rfl, rfl⟩ | ih | ih
      · rw [hn] at h1; cases h1; rw [hl] at h2; cases h2; exact .inr (.inl .start)
      · exact .inr (.inl (.left ih h1 h2 h3))
      · exact .inr (.inr (.left ih h1 h2 h3))
    | right _ h1 h2 h3 ih =>
      rcases ih with ⟨rfl, rfl, rfl⟩ | ih | ih
      · rw [hn] at h1; cases h1; rw [hr] at h3; cases h3; exact .inr (.inr .start)
      · exact .inr (.inl (.right ih h1 h2 h3))
      · exact .inr (.inr (.right ih h1 h2 h3))
  · rintro (⟨rfl, rfl, rfl⟩ | h | h)
    · exact .start
    · induction h with
      | start => exact .left .start hn hl hr
      | left _ h1 h2 h3 ih => exact .left ih h1 h2 h3
      | right _ h1 h2 h3 ih => exact .right ih h1 h2 h3
    · induction h with
      | start => exact .right .start hn hl hr
      | left _ h1 h2 h3 ih => exact .left ih h1 h2 h3
      | right _ h1 h2 h3 ih => exact .right ih h1 h2 h3

theorem shown_mono {D : Option Nat} {a b : Nat} (h : a ≤ b) (hb : shown D b = true) : shown D a = true := by
  cases D with
  | none => rfl
  | some m => simp only [shown, decide_eq_true_eq] at hb ⊢; omega

/-- what `recurse` draws from node `i0` on -/
theorem recurse_spec (nodes : List (Node K V)) (hF : Forward nodes) (D : Option Nat) (fill : Nat → Except Err (Option Color)) :
    ∀ (fuel i0 k0 : Nat) (p0 : Option (Nat × Bool)), nodes.length - i0 ≤ fuel →
    ((∃ as, recurse D fill (makeTree nodes D fuel i0 k0) (p0.map Prod.fst) (p0.map (fun x => wordOf x.2)) k0 = .ok as) ↔
      ∀ k i p, Below nodes k0 i0 p0 k i p → shown D k = true → ∃ c, fill i = .ok c) ∧
    ∀ as, recurse D fill (makeTree nodes D fuel i0 k0) (p0.map Prod.fst) (p0.map (fun x => wordOf x.2)) k0 = .ok as → ∀ a, a ∈ as ↔
      (∃ k i p c, Below nodes k0 i0 p0 k i p ∧ shown D k = true ∧ fill i = .ok c ∧ a = ⟨some i, p.map Prod.fst, p.map (fun x => wordOf x.2), c⟩) ∨
      (∃ k i p, Below nodes k0 i0 p0 k i p ∧ shown D k = false ∧ (k = k0 ∨ shown D (k - 1) = true) ∧ a = dots (p.map Prod.fst)) := by
  have leafCase : ∀ (i0 k0 : Nat) (p0 : Option (Nat × Bool)), (∀ n, nodes[i0]? = some n → n.left = none) →
      ((∃ as, recurse D fill (.leaf i0) (p0.map Prod.fst) (p0.map (fun x => wordOf x.2)) k0 = .ok as) ↔
        ∀ k i p, Below nodes k0 i0 p0 k i p → shown D k = true → ∃ c, fill i = .ok c) ∧
      ∀ as, recurse D fill (.leaf i0) (p0.map Prod.fst) (p0.map (fun x => wordOf x.2)) k0 = .ok as → ∀ a, a ∈ as ↔
        (∃ k i p c, Below nodes k0 i0 p0 k i p ∧ shown D k = true ∧ fill i = .ok c ∧ a = ⟨some i, p.map Prod.fst, p.map (fun x => wordOf x.2), c⟩) ∨
        (∃ k i p, Below nodes k0 i0 p0 k i p ∧ shown D k = false ∧ (k = k0 ∨ shown D (k - 1) = true) ∧ a = dots (p.map Prod.fst)) := by
    intro i0 k0 p0 hn
    simp only [below_leaf hn]
    unfold recurse
    by_cases hs : shown D k0 = true
    · simp only [if_pos hs]
      cases hf : fill i0 with
      | error e =>
        simp only [reduceCtorEq, exists_false, false_iff, false_implies, implies_true, and_true]
        intro h
        obtain ⟨c, hc⟩ := h k0 i0 p0 ⟨rfl, rfl, rfl⟩ hs
        rw [hf] at hc; cases hc
      | ok c =>
        refine ⟨⟨fun _ k i p ⟨_, h2, _⟩ _ => ⟨c, by rw [h2]; exact hf⟩, fun _ => ⟨_, rfl⟩⟩, ?_⟩
        rintro as e a
        cases e
        simp only [List.mem_singleton]
        constructor
        · rintro rfl; exact .inl ⟨k0, i0, p0, c, ⟨rfl, rfl, rfl⟩, hs, hf, rfl⟩
        · rintro (⟨k, i, p, c', ⟨rfl, rfl, rfl⟩, _, h, rfl⟩ | ⟨k, i, p, ⟨rfl, rfl, rfl⟩, h, _⟩)
          · rw [hf] at h; cases h; rfl
          · rw [hs] at h; cases h
    · simp only [if_neg hs]
      have hs' : shown D k0 = false := by simpa using hs
      refine ⟨⟨fun _ k i p ⟨h1, _, _⟩ h => absurd (h1 ▸ h) hs, fun _ => ⟨_, rfl⟩⟩, ?_⟩
      rintro as e a
      cases e
      simp only [List.mem_singleton]
      constructor
      · rintro rfl; exact .inr ⟨k0, i0, p0, ⟨rfl, rfl, rfl⟩, hs', .inl rfl, rfl⟩
      · rintro (⟨k, i, p, c', ⟨rfl, rfl, rfl⟩, h, _⟩ | ⟨k, i, p, ⟨rfl, rfl, rfl⟩, _, _, rfl⟩)
        · exact absurd h hs
        · rfl
  intro fuel
  induction fuel with
  | zero =>
    intro i0 k0 p0 hf
    refine leafCase i0 k0 p0 (fun n hn => ?_)
    have := (List.getElem?_eq_some_iff.mp hn).1
    omega
  | succ fuel ih =>
    intro i0 k0 p0 hf
    cases hn : nodes[i0]? with
    | none =>
      have e : makeTree nodes D (fuel + 1) i0 k0 = .leaf i0 := by unfold makeTree; rw [hn]
      rw [e]
      exact leafCase i0 k0 p0 (fun n h => by rw [hn] at h; cases h)
    | some n =>
      rcases hF i0 n hn with ⟨hl, hr⟩ | ⟨l, r, hl, hr, l1, r1, l2, r2⟩
      · have e : makeTree nodes D (fuel + 1) i0 k0 = .leaf i0 := by unfold makeTree; rw [hn]; simp only [hl]
        rw [e]
        exact leafCase i0 k0 p0 (fun n' h => by rw [hn] at h; cases h; exact hl)
      · by_cases hs : shown D k0 = true
        · have e : makeTree nodes D (fuel + 1) i0 k0 = .split i0 (makeTree nodes D fuel l (k0 + 1)) (makeTree nodes D fuel r (k0 + 1)) := by
            conv_lhs => unfold makeTree
            rw [hn]; simp only [hl, hr, if_pos hs]
          rw [e]
          obtain ⟨A1, A2⟩ := ih l (k0 + 1) (some (i0, true)) (by omega)
          obtain ⟨B1, B2⟩ := ih r (k0 + 1) (some (i0, false)) (by omega)
          simp only [Option.map_some, wordOf, if_true, Bool.false_eq_true, if_false] at A1 A2 B1 B2
          unfold recurse
          simp only [if_pos hs]
          cases hfl : fill i0 with
          | error e =>
            simp only [reduceCtorEq, exists_false, false_iff, false_implies, implies_true, and_true]
            intro h
            obtain ⟨c, hc⟩ := h k0 i0 p0 .start hs
            rw [hfl] at hc; cases hc
          | ok c =>
            simp only
            cases ha : recurse D fill (makeTree nodes D fuel l (k0 + 1)) (some i0) (some "yes") (k0 + 1) with
            | error e =>
              simp only [reduceCtorEq, exists_false, false_iff, false_implies, implies_true, and_true]
              intro h
              obtain ⟨as, has⟩ := A1.mpr (fun k i p hb => h k i p ((below_split hn hl hr).mpr (.inr (.inl hb))))
              rw [ha] at has; cases has
            | ok as =>
              simp only
              cases hb : recurse D fill (makeTree nodes D fuel r (k0 + 1)) (some i0) (some "no") (k0 + 1) with
              | error e =>
                simp only [reduceCtorEq, exists_false, false_iff, false_implies, implies_true, and_true]
                intro h
                obtain ⟨bs, hbs⟩ := B1.mpr (fun k i p hb => h k i p ((below_split hn hl hr).mpr (.inr (.inr hb))))
                rw [hb] at hbs; cases hbs
              | ok bs =>
                simp only
                have A3 := A1.mp ⟨as, ha⟩
                have B3 := B1.mp ⟨bs, hb⟩
                refine ⟨⟨fun _ k i p h hk => ?_, fun _ => ⟨_, rfl⟩⟩, ?_⟩
                · rcases (below_split hn hl hr).mp h with ⟨rfl, rfl, rfl⟩ | h | h
                  · exact ⟨c, hfl⟩
                  · exact A3 k i p h hk
                  · exact B3 k i p h hk
                · rintro ys ey a
                  cases ey
                  rw [List.mem_cons, List.mem_append, A2 as ha a, B2 bs hb a]
                  constructor
                  · rintro (rfl | (⟨k, i, p, c', h, h'⟩ | ⟨k, i, p, h, h1, h2, h3⟩) | (⟨k, i, p, c', h, h'⟩ | ⟨k, i, p, h, h1, h2, h3⟩))
                    · exact .inl ⟨k0, i0, p0, c, .start, hs, hfl, rfl⟩
                    · exact .inl ⟨k, i, p, c', (below_split hn hl hr).mpr (.inr (.inl h)), h'⟩
                    · refine .inr ⟨k, i, p, (below_split hn hl hr).mpr (.inr (.inl h)), h1, .inr ?_, h3⟩
                      rcases h2 with rfl | h2
                      · exact hs
                      · exact h2
                    · exact .inl ⟨k, i, p, c', (below_split hn hl hr).mpr (.inr (.inr h)), h'⟩
                    · refine .inr ⟨k, i, p, (below_split hn hl hr).mpr (.inr (.inr h)), h1, .inr ?_, h3⟩
                      rcases h2 with rfl | h2
                      · exact hs
                      · exact h2
                  · rintro (⟨k, i, p, c', h, h1, h2, h3⟩ | ⟨k, i, p, h, h1, h2, h3⟩)
                    · rcases (below_split hn hl hr).mp h with ⟨rfl, rfl, rfl⟩ | h | h
                      · rw [hfl] at h2; cases h2; exact .inl h3
                      · exact .inr (.inl (.inl ⟨k, i, p, c', h, h1, h2, h3⟩))
                      · exact .inr (.inr (.inl ⟨k, i, p, c', h, h1, h2, h3⟩))
                    · rcases (below_split hn hl hr).mp h with ⟨rfl, rfl, rfl⟩ | h | h
                      · rw [hs] at h1; cases h1
                      · have hk := below_depth h
                        refine .inr (.inl (.inr ⟨k, i, p, h, h1, ?_, h3⟩))
                        rcases h2 with rfl | h2
                        · omega
                        · exact .inr h2
                      · have hk := below_depth h
                        refine .inr (.inr (.inr ⟨k, i, p, h, h1, ?_, h3⟩))
                        rcases h2 with rfl | h2
                        · omega
                        · exact .inr h2
        · have hs' : shown D k0 = false := by simpa using hs
          have e : makeTree nodes D (fuel + 1) i0 k0 = .leaf i0 := by
            unfold makeTree
            rw [hn]; simp only [hl, hr, if_neg hs]
          rw [e]
          unfold recurse
          simp only [if_neg hs]
          have no : ∀ {k i p}, Below nodes k0 i0 p0 k i p → shown D k = true → False := fun h h' => hs (shown_mono (below_depth h) h')
          refine ⟨⟨fun _ k i p h h' => (no h h').elim, fun _ => ⟨_, rfl⟩⟩, ?_⟩
          rintro as ea a
          cases ea
          rw [List.mem_singleton]
          constructor
          · rintro rfl; exact .inr ⟨k0, i0, p0, .start, hs', .inl rfl, rfl⟩
          · rintro (⟨k, i, p, c', h, h1, _⟩ | ⟨k, i, p, h, h1, h2, rfl⟩)
            · exact (no h h1).elim
            · rcases (below_split hn hl hr).mp h with ⟨_, _, rfl⟩ | h | h
              · rfl
              · have hk := below_depth h
                rcases h2 with h2 | h2
                · omega
                · exact absurd (shown_mono (by omega : k0 ≤ k - 1) h2) hs
              · have hk := below_depth h
                rcases h2 with h2 | h2
                · omega
                · exact absurd (shown_mono (by omega : k0 ≤ k - 1) h2) hs

/-- depth `k` is within `max_depth` -/
def Within (D : Option Nat) (k : Nat) : Prop := ∀ m, D = some m → k ≤ m

theorem shown_iff (D : Option Nat) (k : Nat) : shown D k = true ↔ Within D k := by
  cases D with
  | none => simp [shown, Within]
  | some m => simp [shown, Within]

theorem dots_iff (D : Option Nat) (k : Nat) : (shown D k = false ∧ (k = 0 ∨ shown D (k - 1) = true)) ↔ ∃ m, D = some m ∧ k = m + 1 := by
  cases D with
  | none => simp [shown]
  | some m =>
    simp only [shown, decide_eq_false_iff_not, decide_eq_true_eq, Option.some.injEq, exists_eq_left']
    omega

/-- C155. The picture has exactly one kind of box for each node within `max_depth` - under the node above it, with `yes` beside the arrow to the left child and `no` beside the arrow to the right one,
in its colour - and a box `(...)` for each node just below. It is drawn if and only if every node to be shown has a colour. -/
theorem C155_boxes (nodes : List (Node K V)) (hF : Forward nodes) (D : Option Nat) (fill : Nat → Except Err (Option Color)) :
    ((∃ as, export' nodes D fill = .ok as) ↔ ∀ k i p, AtDepth nodes k i p → Within D k → ∃ c, fill i = .ok c) ∧
    ∀ as, export' nodes D fill = .ok as → ∀ a, a ∈ as ↔
      (∃ k i p c, AtDepth nodes k i p ∧ Within D k ∧ fill i = .ok c ∧ a = ⟨some i, p.map Prod.fst, p.map (fun x => if x.2 then "yes" else "no"), c⟩) ∨
      (∃ m i p, D = some m ∧ AtDepth nodes (m + 1) i p ∧ a = ⟨none, p.map Prod.fst, none, none⟩) := by
  obtain ⟨h1, h2⟩ := recurse_spec nodes hF D fill nodes.length 0 0 none (by omega)
  constructor
  · unfold export'
    refine h1.trans ?_
    simp only [shown_iff, AtDepth]
  · intro as h a
    rw [h2 as h a]
    simp only [shown_iff]
    refine or_congr Iff.rfl ?_
    constructor
    · rintro ⟨k, i, p, hb, h3, h4, rfl⟩
      obtain ⟨m, hm, rfl⟩ := (dots_iff D k).mp ⟨h3, by rcases h4 with h4 | h4
                                                       · exact .inl h4
                                                       · exact .inr ((shown_iff _ _).mpr h4)⟩
      exact ⟨m, i, p, hm, hb, rfl⟩
    · rintro ⟨m, i, p, hm, hb, rfl⟩
      obtain ⟨h3, h4⟩ := (dots_iff D (m + 1)).mpr ⟨m, hm, rfl⟩
      refine ⟨m + 1, i, p, hb, h3, ?_, rfl⟩
      rcases h4 with h4 | h4
      · exact .inl h4
      · exact .inr ((shown_iff _ _).mp h4)

/-- Reading a picture for the covariates `q`: from a box one follows the arrow `yes` if the condition of its node holds, `no` if not, until no arrow leaves the box. -/
inductive Reads (as : List Ann) (nodes : List (Node K V)) (q : Nat → K) : Nat → Nat → Prop
  | stop {i} : (∃ a ∈ as, a.node = some i) → (∀ a ∈ as, a.parent ≠ some i) → Reads as nodes q i i
  | step {i j j' n a} : nodes[i]? = some n → a ∈ as → a.parent = some i → a.word = some (if q n.feature ≤ n.threshold then "yes" else "no") → a.node = some j →
      Reads as nodes q j j' → Reads as nodes q i j'

theorem walk_fuel {nodes : List (Node K V)} (hF : Forward nodes) (q : Nat → K) : ∀ (f f' i : Nat), nodes.length - i ≤ f → nodes.length - i ≤ f' → walk nodes q f i = walk nodes q f' i := by
  have out : ∀ (f i : Nat), nodes.length ≤ i → walk nodes q f i = i := by
    intro f i h
    cases f with
    | zero => rfl
    | succ f => unfold walk; rw [List.getElem?_eq_none h]
  intro f
  induction f with
  | zero => intro f' i h _; rw [out _ _ (by omega), out _ _ (by omega)]
  | succ f ih =>
    intro f' i h h'
    by_cases hi : nodes.length ≤ i
    · rw [out _ _ hi, out _ _ hi]
    cases f' with
    | zero => omega
    | succ f' =>
      have hn : nodes[i]? = some nodes[i] := List.getElem?_eq_getElem (by omega)
      unfold walk
      rw [hn]
      rcases hF i _ hn with ⟨hl, hr⟩ | ⟨l, r, hl, hr, l1, r1, l2, r2⟩
      · simp only [hl]
      · simp only [hl, hr]
        rw [ih f' l (by omega) (by omega), ih f' r (by omega) (by omega)]

theorem at_child {nodes : List (Node K V)} {k i j : Nat} {b : Bool} (h : AtDepth nodes k j (some (i, b))) :
    ∃ n l r, nodes[i]? = some n ∧ n.left = some l ∧ n.right = some r ∧ j = if b then l else r := by
  cases h with
  | left _ h1 h2 h3 => exact ⟨_, _, _, h1, h2, h3, rfl⟩
  | right _ h1 h2 h3 => exact ⟨_, _, _, h1, h2, h3, rfl⟩

theorem at_lt {nodes : List (Node K V)} (hF : Forward nodes) (h0 : 0 < nodes.length) {k i : Nat} {p : Option (Nat × Bool)} (h : AtDepth nodes k i p) : i < nodes.length := by
  cases h with
  | start => exact h0
  | left _ h1 h2 h3 =>
    rcases hF _ _ h1 with ⟨hl, hr⟩ | ⟨l, r, hl, hr, l1, r1, l2, r2⟩
    · rw [hl] at h2; cases h2
    · rw [hl] at h2; cases h2; exact l2
  | right _ h1 h2 h3 =>
    rcases hF _ _ h1 with ⟨hl, hr⟩ | ⟨l, r, hl, hr, l1, r1, l2, r2⟩
    · rw [hr] at h3; cases h3
    · rw [hr] at h3; cases h3; exact r2

theorem yes_no (c : Prop) [Decidable c] (b : Bool) (h : (if b then "yes" else "no") = (if c then "yes" else "no")) : (b = true ↔ c) := by
  cases b <;> by_cases hc : c <;> simp_all

/-- C155. A picture of the whole tree leads every row to the leaf that the tree itself assigns to it, and only there. -/
theorem C155_read (nodes : List (Node K V)) (hF : Forward nodes) (h0 : 0 < nodes.length) (fill : Nat → Except Err (Option Color)) (as : List Ann) (h : export' nodes none fill = .ok as)
    (q : Nat → K) (j : Nat) : Reads as nodes q 0 j ↔ j = apply nodes q := by
  obtain ⟨H1, H2⟩ := C155_boxes nodes hF none fill
  have fills : ∀ k i p, AtDepth nodes k i p → ∃ c, fill i = .ok c := fun k i p hb => H1.mp ⟨as, h⟩ k i p hb (by simp [Within])
  have mem : ∀ a, a ∈ as ↔ ∃ k i p c, AtDepth nodes k i p ∧ fill i = .ok c ∧ a = ⟨some i, p.map Prod.fst, p.map (fun x => if x.2 then "yes" else "no"), c⟩ := by
    intro a
    rw [H2 as h a]
    simp only [reduceCtorEq, false_and, exists_false, or_false, Within, false_implies, implies_true, true_and]
  have arrow : ∀ {a i}, a ∈ as → a.parent = some i → ∃ k b j, AtDepth nodes k j (some (i, b)) ∧ a.node = some j ∧ a.word = some (if b then "yes" else "no") := by
    intro a i ha hp
    obtain ⟨k, i', p, c, hat, _, rfl⟩ := (mem a).mp ha
    cases p with
    | none => cases hp
    | some ib =>
      obtain ⟨i2, b⟩ := ib
      simp only [Option.map_some, Option.some.injEq] at hp
      subst hp
      exact ⟨k, b, i', hat, rfl, rfl⟩
  have fwd : ∀ {i j}, Reads as nodes q i j → j = walk nodes q nodes.length i := by
    intro i j hr
    induction hr with
    | @stop i hbox hno =>
      obtain ⟨a, ha, hi⟩ := hbox
      obtain ⟨k, i', p, c, hat, _, rfl⟩ := (mem a).mp ha
      simp only [Option.some.injEq] at hi
      subst hi
      have hlt := at_lt hF h0 hat
      have hn : nodes[i']? = some nodes[i'] := List.getElem?_eq_getElem hlt
      have hpos : nodes.length = (nodes.length - 1) + 1 := by omega
      rw [hpos]
      unfold walk
      rw [hn]
      rcases hF _ _ hn with ⟨hl, hr⟩ | ⟨l, r, hl, hr, l1, r1, l2, r2⟩
      · simp only [hl]
      · have hatl : AtDepth nodes (k + 1) l (some (i', true)) := .left hat hn hl hr
        obtain ⟨c', hc'⟩ := fills _ _ _ hatl
        exact absurd rfl (hno _ ((mem _).mpr ⟨_, _, _, c', hatl, hc', rfl⟩))
    | @step i j j' n a hn ha hp hw hj _ ih =>
      obtain ⟨k, b, j2, hat, hj2, hw2⟩ := arrow ha hp
      rw [hj] at hj2
      cases hj2
      rw [hw] at hw2
      have hb := yes_no _ b (Option.some.inj hw2).symm
      obtain ⟨n', l, r, hn', hl, hr, hjj⟩ := at_child hat
      rw [hn] at hn'
      cases hn'
      rcases hF _ _ hn with ⟨hl', _⟩ | ⟨l', r', hl', hr', l1, r1, l2, r2⟩
      · rw [hl] at hl'; cases hl'
      rw [hl] at hl'; cases hl'
      rw [hr] at hr'; cases hr'
      rw [ih, walk_fuel hF q nodes.length (nodes.length + 1) i (by omega) (by omega)]
      conv_rhs => unfold walk
      rw [hn]
      simp only [hl, hr]
      by_cases hc : q n.feature ≤ n.threshold
      · rw [if_pos hc, hjj, if_pos (hb.mpr hc)]
      · rw [if_neg hc, hjj, if_neg (fun h => hc (hb.mp h))]
  have bwd : ∀ (f i k : Nat) (p : Option (Nat × Bool)), nodes.length - i ≤ f → AtDepth nodes k i p → Reads as nodes q i (walk nodes q nodes.length i) := by
    intro f
    induction f with
    | zero => intro i k p hf hat; have := at_lt hF h0 hat; omega
    | succ f ih =>
      intro i k p hf hat
      have hlt := at_lt hF h0 hat
      have hn : nodes[i]? = some nodes[i] := List.getElem?_eq_getElem hlt
      obtain ⟨c, hc⟩ := fills _ _ _ hat
      rw [walk_fuel hF q nodes.length (nodes.length + 1) i (by omega) (by omega)]
      unfold walk
      rw [hn]
      rcases hF _ _ hn with ⟨hl, hr⟩ | ⟨l, r, hl, hr, l1, r1, l2, r2⟩
      · simp only [hl]
        refine .stop ⟨_, (mem _).mpr ⟨k, i, p, c, hat, hc, rfl⟩, rfl⟩ (fun a ha hp => ?_)
        obtain ⟨k', b, j, hat', _, _⟩ := arrow ha hp
        obtain ⟨n', l, r, hn', hl', _⟩ := at_child hat'
        rw [hn] at hn'; cases hn'
        rw [hl] at hl'; cases hl'
      · simp only [hl, hr]
        by_cases hq : q nodes[i].feature ≤ nodes[i].threshold
        · rw [if_pos hq]
          have hat' : AtDepth nodes (k + 1) l (some (i, true)) := .left hat hn hl hr
          obtain ⟨c', hc'⟩ := fills _ _ _ hat'
          refine .step hn ((mem _).mpr ⟨_, _, _, c', hat', hc', rfl⟩) rfl ?_ rfl (ih l _ _ (by omega) hat')
          simp [hq]
        · rw [if_neg hq]
          have hat' : AtDepth nodes (k + 1) r (some (i, false)) := .right hat hn hl hr
          obtain ⟨c', hc'⟩ := fills _ _ _ hat'
          refine .step hn ((mem _).mpr ⟨_, _, _, c', hat', hc', rfl⟩) rfl ?_ rfl (ih r _ _ (by omega) hat')
          simp [hq]
  exact ⟨fun hr => fwd hr, fun e => e ▸ bwd nodes.length 0 0 none (by omega) .start⟩

/-! ### The colours -/

/-- a rounding to a nearest integer, such as Python's `round` -/
def Nearest (rnd : K → Int) : Prop := ∀ x, |x - rnd x| ≤ 1 / 2

theorem nearest_mono {rnd : K → Int} (h : Nearest rnd) {x y : K} (hxy : x ≤ y) : rnd x ≤ rnd y := by
  rcases eq_or_lt_of_le hxy with rfl | hlt
  · exact le_refl _
  have h1 := abs_le.mp (h x)
  have h2 := abs_le.mp (h y)
  by_contra hc
  have hc' : rnd y + 1 ≤ rnd x := by omega
  have hc'' : ((rnd y : Int) : K) + 1 ≤ rnd x := by exact_mod_cast hc'
  linarith [h1.1, h1.2, h2.1, h2.2]

theorem nearest_nat {rnd : K → Int} (h : Nearest rnd) (c : Nat) : rnd (c : K) = c := by
  have h1 := abs_le.mp (h (c : K))
  have a : ((rnd (c : K) : Int) : K) < ((c : Int) + 1 : Int) := by push_cast; linarith [h1.1, h1.2]
  have b : (((c : Int) - 1 : Int) : K) < rnd (c : K) := by push_cast; linarith [h1.1, h1.2]
  have a' := Int.cast_lt.mp a
  have b' := Int.cast_lt.mp b
  omega

theorem channel_one {rnd : K → Int} (h : Nearest rnd) (c : Nat) : channel rnd 1 c = c := by
  unfold channel
  rw [one_mul, sub_self, zero_mul, add_zero, nearest_nat h]

theorem channel_zero {rnd : K → Int} (h : Nearest rnd) (c : Nat) : channel rnd 0 c = 255 := by
  unfold channel
  have := nearest_nat h 255
  rw [zero_mul, sub_zero, one_mul, zero_add]
  exact_mod_cast this

/-- C155. Every channel of a mixed colour is between 0 and 255, and the larger the intensity, the farther from white. -/
theorem C155_channels {rnd : K → Int} (h : Nearest rnd) (c : Nat) (hc : c ≤ 255) (a b : K) (ha : 0 ≤ a) (hab : a ≤ b) (hb : b ≤ 1) :
    0 ≤ channel rnd b c ∧ channel rnd b c ≤ channel rnd a c ∧ channel rnd a c ≤ 255 ∧ channel rnd 0 c = 255 ∧ channel rnd 1 c = c := by
  have hc' : (c : K) ≤ 255 := by exact_mod_cast hc
  have hc0 : (0 : K) ≤ c := Nat.cast_nonneg c
  have h0 : rnd (0 : K) = 0 := by simpa using nearest_nat h 0
  have h255 : rnd (255 : K) = 255 := by simpa using nearest_nat h 255
  refine ⟨?_, ?_, ?_, channel_zero h c, channel_one h c⟩
  · rw [← h0]; exact nearest_mono h (by nlinarith)
  · exact nearest_mono h (by nlinarith)
  · rw [← h255]; exact nearest_mono h (by nlinarith)

theorem rowMax_spec {v : List K} (hv : v ≠ []) : maxRow v ∈ v ∧ ∀ x ∈ v, x ≤ maxRow v := by
  have key : ∀ (l : List K) (b : K), (l.foldl (fun b x => if b < x then x else b) b = b ∨ l.foldl (fun b x => if b < x then x else b) b ∈ l) ∧
      b ≤ l.foldl (fun b x => if b < x then x else b) b ∧ ∀ x ∈ l, x ≤ l.foldl (fun b x => if b < x then x else b) b := by
    intro l
    induction l with
    | nil => intro b; simp
    | cons a l ih =>
      intro b
      obtain ⟨i1, i2, i3⟩ := ih (if b < a then a else b)
      simp only [List.foldl_cons, List.mem_cons]
      have hb : b ≤ (if b < a then a else b) := by split_ifs with h <;> [exact h.le; exact le_refl _]
      have ha : a ≤ (if b < a then a else b) := by split_ifs with h <;> [exact le_refl _; exact not_lt.mp h]
      refine ⟨?_, hb.trans i2, ?_⟩
      · rcases i1 with i1 | i1
        · rw [i1]; split_ifs <;> simp
        · exact .inr (.inr i1)
      · rintro x (rfl | hx)
        · exact ha.trans i2
        · exact i3 x hx
  cases v with
  | nil => exact absurd rfl hv
  | cons a l =>
    obtain ⟨h1, h2, h3⟩ := key l a
    refine ⟨?_, fun x hx => ?_⟩
    · rcases h1 with h1 | h1
      · exact List.mem_cons.mpr (.inl h1)
      · exact List.mem_cons_of_mem _ h1
    · rcases List.mem_cons.mp hx with rfl | hx
      · exact h2
      · exact h3 x hx

theorem minRow_spec {v : List K} (hv : v ≠ []) : minRow v ∈ v ∧ ∀ x ∈ v, minRow v ≤ x := by
  have key : ∀ (l : List K) (b : K), (l.foldl (fun b x => if x < b then x else b) b = b ∨ l.foldl (fun b x => if x < b then x else b) b ∈ l) ∧
      l.foldl (fun b x => if x < b then x else b) b ≤ b ∧ ∀ x ∈ l, l.foldl (fun b x => if x < b then x else b) b ≤ x := by
    intro l
    induction l with
    | nil => intro b; simp
    | cons a l ih =>
      intro b
      obtain ⟨i1, i2, i3⟩ := ih (if a < b then a else b)
      simp only [List.foldl_cons, List.mem_cons]
      have hb : (if a < b then a else b) ≤ b := by split_ifs with h <;> [exact h.le; exact le_refl _]
      have ha : (if a < b then a else b) ≤ a := by split_ifs with h <;> [exact le_refl _; exact not_lt.mp h]
      refine ⟨?_, i2.trans hb, ?_⟩
      · rcases i1 with i1 | i1
        · rw [i1]; split_ifs <;> simp
        · exact .inr (.inr i1)
      · rintro x (rfl | hx)
        · exact i2.trans ha
        · exact i3 x hx
  cases v with
  | nil => exact absurd rfl hv
  | cons a l =>
    obtain ⟨h1, h2, h3⟩ := key l a
    refine ⟨?_, fun x hx => ?_⟩
    · rcases h1 with h1 | h1
      · exact List.mem_cons.mpr (.inl h1)
      · exact List.mem_cons_of_mem _ h1
    · rcases List.mem_cons.mp hx with rfl | hx
      · exact h2
      · exact h3 x hx

/-- the colour of two values, the first larger -/
theorem getColor_first (rnd : K → Int) (c0 c1 : Nat × Nat × Nat) {a b : K} (h : b < a) (hb : b < 1) : getColor rnd [c0, c1] [a, b] = .ok (mix rnd ((a - b) / (1 - b)) c0) := by
  have h1 : argmax [a, b] = .ok 0 := by simp [argmax, argmaxFrom, h.le]
  have h2 : [a, b].insertionSort (fun a b => b ≤ a) = [a, b] := by simp [List.orderedInsert, h.le]
  unfold getColor
  simp only [h1, h2, List.getElem?_cons_zero, if_neg hb.ne]

/-- the colour of two values, the second larger -/
theorem getColor_second (rnd : K → Int) (c0 c1 : Nat × Nat × Nat) {a b : K} (h : a < b) (ha : a < 1) : getColor rnd [c0, c1] [a, b] = .ok (mix rnd ((b - a) / (1 - a)) c1) := by
  have h1 : argmax [a, b] = .ok 1 := by simp [argmax, argmaxFrom, h]
  have h2 : [a, b].insertionSort (fun a b => b ≤ a) = [b, a] := by simp [List.orderedInsert, not_le.mpr h]
  unfold getColor
  simp only [h1, h2, List.getElem?_cons_succ, List.getElem?_cons_zero, if_neg ha.ne]

/-- C155. The colours of the tree of effects: blue for a positive mean effect, orange for a negative one, white for zero; the intensity is the place of the effect between the smallest and the largest of
its sign. A colour exists for every node. -/
theorem C155_cate (rnd : K → Int) (eps : K) (heps : 0 < eps) (means : List K) (x : K) (hx : x ∈ means) :
    (0 < x → let lo := max 0 (minRow means - eps); let α := (x - lo) / (maxRow means + eps - lo)
      0 < α ∧ α < 1 ∧ cateFill rnd eps means x = .ok (mix rnd α (6, 42, 220))) ∧
    (x < 0 → let hi := min 0 (maxRow means + eps); let α := (hi - x) / (hi - (minRow means - eps))
      0 < α ∧ α < 1 ∧ cateFill rnd eps means x = .ok (mix rnd α (233, 150, 60))) ∧
    (x = 0 → cateFill rnd eps means x = .ok (mix rnd 0 (233, 150, 60))) := by
  have hne : means ≠ [] := fun h => by rw [h] at hx; cases hx
  have h1 := (rowMax_spec hne).2 x hx
  have h2 := (minRow_spec hne).2 x hx
  refine ⟨fun h => ?_, fun h => ?_, fun h => ?_⟩
  · intro lo α
    have hM : 0 < maxRow means + eps := by linarith
    have hlo : lo < x := max_lt h (by linarith)
    have hlo2 : lo < maxRow means + eps := by linarith
    have e : (x / (maxRow means + eps) - lo / (maxRow means + eps)) / (1 - lo / (maxRow means + eps)) = α := by
      have h3 : maxRow means + eps - lo ≠ 0 := by linarith
      have h4 : 1 - lo / (maxRow means + eps) ≠ 0 := by
        rw [one_sub_div hM.ne']
        exact div_ne_zero h3 hM.ne'
      show _ = (x - lo) / (maxRow means + eps - lo)
      rw [one_sub_div hM.ne', ← sub_div, div_div_div_cancel_right₀ hM.ne']
    refine ⟨div_pos (by linarith) (by linarith), (div_lt_one (by linarith)).mpr (by linarith), ?_⟩
    unfold cateFill cateValue cateColors
    rw [if_pos h, getColor_second rnd _ _ ((div_lt_div_iff_of_pos_right hM).mpr hlo) ((div_lt_one hM).mpr hlo2), e]
  · intro hi α
    have hm : minRow means - eps < 0 := by linarith
    have hhi : x < hi := lt_min h (by linarith)
    have hhi2 : minRow means - eps < hi := by linarith
    have e : (x / (minRow means - eps) - hi / (minRow means - eps)) / (1 - hi / (minRow means - eps)) = α := by
      show _ = (hi - x) / (hi - (minRow means - eps))
      rw [one_sub_div hm.ne, ← sub_div, div_div_div_cancel_right₀ hm.ne, ← neg_sub hi x, ← neg_sub hi (minRow means - eps), neg_div_neg_eq]
    refine ⟨div_pos (by linarith) (by linarith), (div_lt_one (by linarith)).mpr (by linarith), ?_⟩
    unfold cateFill cateValue cateColors
    rw [if_neg (by linarith), if_pos h, getColor_first rnd _ _ ((div_lt_div_right_of_neg hm).mpr hhi) (by rw [div_lt_one_of_neg hm]; exact hhi2), e]
  · subst h
    have h1 : argmax [(0 : K), 0] = .ok 0 := by simp [argmax, argmaxFrom]
    have h2 : [(0 : K), 0].insertionSort (fun a b => b ≤ a) = [0, 0] := by simp [List.orderedInsert]
    unfold cateFill cateValue cateColors getColor
    simp only [lt_irrefl, if_false, h1, h2, List.getElem?_cons_zero, if_neg (zero_ne_one' K), sub_zero, zero_div]

theorem top_two {w : List K} (hw : 2 ≤ w.length) : ∃ a b t, w.insertionSort (fun a b => b ≤ a) = a :: b :: t ∧ a ∈ w ∧ (∀ x ∈ w, x ≤ a) ∧ b ≤ a ∧ b ∈ w ∧
    (b = a ↔ ∃ i j : Nat, i < j ∧ w[i]? = some a ∧ w[j]? = some a) := by
  have hp := List.perm_insertionSort (fun a b : K => b ≤ a) w
  have hs := List.pairwise_insertionSort (fun a b : K => b ≤ a) w
  have hl := hp.length_eq
  generalize w.insertionSort (fun a b => b ≤ a) = s at *
  match s, hl with
  | [], hl => simp at hl; omega
  | [_], hl => simp at hl; omega
  | a :: b :: t, hl =>
    rw [List.pairwise_cons] at hs
    have hba : b ≤ a := hs.1 b (by simp)
    refine ⟨a, b, t, rfl, hp.mem_iff.mp (by simp), fun x hx => ?_, hba, hp.mem_iff.mp (by simp), ?_⟩
    · rcases List.mem_cons.mp (hp.mem_iff.mpr hx) with rfl | hx
      · exact le_refl _
      · exact hs.1 x hx
    · have h1 : b = a ↔ 2 ≤ (a :: b :: t).count a := by
        constructor
        · rintro rfl; simp
        · intro h
          by_contra hne
          have hlt : b < a := lt_of_le_of_ne hba hne
          have : (b :: t).count a = 0 := by
            rw [List.count_eq_zero]
            intro hm
            rcases List.mem_cons.mp hm with hm | hm
            · exact hne hm.symm
            · have := (List.pairwise_cons.mp hs.2).1 a hm
              exact absurd this (not_le.mpr hlt)
          rw [List.count_cons_self, this] at h
          omega
      rw [h1, hp.count_eq, ← List.duplicate_iff_two_le_count, List.duplicate_iff_exists_distinct_get]
      constructor
      · rintro ⟨i, j, hij, h1, h2⟩
        exact ⟨i, j, hij, by rw [h1]; exact List.getElem?_eq_getElem i.2, by rw [h2]; exact List.getElem?_eq_getElem j.2⟩
      · rintro ⟨i, j, hij, h1, h2⟩
        obtain ⟨hi, e1⟩ := List.getElem?_eq_some_iff.mp h1
        obtain ⟨hj, e2⟩ := List.getElem?_eq_some_iff.mp h2
        exact ⟨⟨i, hi⟩, ⟨j, hj⟩, hij, e1.symm, e2.symm⟩

theorem rowMax_eq {v : List K} {m : K} (hm : m ∈ v) (h : ∀ x ∈ v, x ≤ m) : maxRow v = m := by
  obtain ⟨h1, h2⟩ := rowMax_spec (v := v) (fun e => by rw [e] at hm; cases hm)
  exact le_antisymm (h _ h1) (h2 _ hm)

theorem scaled_spec {v : List K} {m y : K} (hm : m ∈ v) (h : ∀ x ∈ v, x ≤ m) (hy : y ∈ v) (hlt : y < m) :
    minRow v < m ∧ scaled v = v.map (fun x => (x - minRow v) / (m - minRow v)) := by
  obtain ⟨h1, h2⟩ := minRow_spec (v := v) (fun e => by rw [e] at hm; cases hm)
  have hmn : minRow v < m := lt_of_le_of_lt (h2 y hy) hlt
  refine ⟨hmn, ?_⟩
  have e : maxRow (v.map (fun x => x - minRow v)) = m - minRow v := by
    apply rowMax_eq
    · exact List.mem_map.mpr ⟨m, hm, rfl⟩
    · intro x hx
      obtain ⟨z, hz, rfl⟩ := List.mem_map.mp hx
      linarith [h z hz]
  unfold scaled
  rw [e, if_pos (by linarith), List.map_map]
  rfl

theorem colorBrew_get (n k : Nat) (h : k < n) : ∃ c, (colorBrew n)[k]? = some c := by
  have : k < (colorBrew n).length := by simp [colorBrew, hues, h]
  exact ⟨_, List.getElem?_eq_getElem this⟩

/-- C155. The colours of the tree of a policy: a node with one best treatment has the colour of that treatment, at full intensity whatever the margin. -/
theorem C155_policy_best (rnd : K → Int) (hr : Nearest rnd) (v : List K) (hv : 2 ≤ v.length) (k : Nat) (m : K) (hk : v[k]? = some m) (hbest : ∀ (j : Nat) (x : K), j ≠ k → v[j]? = some x → x < m) :
    ∃ c, (colorBrew v.length)[k]? = some c ∧ policyFill rnd v = .ok ⟨c.1, c.2.1, c.2.2⟩ := by
  have hkl := (List.getElem?_eq_some_iff.mp hk).1
  obtain ⟨c, hc⟩ := colorBrew_get v.length k hkl
  refine ⟨c, hc, ?_⟩
  have hm : m ∈ v := List.mem_of_getElem? hk
  have hle : ∀ x ∈ v, x ≤ m := by
    intro x hx
    obtain ⟨j, hj⟩ := List.getElem?_of_mem hx
    by_cases e : j = k
    · subst e; rw [hk] at hj; cases hj; exact le_refl _
    · exact (hbest j x e hj).le
  obtain ⟨j, hjk, y, hy⟩ : ∃ j, j ≠ k ∧ ∃ y, v[j]? = some y := by
    by_cases e : k = 0
    · exact ⟨1, by omega, _, List.getElem?_eq_getElem (by omega)⟩
    · exact ⟨0, by omega, _, List.getElem?_eq_getElem (by omega)⟩
  obtain ⟨hmn, hsc⟩ := scaled_spec hm hle (List.mem_of_getElem? hy) (hbest j y hjk hy)
  have hpos : 0 < m - minRow v := by linarith
  have hget : ∀ j : Nat, (scaled v)[j]? = (v[j]?).map (fun x => (x - minRow v) / (m - minRow v)) := by intro j; rw [hsc, List.getElem?_map]
  have hlen : 2 ≤ (scaled v).length := by rw [hsc, List.length_map]; exact hv
  have hone : (scaled v)[k]? = some 1 := by rw [hget, hk, Option.map_some, div_self hpos.ne']
  have hbest' : ∀ (j : Nat) (x : K), j ≠ k → (scaled v)[j]? = some x → x < 1 := by
    intro j x hj hx
    rw [hget] at hx
    cases hvj : v[j]? with
    | none => rw [hvj] at hx; cases hx
    | some z =>
      rw [hvj, Option.map_some] at hx
      cases hx
      rw [div_lt_one hpos]
      linarith [hbest j z hj hvj]
  obtain ⟨k', m', a1, a2, a3, a4⟩ := argmax_spec (row := scaled v) (fun e => by rw [e] at hlen; simp at hlen)
  have hk' : k' = k := by
    by_contra hne
    have x1 := hbest' k' m' hne a2
    have x2 := a3 k 1 hone
    exact absurd x1 (not_lt.mpr x2)
  subst hk'
  obtain ⟨a, b, t, b1, b2, b3, b4, b5, b6⟩ := top_two hlen
  have ha : a = 1 := by
    obtain ⟨j, hj⟩ := List.getElem?_of_mem b2
    refine le_antisymm ?_ (b3 1 (List.mem_of_getElem? hone))
    by_cases e : j = k'
    · subst e; rw [hone] at hj; cases hj; exact le_refl _
    · exact (hbest' j a e hj).le
  subst ha
  have hb : b ≠ 1 := by
    intro e
    obtain ⟨i, j, hij, h1, h2⟩ := b6.mp e
    by_cases e1 : i = k'
    · exact absurd (hbest' j 1 (by omega) h2) (lt_irrefl _)
    · exact absurd (hbest' i 1 e1 h1) (lt_irrefl _)
  unfold policyFill getColor
  rw [a1]
  simp only [hc, b1, if_neg hb]
  rw [div_self (sub_ne_zero.mpr (Ne.symm hb))]
  unfold mix
  rw [channel_one hr, channel_one hr, channel_one hr]

/-- C155. A node at which all treatments are equally good is white. -/
theorem C155_policy_equal (rnd : K → Int) (hr : Nearest rnd) (v : List K) (hv : v ≠ []) (m : K) (h : ∀ x ∈ v, x = m) : policyFill rnd v = .ok ⟨255, 255, 255⟩ := by
  have hmin : minRow v = m := h _ (minRow_spec hv).1
  have hz : v.map (fun x => x - minRow v) = v.map (fun _ => 0) := List.map_congr_left (fun x hx => by rw [h x hx, hmin, sub_self])
  have hmax : maxRow (v.map (fun _ => (0 : K))) = 0 := by
    have := (rowMax_spec (v := v.map (fun _ => (0 : K))) (by simpa using hv)).1
    obtain ⟨_, _, e⟩ := List.mem_map.mp this
    exact e.symm
  have hsc : scaled v = v.map (fun _ => 0) := by
    unfold scaled
    rw [hz, hmax, if_neg (lt_irrefl _)]
  have h0 : ∀ x ∈ scaled v, x = 0 := by
    intro x hx
    rw [hsc] at hx
    obtain ⟨_, _, e⟩ := List.mem_map.mp hx
    exact e.symm
  have hlen : (scaled v).length = v.length := by rw [hsc, List.length_map]
  have hne : scaled v ≠ [] := by rw [hsc]; simpa using hv
  obtain ⟨k, m', a1, a2, a3, a4⟩ := argmax_spec (row := scaled v) hne
  have hkl := (List.getElem?_eq_some_iff.mp a2).1
  obtain ⟨c, hc⟩ := colorBrew_get v.length k (by rw [← hlen]; exact hkl)
  have white : ∀ c : Nat × Nat × Nat, mix rnd 0 c = ⟨255, 255, 255⟩ := by
    intro c
    unfold mix
    rw [channel_zero hr, channel_zero hr, channel_zero hr]
  unfold policyFill getColor
  rw [a1]
  simp only [hc]
  by_cases hl : 2 ≤ (scaled v).length
  · obtain ⟨a, b, t, b1, b2, b3, b4, b5, b6⟩ := top_two hl
    rw [h0 a b2, h0 b b5] at b1
    rw [b1]
    simp only [if_neg (zero_ne_one' K), sub_zero, zero_div, white]
  · match hs : scaled v, hne with
    | [], hne' => exact absurd rfl hne'
    | [x], _ => simp only [List.insertionSort_cons, List.insertionSort_nil, List.orderedInsert_nil, white]
    | x :: y :: t, _ => rw [hs] at hl; simp at hl

/-- C155, refuted for ties: if two treatments share the largest value and another one is worse, there is no colour - the intensity is `0 / 0` and the plot fails. -/
theorem C155_policy_tie_refuted (rnd : K → Int) (v : List K) (i j : Nat) (m y : K) (hij : i < j) (hi : v[i]? = some m) (hj : v[j]? = some m) (hmax : ∀ x ∈ v, x ≤ m) (hy : y ∈ v) (hlt : y < m) :
    policyFill rnd v = .error .value := by
  have hm : m ∈ v := List.mem_of_getElem? hi
  obtain ⟨hmn, hsc⟩ := scaled_spec hm hmax hy hlt
  have hpos : 0 < m - minRow v := by linarith
  have hget : ∀ j : Nat, (scaled v)[j]? = (v[j]?).map (fun x => (x - minRow v) / (m - minRow v)) := by intro j; rw [hsc, List.getElem?_map]
  have hjl := (List.getElem?_eq_some_iff.mp hj).1
  have hlen : (scaled v).length = v.length := by rw [hsc, List.length_map]
  have hone : ∀ j : Nat, v[j]? = some m → (scaled v)[j]? = some 1 := by intro j h; rw [hget, h, Option.map_some, div_self hpos.ne']
  obtain ⟨k, m', a1, a2, a3, a4⟩ := argmax_spec (row := scaled v) (fun e => by rw [e] at hlen; simp at hlen; omega)
  have hkl := (List.getElem?_eq_some_iff.mp a2).1
  obtain ⟨c, hc⟩ := colorBrew_get v.length k (by rw [← hlen]; exact hkl)
  obtain ⟨a, b, t, b1, b2, b3, b4, b5, b6⟩ := top_two (w := scaled v) (by omega)
  have ha : a = 1 := by
    refine le_antisymm ?_ (b3 1 (List.mem_of_getElem? (hone i hi)))
    obtain ⟨z, hz, rfl⟩ := List.mem_map.mp (hsc ▸ b2)
    rw [div_le_one hpos]
    linarith [hmax z hz]
  subst ha
  have hb : b = 1 := b6.mpr ⟨i, j, hij, hone i hi, hone j hj⟩
  subst hb
  unfold policyFill getColor
  rw [a1]
  simp only [hc, b1, if_true]

/-! ### The pictures -/

theorem at_node {nodes : List (Node K V)} (hF : Forward nodes) (h0 : 0 < nodes.length) {k i : Nat} {p : Option (Nat × Bool)} (h : AtDepth nodes k i p) : ∃ n, nodes[i]? = some n :=
  ⟨_, List.getElem?_eq_getElem (at_lt hF h0 h)⟩

/-- C155. `CEInterpreter.plot` draws every tree of effects, whatever `max_depth`. -/
theorem C155_cate_plot {d : Nat} (rnd : K → Int) (eps : K) (heps : 0 < eps) (nodes : List (Node K (Fin d → K))) (hF : Forward nodes) (h0 : 0 < nodes.length) (D : Option Nat) (filled : Bool) :
    ∃ as, plotCate rnd eps nodes D filled = .ok as := by
  refine (C155_boxes nodes hF D _).1.mpr (fun k i p hat _ => ?_)
  obtain ⟨n, hn⟩ := at_node hF h0 hat
  unfold fillWith
  cases filled with
  | false => exact ⟨none, rfl⟩
  | true =>
    have hmem : meanValue n.value ∈ nodes.map (fun n => meanValue n.value) := List.mem_map.mpr ⟨n, List.mem_of_getElem? hn, rfl⟩
    obtain ⟨c1, c2, c3⟩ := C155_cate rnd eps heps _ _ hmem
    have : ∃ c, cateFill rnd eps (nodes.map (fun n => meanValue n.value)) (meanValue n.value) = .ok c := by
      rcases lt_trichotomy (meanValue n.value) 0 with h | h | h
      · exact ⟨_, (c2 h).2.2⟩
      · exact ⟨_, c3 h⟩
      · exact ⟨_, (c1 h).2.2⟩
    obtain ⟨c, hc⟩ := this
    refine ⟨some c, ?_⟩
    simp only [hn, hc, Bool.true_eq_false, if_false]

/-- a node of a policy tree with one best treatment, or with no difference between the treatments -/
def Clear {d : Nat} (f : Fin d → K) : Prop := (∃ k, ∀ j, j ≠ k → f j < f k) ∨ ∀ j k, f j = f k

theorem best_of_fin {d : Nat} (f : Fin d → K) (k : Fin d) (h : ∀ j, j ≠ k → f j < f k) :
    ((List.finRange d).map f)[k.val]? = some (f k) ∧ ∀ (j : Nat) (x : K), j ≠ k.val → ((List.finRange d).map f)[j]? = some x → x < f k := by
  constructor
  · rw [List.getElem?_map, List.getElem?_eq_getElem (by simp), Option.map_some]; simp
  · intro j x hj hx
    obtain ⟨hl, e⟩ := List.getElem?_eq_some_iff.mp hx
    have hl' : j < d := by simpa using hl
    rw [List.getElem_map] at e
    rw [← e, List.getElem_finRange]
    exact h _ (fun e' => hj (by rw [← e']; rfl))

theorem unclear {d : Nat} [NeZero d] (f : Fin d → K) (h : ¬ Clear f) : ∃ i j : Fin d, i < j ∧ f i = f j ∧ (∀ k, f k ≤ f i) ∧ ∃ k, f k < f i := by
  obtain ⟨⟨k, hk⟩, hmax⟩ := maxOf_spec f
  rw [hk] at hmax
  simp only [Clear, not_or, not_exists, not_forall] at h
  obtain ⟨h1, a, b, hab⟩ := h
  obtain ⟨j, hj, hlt⟩ := h1 k
  have e : f j = f k := le_antisymm (hmax j) (not_lt.mp hlt)
  have low : ∃ y, f y < f k := by
    by_contra hno
    push Not at hno
    exact hab ((le_antisymm (hmax a) (hno a)).trans (le_antisymm (hmax b) (hno b)).symm)
  rcases lt_or_gt_of_ne hj with hl | hl
  · exact ⟨j, k, hl, e, fun x => by rw [e]; exact hmax x, by rw [e]; exact low⟩
  · exact ⟨k, j, hl, e.symm, hmax, low⟩

/-- the colour of a node of a policy tree exists exactly if the node is clear -/
theorem fill_clear {d : Nat} [NeZero d] (rnd : K → Int) (hr : Nearest rnd) (f : Fin d → K) : (∃ c, policyFill rnd ((List.finRange d).map f) = .ok c) ↔ Clear f := by
  have hd : 0 < d := Nat.pos_of_ne_zero (NeZero.ne d)
  have hlen : ((List.finRange d).map f).length = d := by simp
  have equal : (∀ j k, f j = f k) → ∃ c, policyFill rnd ((List.finRange d).map f) = .ok c := by
    intro h
    refine ⟨_, C155_policy_equal rnd hr _ (fun e => by rw [e] at hlen; simp at hlen; omega) (f ⟨0, hd⟩) (fun x hx => ?_)⟩
    obtain ⟨j, _, rfl⟩ := List.mem_map.mp hx
    exact h _ _
  constructor
  · rintro ⟨c, hc⟩
    by_contra hno
    obtain ⟨i, j, hij, e, hmax, k, hk⟩ := unclear f hno
    have get : ∀ x : Fin d, ((List.finRange d).map f)[x.val]? = some (f x) := by
      intro x
      rw [List.getElem?_map, List.getElem?_eq_getElem (by simp), Option.map_some]; simp
    rw [C155_policy_tie_refuted rnd _ i.val j.val (f i) (f k) hij (get i) (by rw [e]; exact get j) (fun x hx => by
      obtain ⟨y, _, rfl⟩ := List.mem_map.mp hx
      exact hmax y) (List.mem_map.mpr ⟨k, by simp, rfl⟩) hk] at hc
    cases hc
  · rintro (⟨k, hk⟩ | h)
    · by_cases h2 : 2 ≤ d
      · obtain ⟨b1, b2⟩ := best_of_fin f k hk
        obtain ⟨c, _, hc⟩ := C155_policy_best rnd hr _ (by rw [hlen]; exact h2) k.val _ b1 b2
        exact ⟨_, hc⟩
      · exact equal (fun j k => congrArg f (Fin.ext (by omega)))
    · exact equal h

/-- C155. With colours `PolicyInterpreter.plot` draws the tree if and only if no node to be shown has a tie between best treatments that are better than a third one. Without colours it always does. -/
theorem C155_policy_plot {d : Nat} [NeZero d] (rnd : K → Int) (hr : Nearest rnd) (t : PFitted K d) (hF : Forward t.nodes) (h0 : 0 < t.nodes.length) (D : Option Nat) :
    ((∃ as, plotPolicy rnd t D true = .ok as) ↔ ∀ k i p n, AtDepth t.nodes k i p → Within D k → t.nodes[i]? = some n → Clear n.value) ∧ ∃ as, plotPolicy rnd t D false = .ok as := by
  refine ⟨(C155_boxes t.nodes hF D _).1.trans ?_, (C155_boxes t.nodes hF D _).1.mpr (fun k i p _ _ => ⟨none, rfl⟩)⟩
  have key : ∀ {i : Nat} {n : Node K (Fin d → K)}, t.nodes[i]? = some n →
      ((∃ c, fillWith t.nodes true (fun f => policyFill rnd ((List.finRange d).map f)) i = .ok c) ↔ Clear n.value) := by
    intro i n hn
    rw [← fill_clear rnd hr]
    unfold fillWith
    simp only [hn, Bool.true_eq_false, if_false]
    cases policyFill rnd ((List.finRange d).map n.value) with
    | error e => simp
    | ok c => simp
  constructor
  · intro h k i p n hat hw hn
    exact (key hn).mp (h k i p hat hw)
  · intro h k i p hat hw
    obtain ⟨n, hn⟩ := at_node hF h0 hat
    exact (key hn).mpr (h k i p n hat hw hn)

/-- C155. A row for which the leaf has one best treatment `k`: following the arrows of the picture ends at the leaf, which has the colour of treatment `k`, and `k` is what the tree recommends. -/
theorem C155_policy_read {d : Nat} (rnd : K → Int) (hr : Nearest rnd) (t : PFitted K d) (hF : Forward t.nodes) (h0 : 0 < t.nodes.length) (hd : 2 ≤ d) (hcr : t.criterion = "policy_reg")
    (as : List Ann) (h : plotPolicy rnd t none true = .ok as) (q : Nat → K) (f : Fin d → K) (hf : predict t.nodes q = some f) (k : Fin d) (hk : ∀ j, j ≠ k → f j < f k) :
    predictInd t (some [q]) = .ok [k.val] ∧ ∃ j, Reads as t.nodes q 0 j ∧ ∃ a ∈ as, a.node = some j ∧ ∃ c, (colorBrew d)[k.val]? = some c ∧ a.fill = some ⟨c.1, c.2.1, c.2.2⟩ := by
  have hlen : ((List.finRange d).map f).length = d := by simp
  obtain ⟨b1, b2⟩ := best_of_fin f k hk
  constructor
  · obtain ⟨k', m', a1, a2, a3, a4⟩ := argmax_spec (row := (List.finRange d).map f) (fun e => by rw [e] at hlen; simp at hlen; omega)
    have hk' : k' = k.val := by
      by_contra hne
      exact absurd (b2 k' m' hne a2) (not_lt.mpr (a3 k.val _ b1))
    subst hk'
    unfold predictInd prepare leafValue
    simp only [Option.getD_some, List.map_cons, List.map_nil, hf, if_pos hcr, if_neg (show d ≠ 1 by omega), argmaxRows, a1]
  · have hR := (C155_read t.nodes hF h0 _ as h q (apply t.nodes q)).mpr rfl
    refine ⟨_, hR, ?_⟩
    have hbox : ∀ {i j}, Reads as t.nodes q i j → ∃ a ∈ as, a.node = some j := by
      intro i j hr
      induction hr with
      | stop hb _ => exact hb
      | step _ _ _ _ _ _ ih => exact ih
    obtain ⟨a, ha, hj⟩ := hbox hR
    refine ⟨a, ha, hj, ?_⟩
    obtain ⟨_, i, p, c, hat, _, hc, rfl⟩ | ⟨m, _, _, hm, _⟩ := ((C155_boxes t.nodes hF none _).2 as h a).mp ha
    · simp only [Option.some.injEq] at hj
      subst hj
      unfold predict at hf
      cases hn : t.nodes[apply t.nodes q]? with
      | none => rw [hn] at hf; cases hf
      | some n =>
        rw [hn] at hf
        simp only [Option.map_some, Option.some.injEq] at hf
        subst hf
        obtain ⟨col, e1, e2⟩ := C155_policy_best rnd hr _ (by rw [hlen]; exact hd) k.val _ b1 b2
        rw [hlen] at e1
        unfold fillWith at hc
        simp only [hn, e2, Bool.true_eq_false, if_false] at hc
        refine ⟨col, e1, ?_⟩
        cases hc
        rfl
    · cases hm

/-- C155. The trees that `PolicyInterpreter.fit` makes satisfy what is assumed of a tree above. -/
theorem C155_fitted [FloorRing K] {d : Nat} {E : PEnv K d} {g : PSettings K} {nFeat : Nat} {v : List (Nat → K)} {ce : List (Fin d → K)} {weights : Option (List K)} {t : PFitted K d}
    (hE : SoundPEnv E) (hf : policyFit E g nFeat v ce weights = .ok t) (hc : g.criterion = "policy_reg") : Forward t.nodes ∧ 0 < t.nodes.length ∧ t.criterion = "policy_reg" := by
  obtain ⟨leaf, split, depth, nd, h⟩ := policyFit_ok hf
  obtain ⟨h1, h2⟩ := fit_forward hE h hc
  exact ⟨h1, h2, h.name.trans hc⟩

/-- C155. The lines of a box: with a name for every treatment they list all values; without names the treatments are numbered. -/
theorem C155_lines (ns : List String) (v : List K) (h : v.length ≤ ns.length) :
    (policyLines (some ns) v).map Prod.snd = v ∧ (policyLines none v).map Prod.snd = v ∧ ∀ (i : Nat) (x : K), v[i]? = some x → (policyLines none v)[i]? = some ("T[" ++ toString i ++ "]", x) ∧
      ∀ s, ns[i]? = some s → (policyLines (some ns) v)[i]? = some (s, x) := by
  refine ⟨List.map_snd_zip h, List.map_snd_zip (by simp), fun i x hx => ⟨?_, fun s hs => ?_⟩⟩
  · have hl := (List.getElem?_eq_some_iff.mp hx).1
    unfold policyLines
    simp only
    rw [List.getElem?_zip_eq_some, List.getElem?_map, List.getElem?_range hl]
    exact ⟨rfl, hx⟩
  · unfold policyLines
    simp only
    rw [List.getElem?_zip_eq_some]
    exact ⟨hs, hx⟩

/-- C155, refuted: with fewer names than treatments the box silently leaves out values, the best one included. -/
theorem C155_lines_refuted : policyLines (some ["none", "mail"]) [(0 : ℚ), 1, 5] = [("none", 0), ("mail", 1)] := rfl

/-- C155, refuted: a policy of three treatments in which two are equally good cannot be plotted with the default `filled=True`; without colours it can. -/
theorem C155_plot_refuted : ∃ t, policyFit (plainEnv 3) plainSettings 1 [fun _ => 0, fun _ => 0] [![0, 1, 1], ![0, 1, 1]] none = .ok t ∧
    plotPolicy (fun x : ℚ => round x) t none true = .error .value ∧ plotPolicy (fun x : ℚ => round x) t none false = .ok [⟨some 0, none, none, none⟩] := by
  obtain ⟨t, h1, h2⟩ := okAnd_spec (e := policyFit (plainEnv 3) plainSettings 1 [fun _ => 0, fun _ => 0] [![0, 1, 1], ![0, 1, 1]] none) (p := fun t => decide (
    plotPolicy (fun x : ℚ => round x) t none true = .error .value ∧ plotPolicy (fun x : ℚ => round x) t none false = .ok [⟨some 0, none, none, none⟩])) (by decide +kernel)
  exact ⟨t, h1, of_decide_eq_true h2⟩

/-- the hypotheses are met: `round` is a rounding to a nearest integer -/
example : Nearest (fun x : ℚ => round x) := fun x => abs_sub_round x

/-- the picture of a policy with two leaves -/
example : ∃ t, twoSided = .ok t ∧ plotPolicy (fun x : ℚ => round x) t none true = .ok [⟨some 0, none, none, some ⟨57, 157, 229⟩⟩, ⟨some 1, some 0, some "yes", some ⟨57, 157, 229⟩⟩,
      ⟨some 2, some 0, some "no", some ⟨229, 129, 57⟩⟩] ∧
    plotPolicy (fun x : ℚ => round x) t (some 0) false = .ok [⟨some 0, none, none, none⟩, ⟨none, some 0, none, none⟩, ⟨none, some 0, none, none⟩] := by
  obtain ⟨t, h1, h2⟩ := okAnd_spec (e := twoSided) (p := fun t => decide (
    plotPolicy (fun x : ℚ => round x) t none true = .ok [⟨some 0, none, none, some ⟨57, 157, 229⟩⟩, ⟨some 1, some 0, some "yes", some ⟨57, 157, 229⟩⟩,
      ⟨some 2, some 0, some "no", some ⟨229, 129, 57⟩⟩] ∧
    plotPolicy (fun x : ℚ => round x) t (some 0) false = .ok [⟨some 0, none, none, none⟩, ⟨none, some 0, none, none⟩, ⟨none, some 0, none, none⟩])) (by decide +kernel)
  exact ⟨t, h1, of_decide_eq_true h2⟩

/-- colours of effects 4, 1, -2 and 0 -/
example : [4, 1, -2, 0].map (cateFill (fun x : ℚ => round x) (1 / 10 ^ 12) [4, 1, -2, 0]) =
    [.ok ⟨6, 42, 220⟩, .ok ⟨193, 202, 246⟩, .ok ⟨233, 150, 60⟩, .ok ⟨255, 255, 255⟩] := by decide +kernel

end YL.Props
