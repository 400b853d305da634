import Mathlib.Algebra.BigOperators.Field
import Mathlib.Tactic.Ring
import Mathlib.Tactic.Linarith
import Mathlib.Tactic.FieldSimp
import Mathlib.Tactic.NormNum
import Verif.Model.DeepIV

/-!
# C135: what `DeepIV.fit` trains on; C136: what `DeepIV.estimate` returns
-/

set_option linter.unusedSectionVars false
set_option linter.unusedVariables false

namespace YL.Props

open YL DeepIV

/-! ## Specification -/

/-- the calls of `DeepIV.fit` one would expect to be possible: an instrument, a network configuration for both networks or
for none, a number of draws for a continuous treatment -/
structure DivReasonable (c : DeepIV.Config) (a : DeepIV.Args) : Prop where
  instrument : a.z.isSome
  configs : a.xConfig = a.yConfig
  draws : c.discreteT = false → ∃ s, a.sampleN = some (s + 1)

/-- the calls that do work -/
structure DivUsable (c : DeepIV.Config) (a : DeepIV.Args) : Prop extends DivReasonable c a where
  adjustment : a.w.isSome
  noY : c.customY = false
  hiddenX : c.xHidden = .absent ∨ ∃ k, c.xHidden = .layers k ∧ (k ≤ 3 ∨ c.customX = true)
  hiddenY : c.yHidden = .absent ∨ ∃ k, c.yHidden = .layers k ∧ k ≤ 3
  embed : a.approx = true → c.discreteT = false → c.discreteZ = false

/-- all columns have `n > 0` rows -/
structure DivSized (a : DeepIV.Args) (n : Nat) : Prop where
  pos : 0 < n
  y : a.y.length = n
  x : a.x.length = n
  z : ∀ z, a.z = some z → z.length = n
  w : ∀ w, a.w = some w → w.length = n

/-- the number (or label) in row `i` -/
def divRow (disc : Bool) (m : List (List ℚ)) (i : Nat) : Inp :=
  if disc then .label (argmax ((oneHot m).getD i [])) else .vec (m.getD i [])

/-! ## Auxiliary -/

theorem items_ok {A B C : Type} (X : List A) (W : List B) (Y : List C) (k : Nat) : ∀ i : Nat,
    (∃ l, DeepIV.items X W Y i k = .ok l) ↔ (k = 0 ∨ (i + k ≤ X.length ∧ i + k ≤ W.length ∧ i + k ≤ Y.length)) := by
  induction k with
  | zero => intro i; simp [DeepIV.items]
  | succ k ih =>
    intro i
    simp only [DeepIV.items]
    by_cases hx : i < X.length
    · by_cases hw : i < W.length
      · by_cases hy : i < Y.length
        · rw [List.getElem?_eq_getElem hx, List.getElem?_eq_getElem hw, List.getElem?_eq_getElem hy]
          simp only
          have := ih (i + 1)
          constructor
          · rintro ⟨l, hl⟩
            cases h : DeepIV.items X W Y (i + 1) k with
            | error e => rw [h] at hl; cases hl
            | ok l' =>
              have := this.mp ⟨l', h⟩
              omega
          · intro h
            have h' : k = 0 ∨ (i + 1 + k ≤ X.length ∧ i + 1 + k ≤ W.length ∧ i + 1 + k ≤ Y.length) := by omega
            obtain ⟨l', hl'⟩ := this.mpr h'
            exact ⟨_, by rw [hl']; rfl⟩
        · rw [List.getElem?_eq_none (by omega : Y.length ≤ i)]
          constructor
          · rintro ⟨l, hl⟩
            split at hl
            · rename_i h; cases h
            · cases hl
          · intro h; omega
      · rw [List.getElem?_eq_none (by omega : W.length ≤ i)]
        constructor
        · rintro ⟨l, hl⟩
          split at hl
          · rename_i h _; cases h
          · cases hl
        · intro h; omega
    · rw [List.getElem?_eq_none (by omega : X.length ≤ i)]
      constructor
      · rintro ⟨l, hl⟩
        split at hl
        · rename_i h _ _; cases h
        · cases hl
      · intro h; omega

theorem items_get {A B C : Type} (X : List A) (W : List B) (Y : List C) (k : Nat) : ∀ (i : Nat) l,
    DeepIV.items X W Y i k = .ok l → l.length = k ∧ ∀ j, j < k → ∃ a b c, X[i + j]? = some a ∧ W[i + j]? = some b ∧
      Y[i + j]? = some c ∧ l[j]? = some (a, b, c) := by
  induction k with
  | zero =>
    intro i l h
    simp only [DeepIV.items, Except.ok.injEq] at h
    subst h
    exact ⟨rfl, fun j hj => absurd hj (Nat.not_lt_zero j)⟩
  | succ k ih =>
    intro i l h
    simp only [DeepIV.items] at h
    split at h
    · rename_i a b c ha hb hc
      cases h' : DeepIV.items X W Y (i + 1) k with
      | error e => rw [h'] at h; cases h
      | ok l' =>
        rw [h'] at h
        simp only [Except.map, Except.ok.injEq] at h
        subst h
        obtain ⟨h1, h2⟩ := ih (i + 1) l' h'
        refine ⟨by simp [h1], fun j hj => ?_⟩
        cases j with
        | zero => exact ⟨a, b, c, ha, hb, hc, rfl⟩
        | succ j =>
          obtain ⟨a', b', c', q1, q2, q3, q4⟩ := h2 j (by omega)
          have e : i + 1 + j = i + (j + 1) := by omega
          rw [e] at q1 q2 q3
          exact ⟨a', b', c', q1, q2, q3, by simpa using q4⟩
    · cases h

theorem dataset_ok {A B C : Type} (X : List A) (W : List B) (Y : List C) (hX : Y.length ≤ X.length)
    (hW : Y.length ≤ W.length) : ∃ l, DeepIV.dataset X W Y = .ok l :=
  (items_ok X W Y Y.length 0).mpr (Or.inr ⟨by omega, by omega, by omega⟩)

/-- a dataset pairs the rows of the same number, as many as there are targets -/
theorem dataset_rows {A B C : Type} (X : List A) (W : List B) (Y : List C) (l) (h : DeepIV.dataset X W Y = .ok l) :
    l.length = Y.length ∧ ∀ j, j < Y.length → ∃ a b c, X[j]? = some a ∧ W[j]? = some b ∧ Y[j]? = some c ∧
      l[j]? = some (a, b, c) := by
  obtain ⟨h1, h2⟩ := items_get X W Y Y.length 0 l h
  exact ⟨h1, fun j hj => by simpa using h2 j hj⟩

/-- only the first rows of the data matter -/
theorem dataset_prefix {A B C : Type} (X X' : List A) (W W' : List B) (Y : List C)
    (hX : ∀ j, j < Y.length → X[j]? = X'[j]?) (hW : ∀ j, j < Y.length → W[j]? = W'[j]?) :
    DeepIV.dataset X W Y = DeepIV.dataset X' W' Y := by
  have key : ∀ k i, i + k ≤ Y.length → DeepIV.items X W Y i k = DeepIV.items X' W' Y i k := by
    intro k
    induction k with
    | zero => intro i _; rfl
    | succ k ih =>
      intro i hi
      simp only [DeepIV.items]
      rw [hX i (by omega), hW i (by omega), ih (i + 1) (by omega)]
  exact key Y.length 0 (by omega)

theorem flatMap_range_get {A : Type} (n : Nat) (g : Nat → List A) (hg : ∀ k, (g k).length = n) : ∀ (s k j : Nat),
    k < s → j < n → ((List.range s).flatMap g)[k * n + j]? = (g k)[j]? := by
  intro s
  induction s with
  | zero => intro k j hk; omega
  | succ s ih =>
    intro k j hk hj
    have hl : ((List.range s).flatMap g).length = s * n := by
      clear ih hk
      induction s with
      | zero => simp
      | succ s ih => rw [List.range_succ, List.flatMap_append, List.length_append, ih]; simp [hg, Nat.succ_mul]
    rw [List.range_succ, List.flatMap_append]
    simp only [List.flatMap_cons, List.flatMap_nil, List.append_nil]
    by_cases h : k < s
    · rw [List.getElem?_append_left]
      · exact ih k j h hj
      · rw [hl]
        calc k * n + j < k * n + n := by omega
          _ = (k + 1) * n := by rw [Nat.succ_mul]
          _ ≤ s * n := Nat.mul_le_mul_right _ (by omega)
    · have : k = s := by omega
      subst this
      rw [List.getElem?_append_right (by rw [hl]; omega), hl]
      congr 1
      omega

theorem first_block {A : Type} (n s : Nat) (g : Nat → List A) (hg : ∀ k, (g k).length = n) (j : Nat) (hj : j < n) :
    ((List.range (s + 1)).flatMap g)[j]? = (g 0)[j]? := by
  have := flatMap_range_get n g hg (s + 1) 0 j (by omega) hj
  simpa using this

theorem block_length {A : Type} (n : Nat) (g : Nat → List A) (hg : ∀ k, (g k).length = n) (s : Nat) :
    ((List.range s).flatMap g).length = s * n := by
  induction s with
  | zero => simp
  | succ s ih => rw [List.range_succ, List.flatMap_append, List.length_append, ih]; simp [hg, Nat.succ_mul]

theorem oneHot_length (m : List (List ℚ)) : (oneHot m).length = m.length := by simp [oneHot]

theorem inputs_length (d : Bool) (m : List (List ℚ)) : (inputs d m).length = m.length := by simp [inputs]

theorem maybe_length (d : Bool) (m : List (List ℚ)) : (if d then oneHot m else m).length = m.length := by
  cases d <;> simp [oneHot_length]

/-- the encoded rows -/
theorem inputs_row (d : Bool) (m : List (List ℚ)) (i : Nat) (hi : i < m.length) :
    (inputs d (if d then oneHot m else m))[i]? = some (divRow d m i) := by
  cases d with
  | true =>
    have h : i < (oneHot m).length := by rw [oneHot_length]; exact hi
    simp only [inputs, divRow, if_true, List.getElem?_map, List.getElem?_eq_getElem h, Option.map_some, List.getD]
    simp
  | false =>
    simp only [inputs, divRow, Bool.false_eq_true, if_false, List.getElem?_map, List.getElem?_eq_getElem hi, Option.map_some,
      List.getD]
    simp

theorem sampleRows_shape (net : XNet) (z w : List (List ℚ)) (n : Nat) (hz : z.length = n) (hw : w.length = n) (k : Nat) :
    (List.zipWith (fun a b => net.draw k (.vec a) b) z w).length = n := by simp [hz, hw]

/-! ## C135 -/

/-- the calls that succeed, exactly -/
theorem C135_fit_iff (c : DeepIV.Config) (tr) (a : DeepIV.Args) (n : Nat) (hs : DivSized a n) :
    (∃ m, DeepIV.fit c tr a = .ok m) ↔ DivUsable c a := by
  have hpos := hs.pos
  unfold DeepIV.fit
  cases hz : a.z with
  | none =>
    constructor
    · rintro ⟨m, h⟩; cases h
    · intro h; have := h.instrument; rw [hz] at this; cases this
  | some z =>
    cases hw : a.w with
    | none =>
      constructor
      · rintro ⟨m, h⟩; cases h
      · intro h; have := h.adjustment; rw [hw] at this; cases this
    | some w =>
      have lz := hs.z z hz
      have lw := hs.w w hw
      simp only
      by_cases hx : hiddenOk c.customX c.xHidden = true
      swap
      · constructor
        · rintro ⟨m, h⟩
          simp [hx] at h
        · intro h
          exfalso; apply hx
          rcases h.hiddenX with e | ⟨k, e, e'⟩
          · rw [e]; rfl
          · rw [e]; simp only [hiddenOk, Bool.or_eq_true, decide_eq_true_eq]; tauto
      by_cases hy : hiddenOk c.customY c.yHidden = true
      swap
      · constructor
        · rintro ⟨m, h⟩
          simp [hx, hy] at h
        · intro h
          exfalso; apply hy
          rcases h.hiddenY with e | ⟨k, e, e'⟩
          · rw [e]; rfl
          · rw [e]; simp only [hiddenOk, Bool.or_eq_true, decide_eq_true_eq]; tauto
      cases hcy : c.customY with
      | true =>
        constructor
        · rintro ⟨m, h⟩
          rw [hcy] at hy
          simp [hx, hy] at h
        · intro h; rw [h.noY] at hcy; cases hcy
      | false =>
        rw [hcy] at hy
        simp only [hx, hy, Bool.not_true, Bool.false_eq_true, if_false]
        unfold DeepIV.train
        have l1 : (inputs c.discreteT (if c.discreteT then oneHot a.x else a.x)).length = n := by
          rw [inputs_length, maybe_length, hs.x]
        have l2 : (inputs c.discreteZ (if c.discreteZ then oneHot z else z)).length = n := by
          rw [inputs_length, maybe_length, lz]
        have l3 : (inputs c.discreteY (if c.discreteY then oneHot a.y else a.y)).length = n := by
          rw [inputs_length, maybe_length, hs.y]
        obtain ⟨xs, hxs⟩ := dataset_ok (inputs c.discreteZ (if c.discreteZ then oneHot z else z)) w
          (inputs c.discreteT (if c.discreteT then oneHot a.x else a.x)) (by omega) (by omega)
        have hidX : c.xHidden = .absent ∨ ∃ k, c.xHidden = .layers k ∧ (k ≤ 3 ∨ c.customX = true) := by
          cases h : c.xHidden with
          | absent => left; rfl
          | int => rw [h] at hx; cases hx
          | layers k => rw [h] at hx; simp only [hiddenOk, Bool.or_eq_true, decide_eq_true_eq] at hx; right; exact ⟨k, rfl, by tauto⟩
        have hidY : c.yHidden = .absent ∨ ∃ k, c.yHidden = .layers k ∧ k ≤ 3 := by
          cases h : c.yHidden with
          | absent => left; rfl
          | int => rw [h] at hy; cases hy
          | layers k => rw [h] at hy; simp only [hiddenOk, Bool.or_eq_true, decide_eq_true_eq, Bool.false_eq_true, false_or] at hy; right; exact ⟨k, rfl, hy⟩
        have mk : a.xConfig = a.yConfig → (c.discreteT = false → ∃ s, a.sampleN = some (s + 1)) →
            (a.approx = true → c.discreteT = false → c.discreteZ = false) → DivUsable c a := fun q1 q2 q3 =>
          { instrument := by rw [hz]; rfl, configs := q1, draws := q2, adjustment := by rw [hw]; rfl, noY := hcy,
            hiddenX := hidX, hiddenY := hidY, embed := q3 }
        rw [hxs]
        by_cases hcf : a.xConfig = a.yConfig
        swap
        · constructor
          · rintro ⟨m, h⟩
            exfalso
            cases e1 : a.xConfig <;> cases e2 : a.yConfig <;> simp only [e1, e2] at h hcf
            · exact hcf trivial
            · simp at h
            · simp only [Bool.not_true, Bool.or_true, Bool.true_or, Bool.not_false, Bool.and_false, Bool.false_eq_true, Bool.and_true, Bool.or_false, Bool.false_or,
                if_false, if_true] at h
              split at h
              · cases h
              · split at h
                · cases h
                · cases h
            · exact hcf trivial
          · intro h; exact absurd h.configs hcf
        have hb : (a.xConfig || (!a.xConfig && !a.yConfig)) = true := by rw [hcf]; cases a.yConfig <;> rfl
        have hb' : (a.yConfig || (!a.xConfig && !a.yConfig)) = true := by rw [hcf]; cases a.yConfig <;> rfl
        simp only [hb, hb', Bool.not_true, Bool.false_eq_true, if_false]
        cases hT : c.discreteT with
        | true =>
          have he : ∃ x', stepSample c a (tr xs) (oneHot a.x) (if c.discreteZ then oneHot z else z) w = .ok x' ∧ n ≤ x'.length := by
            unfold stepSample
            cases a.approx with
            | true =>
              simp only [hT, if_true]
              exact ⟨_, rfl, by simp only [List.length_zipWith]; omega⟩
            | false =>
              simp only [Bool.false_eq_true, if_false]
              exact ⟨_, rfl, by rw [oneHot_length, hs.x]⟩
          obtain ⟨x', hx', hlen⟩ := he
          simp only [if_true, hx']
          have hw' : stepW c a w = .ok w := by unfold stepW; rw [hT]; rfl
          rw [hw']
          obtain ⟨ys, hys⟩ := dataset_ok x' w (inputs c.discreteY (if c.discreteY then oneHot a.y else a.y)) (by omega) (by omega)
          simp only [hys]
          constructor
          · intro _
            exact mk hcf (fun h => by rw [hT] at h; cases h) (fun _ h => by rw [hT] at h; cases h)
          · intro _; exact ⟨_, rfl⟩
        | false =>
          simp only [Bool.false_eq_true, if_false]
          cases hn : a.sampleN with
          | none =>
            have hw' : stepW c a w = .error .type := by unfold stepW; simp [hT, hn]
            constructor
            · rintro ⟨m, h⟩
              rw [hw'] at h
              split at h
              · cases h
              · cases h
            · intro h
              obtain ⟨s, hs'⟩ := h.draws hT
              rw [hn] at hs'; cases hs'
          | some s =>
            have hw' : stepW c a w = .ok (tile s w) := by unfold stepW; simp [hT, hn]
            rw [hw']
            have ltile : (tile s w).length = s * n := block_length n (fun _ => w) (fun _ => lw) s
            by_cases hemb : a.approx = true ∧ c.discreteZ = true
            · have : stepSample c a (tr xs) a.x (if c.discreteZ then oneHot z else z) w = .error .runtime := by
                unfold stepSample; simp [hemb.1, hemb.2, hT]
              rw [this]
              constructor
              · rintro ⟨m, h⟩; cases h
              · intro h
                have := h.embed hemb.1 hT
                rw [hemb.2] at this; cases this
            · have he : ∃ x', stepSample c a (tr xs) a.x (if c.discreteZ then oneHot z else z) w = .ok x' ∧ (0 < s → n ≤ x'.length) := by
                unfold stepSample
                cases ha : a.approx with
                | true =>
                  have hZ : c.discreteZ = false := by
                    cases h : c.discreteZ with
                    | false => rfl
                    | true => exact absurd ⟨ha, h⟩ hemb
                  simp only [hT, hZ, hn, if_true, Bool.false_eq_true, if_false]
                  refine ⟨_, rfl, fun h0 => ?_⟩
                  unfold sampleRows
                  rw [block_length n _ (fun k => sampleRows_shape (tr xs) z w n lz lw k) s]
                  exact Nat.le_mul_of_pos_left n h0
                | false =>
                  simp only [Bool.false_eq_true, if_false]
                  exact ⟨_, rfl, fun _ => by rw [hs.x]⟩
              obtain ⟨x', hx', hlen⟩ := he
              rw [hx']
              simp only
              cases s with
              | zero =>
                constructor
                · rintro ⟨m, h⟩
                  cases h' : dataset x' (tile 0 w) (inputs c.discreteY (if c.discreteY then oneHot a.y else a.y)) with
                  | error e => rw [h'] at h; cases h
                  | ok l =>
                    have := (items_ok x' (tile 0 w) (inputs c.discreteY (if c.discreteY then oneHot a.y else a.y)) _ 0).mp ⟨l, h'⟩
                    omega
                · intro h
                  obtain ⟨s, hs'⟩ := h.draws hT
                  rw [hn] at hs'; cases hs'
              | succ s =>
                have hle : n ≤ (s + 1) * n := Nat.le_mul_of_pos_left n (by omega)
                obtain ⟨ys, hys⟩ := dataset_ok x' (tile (s + 1) w) (inputs c.discreteY (if c.discreteY then oneHot a.y else a.y))
                  (by rw [l3]; exact hlen (by omega)) (by omega)
                rw [hys]
                constructor
                · intro _
                  refine mk hcf (fun _ => ⟨s, hn⟩) (fun h1 _ => ?_)
                  cases h : c.discreteZ with
                  | false => rfl
                  | true => exact absurd ⟨h1, h⟩ hemb
                · intro _; exact ⟨_, rfl⟩

/-- what a successful call did -/
theorem fit_inv (c : DeepIV.Config) (tr) (a : DeepIV.Args) (m : Fitted) (h : DeepIV.fit c tr a = .ok m) :
    ∃ z w x' w', a.z = some z ∧ a.w = some w ∧ m.w = w ∧
      m.yd = dim (if c.discreteY then oneHot a.y else a.y) ∧ m.xd = dim (if c.discreteT then oneHot a.x else a.x) ∧
      dataset (inputs c.discreteZ (if c.discreteZ then oneHot z else z)) w
        (inputs c.discreteT (if c.discreteT then oneHot a.x else a.x)) = .ok m.xSeen ∧
      stepSample c a (tr m.xSeen) (if c.discreteT then oneHot a.x else a.x) (if c.discreteZ then oneHot z else z) w = .ok x' ∧
      stepW c a w = .ok w' ∧
      dataset x' w' (inputs c.discreteY (if c.discreteY then oneHot a.y else a.y)) = .ok m.ySeen := by
  unfold DeepIV.fit at h
  cases hz : a.z with
  | none => rw [hz] at h; cases h
  | some z =>
    cases hw : a.w with
    | none => rw [hz, hw] at h; cases h
    | some w =>
      rw [hz, hw] at h
      simp only at h
      by_cases h1 : (!hiddenOk c.customX c.xHidden) = true
      · rw [if_pos h1] at h; cases h
      rw [if_neg h1] at h
      by_cases h2 : (!hiddenOk c.customY c.yHidden) = true
      · rw [if_pos h2] at h; cases h
      rw [if_neg h2] at h
      by_cases h3 : c.customY = true
      · rw [if_pos h3] at h; cases h
      rw [if_neg h3] at h
      unfold DeepIV.train at h
      simp only at h
      by_cases h4 : (!(a.xConfig || (!a.xConfig && !a.yConfig))) = true
      · rw [if_pos h4] at h; cases h
      rw [if_neg h4] at h
      cases h5 : dataset (inputs c.discreteZ (if c.discreteZ then oneHot z else z)) w
        (inputs c.discreteT (if c.discreteT then oneHot a.x else a.x)) with
      | error e => rw [h5] at h; cases h
      | ok xs =>
        rw [h5] at h
        simp only at h
        cases h6 : stepSample c a (tr xs) (if c.discreteT then oneHot a.x else a.x) (if c.discreteZ then oneHot z else z) w with
        | error e => rw [h6] at h; cases h
        | ok x' =>
          rw [h6] at h
          simp only at h
          cases h7 : stepW c a w with
          | error e => rw [h7] at h; cases h
          | ok w' =>
            rw [h7] at h
            simp only at h
            by_cases h8 : (!(a.yConfig || (!a.xConfig && !a.yConfig))) = true
            · rw [if_pos h8] at h; cases h
            rw [if_neg h8] at h
            cases h9 : dataset x' w' (inputs c.discreteY (if c.discreteY then oneHot a.y else a.y)) with
            | error e => rw [h9] at h; cases h
            | ok ys =>
              rw [h9] at h
              simp only [Except.ok.injEq] at h
              subst h
              exact ⟨z, w, x', w', rfl, rfl, rfl, rfl, rfl, h5, h6, h7, h9⟩

/-- the treatment network is trained on every row once, paired with its own instrument, adjustment and treatment -/
theorem C135_treatment_rows (c : DeepIV.Config) (tr) (a : DeepIV.Args) (n : Nat) (hs : DivSized a n) (m : Fitted)
    (h : DeepIV.fit c tr a = .ok m) : m.xSeen.length = n ∧ ∀ z w, a.z = some z → a.w = some w → ∀ i, i < n →
      m.xSeen[i]? = some (divRow c.discreteZ z i, w.getD i [], divRow c.discreteT a.x i) := by
  obtain ⟨z, w, x', w', hz, hw, -, -, -, h1, -, -, -⟩ := fit_inv c tr a m h
  obtain ⟨q1, q2⟩ := dataset_rows _ _ _ _ h1
  rw [inputs_length, maybe_length, hs.x] at q1 q2
  refine ⟨q1, fun z0 w0 hz0 hw0 i hi => ?_⟩
  rw [hz] at hz0; cases hz0
  rw [hw] at hw0; cases hw0
  obtain ⟨A, B, C, e1, e2, e3, e4⟩ := q2 i hi
  rw [inputs_row _ _ _ (by rw [hs.z _ hz]; exact hi)] at e1
  rw [inputs_row _ _ _ (by rw [hs.x]; exact hi)] at e3
  rw [e4]
  cases e1; cases e3
  rw [List.getD, e2]
  rfl

/-- continuous treatment: the outcome network is trained on `n` rows only, and these carry the *first* draw of the treatment
given the row's own instrument and adjustment -/
theorem C135_outcome_rows (c : DeepIV.Config) (tr) (a : DeepIV.Args) (n : Nat) (hs : DivSized a n) (m : Fitted)
    (h : DeepIV.fit c tr a = .ok m) (hT : c.discreteT = false) (ha : a.approx = true) :
    m.ySeen.length = n ∧ ∀ z w, a.z = some z → a.w = some w → ∀ i, i < n →
      m.ySeen[i]? = some ((tr m.xSeen).draw 0 (.vec (z.getD i [])) (w.getD i []), w.getD i [], divRow c.discreteY a.y i) := by
  have hu := (C135_fit_iff c tr a n hs).mp ⟨m, h⟩
  obtain ⟨s, hn⟩ := hu.draws hT
  have hZ := hu.embed ha hT
  obtain ⟨z, w, x', w', hz, hw, -, -, -, -, h2, h3, h4⟩ := fit_inv c tr a m h
  have lz := hs.z z hz
  have lw := hs.w w hw
  unfold stepSample at h2
  unfold stepW at h3
  simp only [ha, hT, hZ, hn, if_true, Bool.false_eq_true, if_false, Except.ok.injEq] at h2 h3
  obtain ⟨q1, q2⟩ := dataset_rows _ _ _ _ h4
  rw [inputs_length, maybe_length, hs.y] at q1 q2
  refine ⟨q1, fun z0 w0 hz0 hw0 i hi => ?_⟩
  rw [hz] at hz0; cases hz0
  rw [hw] at hw0; cases hw0
  obtain ⟨A, B, C, e1, e2, e3, e4⟩ := q2 i hi
  rw [inputs_row _ _ _ (by rw [hs.y]; exact hi)] at e3
  rw [e4]
  cases e3
  rw [← h2] at e1
  rw [← h3] at e2
  unfold sampleRows at e1
  unfold tile at e2
  rw [first_block n s _ (fun k => sampleRows_shape _ z w n lz lw k) i hi] at e1
  rw [first_block n s _ (fun _ => lw) i hi] at e2
  rw [List.getElem?_zipWith] at e1
  have hzi : z[i]? = some (z.getD i []) := by rw [List.getD, List.getElem?_eq_getElem (by omega : i < z.length)]; rfl
  rw [hzi, e2] at e1
  simp only [Option.some.injEq] at e1
  have : w.getD i [] = B := by rw [List.getD, e2]; rfl
  rw [this, e1]

/-- `sample_n` ("times of new samples") has no effect at all -/
theorem C135_sample_n_refuted (c : DeepIV.Config) (tr) (a : DeepIV.Args) (n : Nat) (hs : DivSized a n) (s s' : Nat) :
    DeepIV.fit c tr { a with sampleN := some (s + 1) } = DeepIV.fit c tr { a with sampleN := some (s' + 1) } := by
  unfold DeepIV.fit
  simp only
  cases hz : a.z with
  | none => rfl
  | some z =>
    cases hw : a.w with
    | none => rfl
    | some w =>
      have lz := hs.z z hz
      have lw := hs.w w hw
      simp only
      congr 2
      congr 1
      unfold DeepIV.train
      simp only
      congr 1
      cases dataset (inputs c.discreteZ (if c.discreteZ then oneHot z else z)) w
        (inputs c.discreteT (if c.discreteT then oneHot a.x else a.x)) with
      | error e => rfl
      | ok xs =>
        simp only
        cases hT : c.discreteT with
        | true =>
          have e1 : ∀ k, stepSample c { a with sampleN := some k, w := some w, z := some z } (tr xs) (oneHot a.x)
              (if c.discreteZ then oneHot z else z) w = stepSample c { a with sampleN := none, w := some w, z := some z } (tr xs) (oneHot a.x)
              (if c.discreteZ then oneHot z else z) w := by intro k; unfold stepSample; simp [hT]
          have e2 : ∀ k, stepW c { a with sampleN := some k, w := some w, z := some z } w = .ok w := by intro k; unfold stepW; simp [hT]
          rw [hz] at *
          simp only [if_true]
          unfold stepSample stepW
          simp only [hT, if_true]
        | false =>
          unfold stepSample stepW
          simp only [hT, Bool.false_eq_true, if_false]
          cases a.approx with
          | false =>
            simp only [Bool.false_eq_true, if_false]
            congr 1
            rw [dataset_prefix a.x a.x (tile (s + 1) w) (tile (s' + 1) w) _ (fun _ _ => rfl) (fun j hj => ?_)]
            rw [inputs_length, maybe_length, hs.y] at hj
            unfold tile
            rw [first_block n s _ (fun _ => lw) j hj, first_block n s' _ (fun _ => lw) j hj]
          | true =>
            cases c.discreteZ with
            | true => rfl
            | false =>
              simp only [if_true, Bool.false_eq_true, if_false]
              congr 1
              rw [dataset_prefix (sampleRows (tr xs) z w (s + 1)) (sampleRows (tr xs) z w (s' + 1)) (tile (s + 1) w) (tile (s' + 1) w) _
                (fun j hj => ?_) (fun j hj => ?_)]
              · rw [inputs_length, maybe_length, hs.y] at hj
                unfold sampleRows
                rw [first_block n s _ (fun k => sampleRows_shape _ z w n lz lw k) j hj,
                  first_block n s' _ (fun k => sampleRows_shape _ z w n lz lw k) j hj]
              · rw [inputs_length, maybe_length, hs.y] at hj
                unfold tile
                rw [first_block n s _ (fun _ => lw) j hj, first_block n s' _ (fun _ => lw) j hj]

/-- discrete treatment: the outcome network is trained on every row once, with the treatment probabilities given the row's
own instrument and adjustment -/
theorem C135_outcome_rows_discrete (c : DeepIV.Config) (tr) (a : DeepIV.Args) (n : Nat) (hs : DivSized a n) (m : Fitted)
    (h : DeepIV.fit c tr a = .ok m) (hT : c.discreteT = true) (ha : a.approx = true) :
    m.ySeen.length = n ∧ ∀ z w, a.z = some z → a.w = some w → ∀ i, i < n →
      m.ySeen[i]? = some ((tr m.xSeen).proba (divRow c.discreteZ z i) (w.getD i []), w.getD i [], divRow c.discreteY a.y i) := by
  obtain ⟨z, w, x', w', hz, hw, -, -, -, -, h2, h3, h4⟩ := fit_inv c tr a m h
  have lz := hs.z z hz
  have lw := hs.w w hw
  unfold stepSample at h2
  unfold stepW at h3
  simp only [ha, hT, if_true, Except.ok.injEq] at h2 h3
  obtain ⟨q1, q2⟩ := dataset_rows _ _ _ _ h4
  rw [inputs_length, maybe_length, hs.y] at q1 q2
  refine ⟨q1, fun z0 w0 hz0 hw0 i hi => ?_⟩
  rw [hz] at hz0; cases hz0
  rw [hw] at hw0; cases hw0
  obtain ⟨A, B, C, e1, e2, e3, e4⟩ := q2 i hi
  rw [inputs_row _ _ _ (by rw [hs.y]; exact hi)] at e3
  rw [e4]
  cases e3
  rw [← h2, List.getElem?_zipWith, inputs_row _ _ _ (by omega)] at e1
  rw [← h3] at e2
  rw [e2] at e1
  simp only [Option.some.injEq] at e1
  have : w.getD i [] = B := by rw [List.getD, e2]; rfl
  rw [this, e1]

/-- the prediction compared with the outcome is the mean of the network's outputs under the treatment probabilities of the
same row -/
theorem C135_mixture_prediction (f : Inp → List ℚ → List ℚ) (xd od : Nat) (X W : List (List ℚ)) (b j : Nat)
    (hb : b < W.length) (hj : j < od) :
    ((mixPrediction f xd od X W).getD b []).getD j 0 =
      ((List.range xd).map (fun k => (X.getD b []).getD k 0 * (f (.label k) (W.getD b [])).getD j 0)).sum := by
  have key : ∀ k, k < xd → (List.zipWith f ((List.range W.length).flatMap (fun _ => (List.range xd).map Inp.label))
      (W.flatMap (fun w => List.replicate xd w))).getD (b * xd + k) [] = f (.label k) (W.getD b []) := by
    intro k hk
    have e1 := flatMap_range_get xd (fun _ => (List.range xd).map Inp.label) (fun _ => by simp) W.length b k hb hk
    have hW : W.flatMap (fun w => List.replicate xd w) =
        (List.range W.length).flatMap (fun i => List.replicate xd (W.getD i [])) := by
      have : W = (List.range W.length).map (fun i => W.getD i []) := by
        apply List.ext_getElem
        · simp
        · intro i h1 h2
          simp [List.getD, List.getElem?_eq_getElem h1]
      conv_lhs => rw [this]
      rw [List.flatMap_map]
    have e2 := flatMap_range_get xd (fun i => List.replicate xd (W.getD i [])) (fun _ => by simp) W.length b k hb hk
    rw [← hW] at e2
    rw [List.getD, List.getElem?_zipWith, e1, e2]
    simp [hk]
  unfold mixPrediction
  simp only
  have r1 : ∀ (g : Nat → List ℚ), ((List.range W.length).map g).getD b [] = g b := by
    intro g; simp [List.getD, hb]
  rw [r1]
  have r2 : ∀ (g : Nat → ℚ), ((List.range od).map g).getD j 0 = g j := by
    intro g; simp [List.getD, hj]
  rw [r2]
  congr 1
  apply List.map_congr_left
  intro k hk
  rw [key k (List.mem_range.mp hk), mul_comm]

/-- the batches of one epoch are the rows in order, each exactly once, none empty and none larger than the batch size -/
theorem C135_batches {A : Type} (b : Nat) (hb : 0 < b) (l : List A) :
    (batches b hb l).flatten = l ∧ ∀ s ∈ batches b hb l, 0 < s.length ∧ s.length ≤ b := by
  induction hn : l.length using Nat.strong_induction_on generalizing l with
  | _ n ih =>
    cases l with
    | nil => unfold batches; simp
    | cons a t =>
      unfold batches
      have hlt : ((a :: t).drop b).length < n := by rw [List.length_drop, hn]; simp at hn; omega
      obtain ⟨h1, h2⟩ := ih _ hlt _ rfl
      refine ⟨by rw [List.flatten_cons, h1, List.take_append_drop], fun s hs => ?_⟩
      rcases List.mem_cons.mp hs with rfl | hs
      · rw [List.length_take]
        simp only [List.length_cons]
        omega
      · exact h2 s hs

theorem argmaxFrom_stay (l : List ℚ) : ∀ (best k : Nat) (v : ℚ), (∀ a ∈ l, a ≤ v) → argmaxFrom best k v l = best := by
  induction l with
  | nil => intro best k v _; rfl
  | cons a l ih =>
    intro best k v h
    have ha := h a (List.mem_cons_self ..)
    simp only [argmaxFrom, if_neg (not_lt.mpr ha)]
    exact ih best (k + 1) v (fun b hb => h b (List.mem_cons_of_mem _ hb))

theorem argmaxFrom_find (l : List ℚ) : ∀ (best k : Nat) (v M : ℚ) (p : Nat), v < M → l[p]? = some M →
    (∀ a ∈ l, a ≤ M) → (∀ i a, i < p → l[i]? = some a → a < M) → argmaxFrom best k v l = k + p := by
  induction l with
  | nil => intro best k v M p _ h; cases h
  | cons b l ih =>
    intro best k v M p hv hp hle hlt
    cases p with
    | zero =>
      simp only [List.getElem?_cons_zero, Option.some.injEq] at hp
      subst hp
      simp only [argmaxFrom, if_pos hv]
      exact argmaxFrom_stay l k (k + 1) b (fun a ha => hle a (List.mem_cons_of_mem _ ha))
    | succ p =>
      have hb : b < M := hlt 0 b (by omega) rfl
      have step : ∀ best' v', v' < M → argmaxFrom best' (k + 1) v' l = k + (p + 1) := by
        intro best' v' hv'
        rw [ih best' (k + 1) v' M p hv' (by simpa using hp) (fun a ha => hle a (List.mem_cons_of_mem _ ha))
          (fun i a hi ha => hlt (i + 1) a (by omega) (by simpa using ha))]
        omega
      simp only [argmaxFrom]
      by_cases h : v < b
      · rw [if_pos h]; exact step _ _ hb
      · rw [if_neg h]; exact step _ _ hv

/-- the first largest entry -/
theorem argmax_eq (l : List ℚ) (M : ℚ) (p : Nat) (hp : l[p]? = some M) (hle : ∀ a ∈ l, a ≤ M)
    (hlt : ∀ i a, i < p → l[i]? = some a → a < M) : argmax l = p := by
  cases l with
  | nil => cases hp
  | cons b l =>
    cases p with
    | zero =>
      simp only [List.getElem?_cons_zero, Option.some.injEq] at hp
      subst hp
      exact argmaxFrom_stay l 0 1 b (fun a ha => hle a (List.mem_cons_of_mem _ ha))
    | succ p =>
      have hb : b < M := hlt 0 b (by omega) rfl
      simp only [argmax]
      rw [argmaxFrom_find l 0 1 b M p hb (by simpa using hp) (fun a ha => hle a (List.mem_cons_of_mem _ ha))
          (fun i a hi ha => hlt (i + 1) a (by omega) (by simpa using ha))]
      omega

theorem mem_indicator {cs : List ℚ} {v a : ℚ} (h : a ∈ indicator cs v) : a = 0 ∨ a = 1 := by
  unfold indicator at h
  obtain ⟨c, -, rfl⟩ := List.mem_map.mp h
  by_cases e : c = v
  · right; rw [if_pos e]
  · left; rw [if_neg e]

theorem cats_nodup (m : List (List ℚ)) (j : Nat) : (cats m j).Nodup := by
  unfold cats
  exact (List.perm_insertionSort _ _).nodup_iff.mpr (List.nodup_dedup _)

/-- the label a network is trained with is the category of the *first* column, whatever the other columns are -/
theorem C135_label_first_column (m : List (List ℚ)) (i : Nat) (hi : i < m.length) (hc : 0 < dim m) (k : Nat)
    (h : divRow true m i = .label k) : (cats m 0)[k]? = some ((m.getD i []).getD 0 0) := by
  simp only [divRow, if_true, Inp.label.injEq] at h
  set v := (m.getD i []).getD 0 0 with hv
  have hmem : v ∈ cats m 0 := by
    unfold cats
    rw [List.mem_insertionSort, List.mem_dedup, List.mem_map]
    refine ⟨m.getD i [], ?_, rfl⟩
    rw [List.getD, List.getElem?_eq_getElem hi]
    exact List.getElem_mem hi
  have hrow : (oneHot m).getD i [] = ((List.range (dim m)).map (fun j => indicator (cats m j) ((m.getD i []).getD j 0))).flatten := by
    unfold oneHot dim
    simp only [List.getD, List.getElem?_map, List.getElem?_eq_getElem hi, Option.map_some, Option.getD_some]
  have hsplit : ∃ rest, (oneHot m).getD i [] = indicator (cats m 0) v ++ rest ∧ ∀ a ∈ rest, a ≤ (1 : ℚ) := by
    obtain ⟨d, hd⟩ : ∃ d, dim m = d + 1 := ⟨dim m - 1, by omega⟩
    rw [hrow, hd, List.range_succ_eq_map, List.map_cons, List.flatten_cons]
    refine ⟨_, rfl, fun a ha => ?_⟩
    obtain ⟨l, hl, hal⟩ := List.mem_flatten.mp ha
    obtain ⟨j, -, rfl⟩ := List.mem_map.mp hl
    rcases mem_indicator hal with rfl | rfl <;> norm_num
  obtain ⟨rest, hrest, hle⟩ := hsplit
  have hidx : (cats m 0).idxOf v < (cats m 0).length := List.idxOf_lt_length_of_mem hmem
  have hilen : (indicator (cats m 0) v).length = (cats m 0).length := by simp [indicator]
  have hk : k = (cats m 0).idxOf v := by
    rw [← h, hrest]
    apply argmax_eq _ 1
    · rw [List.getElem?_append_left (by rw [hilen]; exact hidx)]
      simp only [indicator, List.getElem?_map, List.getElem?_eq_getElem hidx, Option.map_some, List.getElem_idxOf, if_true]
    · intro a ha
      rcases List.mem_append.mp ha with ha | ha
      · rcases mem_indicator ha with rfl | rfl <;> norm_num
      · exact hle a ha
    · intro p a hp ha
      rw [List.getElem?_append_left (by rw [hilen]; omega)] at ha
      have hpl : p < (cats m 0).length := by omega
      simp only [indicator, List.getElem?_map, List.getElem?_eq_getElem hpl, Option.map_some, Option.some.injEq] at ha
      have hne : (cats m 0)[p] ≠ v := by
        intro e
        have : (cats m 0)[p] = (cats m 0)[(cats m 0).idxOf v] := by rw [List.getElem_idxOf]; exact e
        have := (cats_nodup m 0).getElem_inj_iff.mp this
        omega
      rw [if_neg hne] at ha
      rw [← ha]; norm_num
  rw [hk, List.getElem?_eq_getElem hidx, List.getElem_idxOf]

/-- two rows that differ only in a second discrete treatment get the same training target -/
theorem C135_second_treatment_refuted (m : List (List ℚ)) (i j : Nat) (hi : i < m.length) (hj : j < m.length) (hc : 0 < dim m)
    (h : (m.getD i []).getD 0 0 = (m.getD j []).getD 0 0) : divRow true m i = divRow true m j := by
  have e1 := C135_label_first_column m i hi hc (argmax ((oneHot m).getD i [])) rfl
  have e2 := C135_label_first_column m j hj hc (argmax ((oneHot m).getD j [])) rfl
  rw [h] at e1
  obtain ⟨l1, q1⟩ := List.getElem?_eq_some_iff.mp e1
  obtain ⟨l2, q2⟩ := List.getElem?_eq_some_iff.mp e2
  have := (cats_nodup m 0).getElem_inj_iff.mp (q1.trans q2.symm)
  simp only [divRow, if_true, this]

/-! ## C136 -/

theorem sub_entry (a b : List (List ℚ)) (i j : Nat) (ha : i < a.length) (hb : i < b.length)
    (hja : j < (a.getD i []).length) (hjb : j < (b.getD i []).length) :
    ((DeepIV.sub a b).getD i []).getD j 0 = (a.getD i []).getD j 0 - (b.getD i []).getD j 0 := by
  unfold DeepIV.sub
  simp only [List.getD, List.getElem?_zipWith, List.getElem?_eq_getElem ha, List.getElem?_eq_getElem hb, Option.getD_some] at *
  rw [List.getElem?_eq_getElem hja, List.getElem?_eq_getElem hjb]
  rfl

theorem map_sum_range (m : List (List ℚ)) (g : List ℚ → ℚ) :
    (m.map g).sum = ((List.range m.length).map (fun i => g (m.getD i []))).sum := by
  congr 1
  apply List.ext_getElem
  · simp
  · intro i h1 h2
    have : i < m.length := by simpa using h1
    simp [List.getD, List.getElem?_eq_getElem this]

/-- the column means of a difference of two prediction matrices -/
theorem colMean_sub (yd n : Nat) (A B : Nat → List ℚ) (hA : ∀ i, (A i).length = yd) (hB : ∀ i, (B i).length = yd) :
    colMean yd (DeepIV.sub ((List.range n).map A) ((List.range n).map B)) =
      (List.range yd).map (fun j => ((List.range n).map (fun i => (A i).getD j 0 - (B i).getD j 0)).sum / n) := by
  unfold colMean
  apply List.map_congr_left
  intro j hj
  have hj := List.mem_range.mp hj
  have hlen : (DeepIV.sub ((List.range n).map A) ((List.range n).map B)).length = n := by simp [DeepIV.sub]
  rw [map_sum_range, hlen]
  congr 2
  apply List.map_congr_left
  intro i hi
  have hi := List.mem_range.mp hi
  have gA : ((List.range n).map A).getD i [] = A i := by simp [List.getD, hi]
  have gB : ((List.range n).map B).getD i [] = B i := by simp [List.getD, hi]
  rw [sub_entry _ _ i j (by simpa using hi) (by simpa using hi) (by rw [gA, hA]; exact hj) (by rw [gB, hB]; exact hj), gA, gB]

theorem zipWith_range (g : List ℚ → List ℚ → List ℚ) (x w : List (List ℚ)) (h : x.length = w.length) :
    List.zipWith g x w = (List.range w.length).map (fun i => g (x.getD i []) (w.getD i [])) := by
  apply List.ext_getElem
  · simp [h]
  · intro i h1 h2
    have hi : i < w.length := by simpa using h2
    simp [List.getD, List.getElem?_eq_getElem hi, List.getElem?_eq_getElem (h ▸ hi : i < x.length)]

theorem eye_row (n d i : Nat) (hi : i < n) : (eye n d).getD i [] = (List.range d).map (fun j => if i = j then 1 else 0) := by
  simp [eye, List.getD, hi]

theorem argmax_unit (d k : Nat) (hk : k < d) : argmax ((List.range d).map (fun j => if k = j then (1 : ℚ) else 0)) = k := by
  apply argmax_eq _ 1
  · simp [hk]
  · intro a ha
    obtain ⟨j, -, rfl⟩ := List.mem_map.mp ha
    by_cases e : k = j
    · rw [if_pos e]
    · rw [if_neg e]; norm_num
  · intro i a hi ha
    have : i < d := by omega
    simp only [List.getElem?_map, List.getElem?_range this, Option.map_some, Option.some.injEq] at ha
    rw [if_neg (by omega)] at ha
    rw [← ha]; norm_num

theorem argmax_zero (d k : Nat) (hk : d ≤ k) : argmax ((List.range d).map (fun j => if k = j then (1 : ℚ) else 0)) = 0 := by
  have : (List.range d).map (fun j => if k = j then (1 : ℚ) else 0) = List.replicate d 0 := by
    apply List.ext_getElem
    · simp
    · intro i h1 h2
      have : i < d := by simpa using h2
      simp; omega
  rw [this]
  cases d with
  | zero => rfl
  | succ d => exact argmaxFrom_stay _ 0 1 0 (fun a ha => by rw [List.eq_of_mem_replicate ha])

/-- the label a discrete treatment number is turned into -/
theorem select_predict (c : DeepIV.Config) (f) (xd : Nat) (w : List (List ℚ)) (k : Nat) (hk : k < w.length)
    (hT : c.discreteT = true) (hY : c.discreteY = false) :
    ∃ xt, select (eye w.length xd) k w.length = .ok xt ∧ DeepIV.predict c f xt w =
      .values ((List.range w.length).map (fun i => f (.label (if k < xd then k else 0)) (w.getD i []))) := by
  refine ⟨List.replicate w.length ((eye w.length xd).getD k []), ?_, ?_⟩
  · unfold select
    rw [if_neg (by omega), if_pos ⟨by omega, by simp [eye]; omega⟩]
    simp
  · unfold DeepIV.predict
    simp only [hT, hY, if_true, Bool.false_eq_true, if_false, Pred.values.injEq]
    rw [zipWith_range _ _ _ (by simp)]
    apply List.map_congr_left
    intro i hi
    have hi := List.mem_range.mp hi
    have : (List.replicate w.length ((eye w.length xd).getD k [])).getD i [] = (eye w.length xd).getD k [] := by
      simp [List.getD, hi]
    rw [this, eye_row _ _ _ hk]
    by_cases h : k < xd
    · rw [argmax_unit _ _ h, if_pos h]
    · rw [argmax_zero _ _ (by omega), if_neg h]

/-- the mean difference of the predictions under two treatments -/
def meanDiff (f : Inp → List ℚ → List ℚ) (t c : Nat → Inp) (yd : Nat) (w : List (List ℚ)) : List ℚ :=
  (List.range yd).map (fun j => ((List.range w.length).map
    (fun i => (f (t i) (w.getD i [])).getD j 0 - (f (c i) (w.getD i [])).getD j 0)).sum / w.length)

/-- discrete treatment: the average effect of category number `treat` against category number 0, provided there are at
least `treat + 1` rows -/
theorem C136_discrete (c : DeepIV.Config) (f) (m : Fitted) (data : Option (List (List ℚ))) (treat control : Option ℚ)
    (q : Quantity) (hq : q ≠ .other) (hT : c.discreteT = true) (hY : c.discreteY = false)
    (hf : ∀ x w, (f x w).length = m.yd) (k : Nat) (hk : trunc (treat.getD 1) = k) (hkx : k < m.xd)
    (hkn : k < (data.getD m.w).length) :
    DeepIV.estimate c (some (f, m)) data treat control q false =
      .ok (.mean (meanDiff f (fun _ => .label k) (fun _ => .label 0) m.yd (data.getD m.w))) := by
  obtain ⟨xt, h1, h2⟩ := select_predict c f m.xd (data.getD m.w) k hkn hT hY
  obtain ⟨x0, h3, h4⟩ := select_predict c f m.xd (data.getD m.w) 0 (by omega) hT hY
  have h3' : select (eye (data.getD m.w).length m.xd) 0 (data.getD m.w).length = .ok x0 := by simpa using h3
  unfold DeepIV.estimate prepare
  simp only [hT, if_true, hk, h1, h3', h2, h4, if_pos hkx, if_pos (by omega : 0 < m.xd)]
  have := colMean_sub m.yd (data.getD m.w).length (fun i => f (.label k) ((data.getD m.w).getD i []))
    (fun i => f (.label 0) ((data.getD m.w).getD i [])) (fun _ => hf _ _) (fun _ => hf _ _)
  cases q with
  | other => exact absurd rfl hq
  | cate => simp only [meanOf, meanDiff]; rw [this]
  | ate => simp only [meanOf, meanDiff]; rw [this]

/-- a category that does not exist has effect zero as long as there are enough rows -/
theorem C136_unknown_category_refuted (c : DeepIV.Config) (f) (m : Fitted) (data : Option (List (List ℚ))) (treat control : Option ℚ)
    (q : Quantity) (hq : q ≠ .other) (hT : c.discreteT = true) (hY : c.discreteY = false)
    (hf : ∀ x w, (f x w).length = m.yd) (k : Nat) (hk : trunc (treat.getD 1) = k) (hkx : m.xd ≤ k)
    (hkn : k < (data.getD m.w).length) :
    DeepIV.estimate c (some (f, m)) data treat control q false = .ok (.mean (List.replicate m.yd 0)) := by
  obtain ⟨xt, h1, h2⟩ := select_predict c f m.xd (data.getD m.w) k hkn hT hY
  obtain ⟨x0, h3, h4⟩ := select_predict c f m.xd (data.getD m.w) 0 (by omega) hT hY
  have h3' : select (eye (data.getD m.w).length m.xd) 0 (data.getD m.w).length = .ok x0 := by simpa using h3
  unfold DeepIV.estimate prepare
  have e0 : (if 0 < m.xd then 0 else 0) = 0 := by split <;> rfl
  simp only [hT, if_true, hk, h1, h3', h2, h4, if_neg (not_lt.mpr hkx), e0]
  have := colMean_sub m.yd (data.getD m.w).length (fun i => f (.label 0) ((data.getD m.w).getD i []))
    (fun i => f (.label 0) ((data.getD m.w).getD i [])) (fun _ => hf _ _) (fun _ => hf _ _)
  have z : (List.range m.yd).map (fun j => ((List.range (data.getD m.w).length).map (fun i =>
      (f (.label 0) ((data.getD m.w).getD i [])).getD j 0 - (f (.label 0) ((data.getD m.w).getD i [])).getD j 0)).sum /
      ((data.getD m.w).length : ℚ)) = List.replicate m.yd 0 := by
    apply List.ext_getElem
    · simp
    · intro j h1 h2; simp
  rw [z] at this
  cases q with
  | other => exact absurd rfl hq
  | cate => simp only [meanOf]; rw [this]
  | ate => simp only [meanOf]; rw [this]

/-- with fewer rows than the number of the category asked for, or a negative number: `IndexError` -/
theorem C136_rows_needed (c : DeepIV.Config) (f) (m : Fitted) (data : Option (List (List ℚ))) (treat control : Option ℚ)
    (q : Quantity) (b : Bool) (hT : c.discreteT = true) (hn : 0 < (data.getD m.w).length)
    (hk : trunc (treat.getD 1) < 0 ∨ ((data.getD m.w).length : Int) ≤ trunc (treat.getD 1)) :
    DeepIV.estimate c (some (f, m)) data treat control q b = .error .index := by
  unfold DeepIV.estimate prepare
  have : select (eye (data.getD m.w).length m.xd) (trunc (treat.getD 1)) (data.getD m.w).length = .error .index := by
    unfold select
    rw [if_neg (by omega), if_neg (by simp [eye]; omega)]
  simp only [hT, if_true, this]

/-- `control` has no influence for a discrete treatment -/
theorem C136_control_refuted (c : DeepIV.Config) (F) (data : Option (List (List ℚ))) (treat control control' : Option ℚ)
    (q : Quantity) (b : Bool) (hT : c.discreteT = true) :
    DeepIV.estimate c F data treat control q b = DeepIV.estimate c F data treat control' q b := by
  unfold DeepIV.estimate prepare
  cases F with
  | none => rfl
  | some p => simp only [hT, if_true]

/-- 'CATE' is not conditional: it is the same number as 'ATE' -/
theorem C136_cate_refuted (c : DeepIV.Config) (F) (data : Option (List (List ℚ))) (treat control : Option ℚ) (b : Bool) :
    DeepIV.estimate c F data treat control .cate b = DeepIV.estimate c F data treat control .ate b := rfl

/-- continuous treatment: only the first `x_d` rows get the treatment at all, each in one coordinate; the sum of their
differences is divided by the number of all rows -/
theorem C136_continuous (c : DeepIV.Config) (f) (m : Fitted) (data : Option (List (List ℚ))) (treat control : Option ℚ)
    (q : Quantity) (hq : q ≠ .other) (hT : c.discreteT = false) (hY : c.discreteY = false)
    (hf : ∀ x w, (f x w).length = m.yd) :
    DeepIV.estimate c (some (f, m)) data treat control q false =
      .ok (.mean ((List.range m.yd).map (fun j =>
        ((List.range (min (data.getD m.w).length m.xd)).map (fun i =>
          (f (.vec ((List.range m.xd).map (fun l => if i = l then treat.getD 1 else 0))) ((data.getD m.w).getD i [])).getD j 0 -
          (f (.vec ((List.range m.xd).map (fun l => if i = l then control.getD 0 else 0))) ((data.getD m.w).getD i [])).getD j 0)).sum /
          (data.getD m.w).length))) := by
  set w := data.getD m.w with hw
  have key : ∀ t, DeepIV.predict c f (scale t (eye w.length m.xd)) w =
      .values ((List.range w.length).map (fun i => f (.vec ((List.range m.xd).map (fun l => if i = l then t else 0))) (w.getD i []))) := by
    intro t
    unfold DeepIV.predict
    simp only [hT, hY, Bool.false_eq_true, if_false, Pred.values.injEq]
    rw [zipWith_range _ _ _ (by simp [scale, eye])]
    apply List.map_congr_left
    intro i hi
    have hi := List.mem_range.mp hi
    have : (scale t (eye w.length m.xd)).getD i [] = (List.range m.xd).map (fun l => if i = l then t else 0) := by
      have e := eye_row w.length m.xd i hi
      simp only [scale, List.getD, List.getElem?_map] at *
      rw [List.getElem?_eq_getElem (by simp [eye]; exact hi)] at *
      simp only [Option.map_some, Option.getD_some] at *
      rw [e, List.map_map]
      apply List.map_congr_left
      intro l _
      by_cases el : i = l <;> simp [el]
    rw [this]
  have hest : DeepIV.estimate c (some (f, m)) data treat control q false =
      .ok (.mean ((List.range m.yd).map (fun j => ((List.range w.length).map (fun i =>
          (f (.vec ((List.range m.xd).map (fun l => if i = l then treat.getD 1 else 0))) (w.getD i [])).getD j 0 -
          (f (.vec ((List.range m.xd).map (fun l => if i = l then control.getD 0 else 0))) (w.getD i [])).getD j 0)).sum / w.length))) := by
    unfold DeepIV.estimate prepare
    simp only [hT, Bool.false_eq_true, if_false, ← hw, key]
    have := colMean_sub m.yd w.length (fun i => f (.vec ((List.range m.xd).map (fun l => if i = l then treat.getD 1 else 0))) (w.getD i []))
      (fun i => f (.vec ((List.range m.xd).map (fun l => if i = l then control.getD 0 else 0))) (w.getD i [])) (fun _ => hf _ _) (fun _ => hf _ _)
    cases q with
    | other => exact absurd rfl hq
    | cate => simp only [meanOf]; rw [this]
    | ate => simp only [meanOf]; rw [this]
  rw [hest]
  congr 2
  apply List.map_congr_left
  intro j _
  congr 1
  by_cases hle : w.length ≤ m.xd
  · rw [Nat.min_eq_left hle]
  · push Not at hle
    rw [Nat.min_eq_right (by omega)]
    obtain ⟨d, hd⟩ : ∃ d, w.length = m.xd + d := ⟨w.length - m.xd, by omega⟩
    rw [hd, List.range_add, List.map_append, List.sum_append]
    have : ((List.range d).map (fun x => m.xd + x)).map (fun i =>
          (f (.vec ((List.range m.xd).map (fun l => if i = l then treat.getD 1 else 0))) (w.getD i [])).getD j 0 -
          (f (.vec ((List.range m.xd).map (fun l => if i = l then control.getD 0 else 0))) (w.getD i [])).getD j 0) =
        List.replicate d 0 := by
      apply List.ext_getElem
      · simp
      · intro i h1 h2
        simp only [List.getElem_map, List.getElem_range, List.getElem_replicate]
        have : ∀ t : ℚ, (List.range m.xd).map (fun l => if m.xd + i = l then t else 0) = List.replicate m.xd 0 := by
          intro t
          apply List.ext_getElem
          · simp
          · intro l h3 h4
            have : l < m.xd := by simpa using h4
            simp; omega
        rw [this, this, sub_self]
    rw [this]
    simp

/-- so the reported effect of an exactly linear outcome network is the true one divided by the number of rows -/
theorem C136_linear_refuted (c : DeepIV.Config) (β : ℚ) (g : List ℚ → ℚ) (f) (m : Fitted) (data : Option (List (List ℚ)))
    (treat control : ℚ) (q : Quantity) (hq : q ≠ .other) (hT : c.discreteT = false) (hY : c.discreteY = false) (hx : m.xd = 1)
    (hy : m.yd = 1) (hn : 2 ≤ (data.getD m.w).length) (hf : ∀ x w, (f x w).length = m.yd)
    (hlin : ∀ t w, f (.vec [t]) w = [β * t + g w]) (hβ : β * (treat - control) ≠ 0) :
    DeepIV.estimate c (some (f, m)) data (some treat) (some control) q false =
        .ok (.mean [β * (treat - control) / (data.getD m.w).length]) ∧
      meanDiff f (fun _ => .vec [treat]) (fun _ => .vec [control]) 1 (data.getD m.w) = [β * (treat - control)] ∧
      β * (treat - control) / (data.getD m.w).length ≠ β * (treat - control) := by
  refine ⟨?_, ?_, ?_⟩
  · rw [C136_continuous c f m data (some treat) (some control) q hq hT hY hf, hx, hy, Nat.min_eq_right (by omega)]
    simp only [List.range_one, List.map_cons, List.map_nil, if_true, Option.getD_some, List.sum_cons, List.sum_nil, hlin]
    simp only [List.getD_cons_zero]
    congr 3
    ring
  · unfold meanDiff
    have hne : ((data.getD m.w).length : ℚ) ≠ 0 := by
      have : (data.getD m.w).length ≠ 0 := by omega
      exact_mod_cast this
    simp only [List.range_one, List.map_cons, List.map_nil, hlin]
    have : ∀ w : List ℚ, ([β * treat + g w] : List ℚ).getD 0 0 - ([β * control + g w] : List ℚ).getD 0 0 = β * (treat - control) := by
      intro w; simp only [List.getD_cons_zero]; ring
    simp only [this]
    rw [List.map_const', List.sum_replicate]
    simp only [List.length_range, nsmul_eq_mul]
    congr 1
    field_simp
  · intro h
    have hne : ((data.getD m.w).length : ℚ) ≠ 0 := by
      have : (data.getD m.w).length ≠ 0 := by omega
      exact_mod_cast this
    rw [div_eq_iff hne] at h
    have h1 : ((data.getD m.w).length : ℚ) = 1 := by
      have := mul_left_cancel₀ hβ (by rw [← h, mul_one] : β * (treat - control) * ((data.getD m.w).length : ℚ) = β * (treat - control) * 1)
      exact this
    have : (data.getD m.w).length = 1 := by exact_mod_cast h1
    omega

/-- marginal effects of a continuous treatment always fail; those of a discrete one are the mean outcome under treatment -/
theorem C136_marginal_refuted (c : DeepIV.Config) (f) (m : Fitted) (data : Option (List (List ℚ))) (treat control : Option ℚ)
    (q : Quantity) :
    (c.discreteT = false → DeepIV.estimate c (some (f, m)) data treat control q true = .error .attr) ∧
    (c.discreteT = true → c.discreteY = false → q ≠ .other → ∀ k : Nat, trunc (treat.getD 1) = k → k < m.xd →
      k < (data.getD m.w).length → (∀ x w, (f x w).length = m.yd) →
      DeepIV.estimate c (some (f, m)) data treat control q true = .ok (.mean ((List.range m.yd).map (fun j =>
        ((List.range (data.getD m.w).length).map (fun i => (f (.label k) ((data.getD m.w).getD i [])).getD j 0)).sum /
          (data.getD m.w).length)))) := by
  constructor
  · intro hT
    unfold DeepIV.estimate prepare
    simp only [hT, Bool.false_eq_true, if_false, if_true]
  · intro hT hY hq k hk hkx hkn hf
    obtain ⟨xt, h1, h2⟩ := select_predict c f m.xd (data.getD m.w) k hkn hT hY
    obtain ⟨x0, h3, h4⟩ := select_predict c f m.xd (data.getD m.w) 0 (by omega) hT hY
    have h3' : select (eye (data.getD m.w).length m.xd) 0 (data.getD m.w).length = .ok x0 := by simpa using h3
    unfold DeepIV.estimate prepare
    simp only [hT, if_true, hk, h1, h3', h2, h4, if_pos hkx, if_pos (by omega : 0 < m.xd)]
    have : colMean m.yd ((List.range (data.getD m.w).length).map (fun i => f (.label k) ((data.getD m.w).getD i []))) =
        (List.range m.yd).map (fun j => ((List.range (data.getD m.w).length).map
          (fun i => (f (.label k) ((data.getD m.w).getD i [])).getD j 0)).sum / (data.getD m.w).length) := by
      unfold colMean
      apply List.map_congr_left
      intro j _
      rw [List.map_map, List.length_map, List.length_range]
      rfl
    cases q with
    | other => exact absurd rfl hq
    | cate => simp only [meanOf]; rw [this]
    | ate => simp only [meanOf]; rw [this]

/-- a discrete outcome: the mean effect is never computed -/
theorem C136_discrete_outcome_refuted (c : DeepIV.Config) (F) (data : Option (List (List ℚ))) (treat control : Option ℚ)
    (q : Quantity) (hq : q ≠ .other) (b : Bool) (hY : c.discreteY = true) :
    ∀ r, DeepIV.estimate c F data treat control q b ≠ .ok r := by
  intro r h
  unfold DeepIV.estimate at h
  cases F with
  | none => cases h
  | some p =>
    obtain ⟨f, m⟩ := p
    simp only at h
    cases hp : prepare c f m.xd (data.getD m.w) treat control b with
    | error e => rw [hp] at h; cases h
    | ok ys =>
      obtain ⟨yt, y0⟩ := ys
      rw [hp] at h
      have hlab : ∃ l, yt = .labels l := by
        unfold prepare at hp
        simp only [DeepIV.predict, hY, if_true] at hp
        split at hp
        · split at hp
          · cases hp
          · split at hp
            · cases hp
            · simp only [Except.ok.injEq, Prod.mk.injEq] at hp
              exact ⟨_, hp.1.symm⟩
        · split at hp
          · cases hp
          · simp only [Except.ok.injEq, Prod.mk.injEq] at hp
            exact ⟨_, hp.1.symm⟩
      obtain ⟨l, rfl⟩ := hlab
      cases q with
      | other => exact hq rfl
      | cate => simp [meanOf] at h
      | ate => simp [meanOf] at h

/-- before `fit`, every estimate is refused -/
theorem C136_not_fitted (c : DeepIV.Config) (data : Option (List (List ℚ))) (treat control : Option ℚ) (q : Quantity) (b : Bool) :
    DeepIV.estimate c none data treat control q b = .error .exception := rfl

/-- `effect_nji` never returns -/
theorem C136_effect_nji_refuted (F) : ∀ r, DeepIV.effectNji F ≠ .ok r := by
  intro r h
  cases F <;> cases h

/-- through `Why`: a frame passes the conversion to single precision iff all or none of its columns are `float64` -/
theorem C136_wrapper_frame (cols : List Bool) :
    (∃ r, f64to32 cols = .ok r) ↔ ((∀ b ∈ cols, b = true) ∨ ∀ b ∈ cols, b = false) := by
  unfold f64to32
  by_cases h0 : 0 < (cols.filter id).length
  · rw [if_pos h0]
    obtain ⟨b, hb⟩ := List.exists_mem_of_length_pos h0
    have hb := List.mem_filter.mp hb
    by_cases h1 : (cols.filter id).length = cols.length
    · rw [if_pos h1]
      refine ⟨fun _ => Or.inl (fun b hb => ?_), fun _ => ⟨_, rfl⟩⟩
      have := List.length_filter_eq_length_iff.mp h1 b hb
      simpa using this
    · rw [if_neg h1]
      constructor
      · rintro ⟨r, h⟩; cases h
      · rintro (h | h)
        · exact absurd (List.length_filter_eq_length_iff.mpr (fun b hb => by simpa using h b hb)) h1
        · have := h b hb.1
          rw [this] at hb; simp at hb
  · rw [if_neg h0]
    refine ⟨fun _ => Or.inr (fun b hb => ?_), fun _ => ⟨_, rfl⟩⟩
    cases b with
    | false => rfl
    | true => exact absurd (List.length_pos_of_mem (List.mem_filter.mpr ⟨hb, rfl⟩)) h0

/-! ### The mixture density network -/

/-- the mixture is a mixture: positive weights that sum to one, not depending on the subtracted maximum; scales within the
stated bounds -/
theorem C136_mixture {k : Nat} (hk : 0 < k) (pi : Fin k → ℝ) (top : ℝ) (bound s : ℝ) (hb : 0 ≤ bound) :
    (∀ i, 0 < mixWeights pi top i) ∧ ∑ i, mixWeights pi top i = 1 ∧ (∀ i, mixWeights pi top i = softmax pi i) ∧
      Real.exp (-bound) ≤ mixSigma bound s ∧ mixSigma bound s ≤ Real.exp bound ∧
      (-bound ≤ s → s ≤ bound → mixSigma bound s = Real.exp s) := by
  have : Nonempty (Fin k) := ⟨⟨0, hk⟩⟩
  have hpos : ∀ t : ℝ, 0 < ∑ j, Real.exp (pi j - t) := fun t =>
    Finset.sum_pos (fun j _ => Real.exp_pos _) Finset.univ_nonempty
  refine ⟨fun i => div_pos (Real.exp_pos _) (hpos top), ?_, fun i => ?_, ?_, ?_, fun h1 h2 => ?_⟩
  · unfold mixWeights
    rw [← Finset.sum_div, div_self (hpos top).ne']
  · unfold mixWeights softmax
    have e : ∀ j, Real.exp (pi j - top) = Real.exp (pi j) * Real.exp (-top) := fun j => by rw [← Real.exp_add]; congr 1
    simp only [e]
    rw [← Finset.sum_mul, mul_div_mul_right _ _ (Real.exp_pos _).ne']
  · unfold mixSigma
    exact Real.exp_le_exp.mpr (le_min (le_max_right _ _) (by linarith))
  · unfold mixSigma
    exact Real.exp_le_exp.mpr (min_le_right _ _)
  · unfold mixSigma
    rw [max_eq_left h1, min_eq_left h2]

/-- the density of the mixture is positive wherever it is evaluated -/
theorem C136_density_pos {k d : Nat} (hk : 0 < k) (pi : Fin k → ℝ) (top bound : ℝ) (mu s : Fin k → Fin d → ℝ) (y : Fin d → ℝ) :
    0 < mixDensity (mixWeights pi top) mu (fun i j => mixSigma bound (s i j)) y := by
  have : Nonempty (Fin k) := ⟨⟨0, hk⟩⟩
  have hpos : 0 < ∑ j, Real.exp (pi j - top) := Finset.sum_pos (fun j _ => Real.exp_pos _) Finset.univ_nonempty
  refine Finset.sum_pos (fun i _ => mul_pos (div_pos (Real.exp_pos _) hpos) (Finset.prod_pos fun j _ => ?_)) Finset.univ_nonempty
  unfold normalDensity mixSigma
  exact div_pos (Real.exp_pos _) (mul_pos (Real.exp_pos _) (Real.sqrt_pos.mpr (by positivity)))

/-- the loss of a batch is minus the logarithm of the *sum* of the densities -/
theorem C136_loss (ps : List ℝ) (h : ∀ p ∈ ps, 0 < p) : mdnLoss ps = -Real.log ps.sum := by
  unfold mdnLoss
  congr 2
  conv_rhs => rw [← List.map_id ps]
  congr 1
  apply List.map_congr_left
  intro p hp
  rw [Real.exp_log (h p hp)]
  rfl

/-- for batches of one row this is the negative log-likelihood -/
theorem C136_loss_single (p : ℝ) (hp : 0 < p) : mdnLoss [p] = -Real.log p := by
  rw [C136_loss [p] (by simpa using hp)]; simp

/-- negative log-likelihood of a batch -/
noncomputable def divNLL (ps : List ℝ) : ℝ := -(ps.map Real.log).sum

theorem normalDensity_center (mu s : ℝ) : normalDensity mu s mu = 1 / (s * Real.sqrt (2 * Real.pi)) := by
  unfold normalDensity; simp

theorem normalDensity_pos (mu s y : ℝ) (hs : 0 < s) : 0 < normalDensity mu s y := by
  unfold normalDensity
  exact div_pos (Real.exp_pos _) (mul_pos hs (Real.sqrt_pos.mpr (by positivity)))

/-- training on this loss is not maximum likelihood: for any two different treatment values and any fitted normal density,
every density concentrated closely enough on one of the two values has a *smaller* loss, and (closely enough) a *smaller*
likelihood -/
theorem C136_loss_refuted (y₁ y₂ mu s : ℝ) (hy : y₁ ≠ y₂) (hs : 0 < s) : ∃ ε > 0, ∀ t, 0 < t → t < ε →
    mdnLoss [normalDensity y₁ t y₁, normalDensity y₁ t y₂] < mdnLoss [normalDensity mu s y₁, normalDensity mu s y₂] ∧
    divNLL [normalDensity mu s y₁, normalDensity mu s y₂] < divNLL [normalDensity y₁ t y₁, normalDensity y₁ t y₂] := by
  set a := normalDensity mu s y₁ with ha
  set b := normalDensity mu s y₂ with hb
  have ha0 : 0 < a := normalDensity_pos mu s y₁ hs
  have hb0 : 0 < b := normalDensity_pos mu s y₂ hs
  set r := Real.sqrt (2 * Real.pi) with hr
  have hr0 : 0 < r := Real.sqrt_pos.mpr (by positivity)
  set D := (y₂ - y₁) ^ 2 with hD
  have hD0 : 0 < D := by
    rw [hD]; have : y₂ - y₁ ≠ 0 := sub_ne_zero.mpr (Ne.symm hy); positivity
  -- product of the two concentrated densities: exp(-D/(2t²)) / (t r)²  ≤  (2 t² / D)² * 2 / (t r)^2 ...
  refine ⟨min (1 / ((a + b) * r)) (Real.sqrt (a * b * r ^ 2 * D ^ 2 / 8)), ?_, ?_⟩
  · have : 0 < a * b * r ^ 2 * D ^ 2 / 8 := by positivity
    exact lt_min (by positivity) (Real.sqrt_pos.mpr this)
  · intro t ht hlt
    have h1 : t < 1 / ((a + b) * r) := lt_of_lt_of_le hlt (min_le_left _ _)
    have h2 : t < Real.sqrt (a * b * r ^ 2 * D ^ 2 / 8) := lt_of_lt_of_le hlt (min_le_right _ _)
    have p1 : normalDensity y₁ t y₁ = 1 / (t * r) := normalDensity_center y₁ t
    have p2 : 0 < normalDensity y₁ t y₂ := normalDensity_pos y₁ t y₂ ht
    have p1' : 0 < normalDensity y₁ t y₁ := normalDensity_pos y₁ t y₁ ht
    constructor
    · rw [C136_loss _ (by simp [p1', p2]), C136_loss _ (by simp [ha0, hb0])]
      simp only [List.sum_cons, List.sum_nil, add_zero]
      have : a + b < normalDensity y₁ t y₁ + normalDensity y₁ t y₂ := by
        have : a + b < 1 / (t * r) := by
          rw [lt_div_iff₀ (by positivity)]
          rw [lt_div_iff₀ (by positivity)] at h1
          nlinarith
        rw [p1]; linarith
      have := Real.log_lt_log (by positivity) this
      linarith
    · unfold divNLL
      simp only [List.map_cons, List.map_nil, List.sum_cons, List.sum_nil, add_zero]
      rw [← Real.log_mul ha0.ne' hb0.ne', ← Real.log_mul p1'.ne' p2.ne']
      have hprod : normalDensity y₁ t y₁ * normalDensity y₁ t y₂ < a * b := by
        rw [p1]
        unfold normalDensity
        rw [← hD, ← hr]
        -- exp(-u) < 2/u² for u > 0
        set u := D / (2 * t ^ 2) with hu
        have hu0 : 0 < u := by positivity
        have e1 : Real.exp (-D / (2 * t ^ 2)) = Real.exp (-u) := by rw [hu, neg_div]
        have e2 : Real.exp (-u) ≤ 2 / u ^ 2 := by
          have := Real.quadratic_le_exp_of_nonneg hu0.le
          rw [Real.exp_neg, inv_le_comm₀ (Real.exp_pos _) (by positivity)]
          rw [inv_div]
          linarith
        have ht2 : t ^ 2 < a * b * r ^ 2 * D ^ 2 / 8 := by
          have := (Real.lt_sqrt ht.le).mp h2
          exact this
        have e3 : 1 / (t * r) * (Real.exp (-D / (2 * t ^ 2)) / (t * r)) ≤ 8 * t ^ 2 / (D ^ 2 * r ^ 2) := by
          rw [e1]
          have : 1 / (t * r) * (Real.exp (-u) / (t * r)) ≤ 1 / (t * r) * (2 / u ^ 2 / (t * r)) := by gcongr
          refine this.trans (le_of_eq ?_)
          rw [hu]
          field_simp
          ring
        refine lt_of_le_of_lt e3 ?_
        rw [div_lt_iff₀ (by positivity)]
        nlinarith
      have := Real.log_lt_log (by positivity) hprod
      linarith

/-- a discrete treatment and a discrete outcome: the outcome loop averages the *logits* over the treatment probabilities;
the class probabilities this gives are not the average of the class probabilities -/
theorem C136_logits_refuted : ∃ (p : Fin 2 → ℝ) (f : Fin 2 → Fin 2 → ℝ), (∀ k, 0 < p k) ∧ ∑ k, p k = 1 ∧
    softmax (fun j => ∑ k, p k * f k j) 1 ≠ ∑ k, p k * softmax (f k) 1 := by
  refine ⟨fun _ => 1 / 2, fun k j => if k = 1 ∧ j = 1 then Real.log 9 else 0, fun _ => by norm_num, by simp, ?_⟩
  have h3 : Real.log 9 = 2 * Real.log 3 := by
    rw [show (9 : ℝ) = 3 ^ 2 by norm_num, Real.log_pow]; norm_num
  unfold softmax
  simp only [Fin.sum_univ_two, Fin.isValue, and_true, and_false, if_false, if_true, one_ne_zero, zero_ne_one, false_and, mul_zero, Real.exp_zero]
  have e : (1 / 2 : ℝ) * Real.log 9 = Real.log 3 := by rw [h3]; ring
  simp only [e, add_zero, zero_add, Real.exp_log (by norm_num : (0 : ℝ) < 3), Real.exp_log (by norm_num : (0 : ℝ) < 9)]
  norm_num

/-! ### Non-vacuity -/

/-- example data: two rows, one instrument, one adjustment -/
def divArgs : DeepIV.Args :=
  { y := [[1], [2]], x := [[0], [3]], z := some [[1], [0]], w := some [[5], [6]], sampleN := some 3 }

/-- an example treatment network -/
def divNet : XNet := { draw := fun s z w => [(s : ℚ) + w.getD 0 0], proba := fun _ w => [1 / 4, 3 / 4] }

example : DivSized divArgs 2 :=
  ⟨by decide, rfl, rfl, fun z h => by cases h; rfl, fun w h => by cases h; rfl⟩

example : DivUsable {} divArgs :=
  { instrument := rfl, configs := rfl, draws := fun _ => ⟨2, rfl⟩, adjustment := rfl, noY := rfl, hiddenX := Or.inl rfl,
    hiddenY := Or.inl rfl, embed := fun _ _ => rfl }

/-- a call with an instrument but without adjustment is reasonable and fails -/
example : DivReasonable {} { divArgs with w := none } ∧ DeepIV.fit {} (fun _ => divNet) { divArgs with w := none } = .error .value :=
  ⟨⟨rfl, rfl, fun _ => ⟨2, rfl⟩⟩, rfl⟩

/-- and so is one with a user-supplied outcome network -/
example : DivReasonable { customY := true } divArgs ∧ DeepIV.fit { customY := true } (fun _ => divNet) divArgs = .error .unbound :=
  ⟨⟨rfl, rfl, fun _ => ⟨2, rfl⟩⟩, rfl⟩

example : (DeepIV.fit {} (fun _ => divNet) divArgs).toOption.map (fun m => m.ySeen) =
    some [([5], [5], .vec [1]), ([6], [6], .vec [2])] := by decide +kernel

example : (DeepIV.fit { discreteT := true } (fun _ => divNet) divArgs).toOption.map (fun m => (m.xSeen, m.xd)) =
    some ([(.vec [1], [5], .label 0), (.vec [0], [6], .label 1)], 2) := by decide +kernel

example : divRow true [[0, 1], [0, 2], [4, 1]] 0 = divRow true [[0, 1], [0, 2], [4, 1]] 1 ∧
    divRow true [[0, 1], [0, 2], [4, 1]] 2 = .label 1 := by decide +kernel

/-- an example fitted model and outcome network: `y = 3 x + w` -/
def divFit : Fitted := { xSeen := [], ySeen := [], yd := 1, xd := 1, w := [[5], [6], [7]] }

/-- the example outcome network -/
def divF : Inp → List ℚ → List ℚ
  | .vec v, w => [3 * v.getD 0 0 + w.getD 0 0]
  | .label k, w => [3 * (k : ℚ) * w.getD 0 0]

example : (∀ x w, (divF x w).length = divFit.yd) ∧ ∀ t w, divF (.vec [t]) w = [3 * t + w.getD 0 0] :=
  ⟨fun x w => by cases x <;> rfl, fun t w => rfl⟩

example : DeepIV.estimate {} (some (divF, divFit)) none none none .ate false = .ok (.mean [1]) := by decide +kernel

example : DeepIV.estimate { discreteT := true } (some (divF, { divFit with xd := 2 })) none none none .ate false =
    .ok (.mean [18]) := by decide +kernel

example : DeepIV.estimate { discreteT := true } (some (divF, { divFit with xd := 2 })) none (some 2) none .ate false =
    .ok (.mean [0]) := by decide +kernel

example : DeepIV.estimate { discreteT := true } (some (divF, { divFit with xd := 5 })) none (some 3) none .ate false =
    .error .index := by decide +kernel

example : f64to32 [true, false] = .error .value ∧ f64to32 [true, true] = .ok [false, false] := by decide

end YL.Props
