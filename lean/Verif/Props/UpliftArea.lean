import Verif.Props.Uplift
import Mathlib.Algebra.Order.BigOperators.Group.List

/-!
# C30 (no missing values) and C78: what the AUUC and Qini scores are
-/

set_option linter.unusedSectionVars false

namespace YL.Props

open YL Spec Uplift

variable {S τ K : Type} [LinearOrder S] [DecidableEq τ] [Field K] [LinearOrder K] [IsStrictOrderedRing K] {t c : τ}

/-- **C30**: no value of a curve is missing: every row from 0 to `n` is a number. -/
theorem C30_no_nan {sort : List (Row S τ K) → List (Row S τ K)} {kind : Kind} {te : Bool} {rows : List (Row S τ K)}
    {curve : List (Option K)} {top : S} (htc : t ≠ c) (hs : Ranked rows (sort rows))
    (h : cumulate sort kind te t c rows = .ok (curve, top)) :
    ∃ vals : List K, vals.length = rows.length + 1 ∧ curve = vals.map some := by
  obtain ⟨hl, h0, hv⟩ := C30_curve htc hs h
  have hall : ∀ k, k ≤ rows.length → ∃ v : K, curve[k]? = some (some v) := by
    intro k hk
    rcases Nat.eq_zero_or_pos k with rfl | hkp
    · exact ⟨0, h0⟩
    by_cases hd : Defined kind te t c (topK (sort rows) k)
    · exact ⟨_, hv k hkp hk hd⟩
    · have hlast : Defined kind te t c (topK (sort rows) rows.length) := by
        obtain ⟨r, i, v, row, hr, rfl, -, hrow, -⟩ := cumulate_ok h
        have htop : topK (sort rows) rows.length = (sort rows).map person := by
          unfold topK; rw [← hs.1.length_eq, List.take_length]
        rw [htop, defined_perm kind te (hs.1.map person)]
        rcases column_armsOk hr with h | h
        · exact Or.inl h
        · rw [armsOk_perm hs.1, armsOk_iff] at h
          exact Or.inr ⟨h.2.2, Or.inr h.2.1⟩
      have hex : ∃ m, k < m ∧ m ≤ rows.length ∧ Defined kind te t c (topK (sort rows) m) := by
        refine ⟨rows.length, ?_, le_rfl, hlast⟩
        by_contra hlt
        exact hd (defined_mono (by omega) hlast)
      classical
      obtain ⟨hjm, hmn, hdm⟩ := Nat.find_spec hex
      have hmin : ¬ Defined kind te t c (topK (sort rows) (Nat.find hex - 1)) := by
        intro hd'
        by_cases he : Nat.find hex - 1 = k
        · rw [he] at hd'; exact hd hd'
        · exact Nat.find_min hex (m := Nat.find hex - 1) (by omega) ⟨by omega, by omega, hd'⟩
      exact ⟨_, C30_gap htc hs h hkp hjm hmn hdm hmin⟩
  refine ⟨curve.map (fun v => v.getD 0), by simp [hl], ?_⟩
  apply List.ext_getElem
  · simp
  · intro i h1 h2
    obtain ⟨v, hvi⟩ := hall i (by omega)
    rw [List.getElem?_eq_getElem h1, Option.some.injEq] at hvi
    simp [hvi]

theorem colSum_some (vals : List K) : colSum (vals.map some) = vals.sum := by simp [colSum, Function.comp_def]

/-- **C78**: the AUUC score is the mean of the `n + 1` points of the gain curve. -/
theorem C78_auuc_mean {sort : List (Row S τ K) → List (Row S τ K)} {kind : Kind} {te : Bool} {rows : List (Row S τ K)}
    {curve : List (Option K)} {top : S} (htc : t ≠ c) (hs : Ranked rows (sort rows))
    (h : cumulate sort kind te t c rows = .ok (curve, top)) :
    ∃ vals : List K, curve = vals.map some ∧ auuc curve = vals.sum / ((rows.length + 1 : Nat) : K) ∧
      (∀ b : K, (∀ v ∈ vals, v ≤ b) → auuc curve ≤ b) ∧ (∀ b : K, (∀ v ∈ vals, b ≤ v) → b ≤ auuc curve) := by
  obtain ⟨vals, hl, rfl⟩ := C30_no_nan htc hs h
  have hpos : (0 : K) < ((rows.length + 1 : Nat) : K) := by exact_mod_cast Nat.succ_pos _
  have he : auuc (vals.map some) = vals.sum / ((rows.length + 1 : Nat) : K) := by
    unfold auuc; rw [colSum_some, List.length_map, hl]
  refine ⟨vals, rfl, he, fun b hb => ?_, fun b hb => ?_⟩
  · rw [he, div_le_iff₀ hpos, ← hl, mul_comm, ← nsmul_eq_mul]
    exact List.sum_le_card_nsmul _ _ hb
  · rw [he, le_div_iff₀ hpos, ← hl, mul_comm, ← nsmul_eq_mul]
    exact List.card_nsmul_le_sum _ _ hb

/-- **C78**: the Qini score of a column is the mean distance of its curve from the RANDOM column. -/
theorem C78_qini_mean (vals random : List K) (hl : vals.length = random.length) :
    qiniScore (vals.map some) (random.map some) = (List.zipWith (· - ·) vals random).sum / ((vals.length : Nat) : K) := by
  unfold qiniScore
  rw [colSum_some, colSum_some, List.length_map]
  congr 1
  induction vals generalizing random with
  | nil => cases random with
    | nil => simp
    | cons b l => simp at hl
  | cons a vals ih =>
    cases random with
    | nil => simp at hl
    | cons b random =>
      simp only [List.zipWith_cons_cons, List.sum_cons]
      rw [← ih random (by simpa using hl)]
      ring

/-- **C78**: a model whose curve is nowhere below that of another one (for any two scorings of equally many rows) has at
least its AUUC and Qini score, and a strictly larger one if its curve is higher at some point. -/
theorem C78_dominance (vals vals' random : List K) (h : List.Forall₂ (· ≤ ·) vals vals') :
    auuc (vals.map some) ≤ auuc (vals'.map some) ∧
    qiniScore (vals.map some) (random.map some) ≤ qiniScore (vals'.map some) (random.map some) ∧
    (vals ≠ vals' → auuc (vals.map some) < auuc (vals'.map some) ∧
      qiniScore (vals.map some) (random.map some) < qiniScore (vals'.map some) (random.map some)) := by
  have hle : ∀ {a b : List K}, List.Forall₂ (· ≤ ·) a b → a.sum ≤ b.sum ∧ (a ≠ b → a.sum < b.sum) := by
    intro a b hab
    induction hab with
    | nil => simp
    | @cons x y a b hxy _ ih =>
      simp only [List.sum_cons]
      refine ⟨add_le_add hxy ih.1, fun hne => ?_⟩
      by_cases hx : x = y
      · subst hx
        have := ih.2 (by rintro rfl; exact hne rfl)
        linarith
      · have := lt_of_le_of_ne hxy hx
        linarith [ih.1]
  have hlen := h.length_eq
  unfold auuc qiniScore
  simp only [colSum_some, List.length_map, hlen]
  obtain ⟨h1, h2⟩ := hle h
  have h0 : (0 : K) ≤ ((vals'.length : Nat) : K) := Nat.cast_nonneg _
  refine ⟨div_le_div_of_nonneg_right h1 h0, div_le_div_of_nonneg_right (by linarith) h0, fun hne => ?_⟩
  have hp : (0 : K) < ((vals'.length : Nat) : K) := by
    have : vals' ≠ [] := by
      rintro rfl
      cases h
      exact hne rfl
    exact_mod_cast List.length_pos_of_ne_nil this
  have := h2 hne
  exact ⟨div_lt_div_of_pos_right this hp, div_lt_div_of_pos_right (by linarith) hp⟩

theorem randomAt_mean {curves : List (List K)} (hne : curves ≠ []) {n : Nat} (h : ∀ r ∈ curves, r.length = n) {k : Nat} (hk : k < n) :
    randomAt (curves.map (fun r => r.map some)) k = some ((curves.map (fun r => r.getD k 0)).sum / ((curves.length : Nat) : K)) := by
  have hv : (curves.map (fun r => r.map some)).filterMap (fun r => (r[k]?).join) = curves.map (fun r => r.getD k 0) := by
    clear hne
    induction curves with
    | nil => rfl
    | cons r l ih =>
      have hr : k < r.length := by rw [h r (by simp)]; exact hk
      rw [List.map_cons, List.filterMap_cons, ih (fun r hr => h r (List.mem_cons_of_mem _ hr))]
      simp [hr]
  unfold randomAt
  simp only [hv]
  rw [div_ne (by simpa using natCast_ne (K := K) (show curves.length ≠ 0 by simpa using hne))]
  simp

theorem sum_getD_range (r : List K) : ((List.range r.length).map (fun k => r.getD k 0)).sum = r.sum := by
  congr 1
  apply List.ext_getElem
  · simp
  · intro i h1 h2
    simp only [List.length_map, List.length_range] at h1
    simp [h1]

theorem sum_swap {α β : Type} (l : List α) (m : List β) (f : α → β → K) :
    (l.map (fun a => (m.map (fun b => f a b)).sum)).sum = (m.map (fun b => (l.map (fun a => f a b)).sum)).sum := by
  induction l with
  | nil => simp
  | cons a l ih => simp only [List.map_cons, List.sum_cons, ih, ← List.sum_map_add]

theorem sumMulRight {α : Type} (l : List α) (f : α → K) (z : K) : (l.map (fun a => f a * z)).sum = (l.map f).sum * z := by
  induction l with
  | nil => simp
  | cons a l ih => simp only [List.map_cons, List.sum_cons, ih]; ring

/-- **C78**: the RANDOM column is the point-wise mean of the curves of the randomly scored columns. -/
theorem C78_random_mean {curves : List (List K)} (hne : curves ≠ []) {n : Nat} (h : ∀ r ∈ curves, r.length = n) :
    randomColumn (curves.map (fun r => r.map some)) =
      ((List.range n).map (fun k => (curves.map (fun r => r.getD k 0)).sum / ((curves.length : Nat) : K))).map some := by
  cases hc : curves with
  | nil => exact absurd hc hne
  | cons r l =>
    rw [List.map_cons, randomColumn, ← List.map_cons (f := fun r : List K => r.map some), ← hc, List.length_map,
      h r (by rw [hc]; simp), List.map_map]
    apply List.map_congr_left
    intro k hk
    rw [randomAt_mean hne h (by simpa using hk)]
    rfl

/-- **C78**: random targeting has Qini score zero: the Qini scores of the randomly scored columns, relative to the RANDOM
column made from them, add up to 0. -/
theorem C78_random_zero {curves : List (List K)} (hne : curves ≠ []) {n : Nat} (h : ∀ r ∈ curves, r.length = n) :
    (curves.map (fun r => qiniScore (r.map some) (randomColumn (curves.map (fun r => r.map some))))).sum = 0 := by
  have hN : ((curves.length : Nat) : K) ≠ 0 := natCast_ne (by simpa using hne)
  rw [C78_random_mean hne h]
  have hR : ((List.range n).map (fun k => (curves.map (fun r => r.getD k 0)).sum / ((curves.length : Nat) : K))).sum =
      (curves.map List.sum).sum / ((curves.length : Nat) : K) := by
    have e : (fun k => (curves.map (fun r => r.getD k 0)).sum / ((curves.length : Nat) : K)) =
        fun k => (curves.map (fun r => r.getD k 0)).sum * (((curves.length : Nat) : K))⁻¹ := by
      funext k; rw [div_eq_mul_inv]
    rw [e, sumMulRight, ← sum_swap, div_eq_mul_inv]
    congr 2
    apply List.map_congr_left
    intro r hr
    rw [← h r hr, sum_getD_range]
  have hq : ∀ r ∈ curves, qiniScore (r.map some) (((List.range n).map (fun k => (curves.map (fun r => r.getD k 0)).sum / ((curves.length : Nat) : K))).map some)
      = (r.sum - (curves.map List.sum).sum / ((curves.length : Nat) : K)) * ((n : Nat) : K)⁻¹ := by
    intro r hr
    unfold qiniScore
    rw [colSum_some, colSum_some, hR, List.length_map, h r hr, div_eq_mul_inv]
  rw [List.map_congr_left hq, sumMulRight]
  have : (curves.map (fun r => r.sum - (curves.map List.sum).sum / ((curves.length : Nat) : K))).sum = 0 := by
    have g : ∀ (l : List (List K)) (z : K), (l.map (fun r => r.sum - z)).sum = (l.map List.sum).sum - (l.length : K) * z := by
      intro l z
      induction l with
      | nil => simp
      | cons r l ih => simp only [List.map_cons, List.sum_cons, ih, List.length_cons, Nat.cast_succ]; ring
    rw [g, mul_div_cancel₀ _ hN, sub_self]
  rw [this, zero_mul]

/-- **C78**: the normalised AUUC (the default) is the plain one divided by the absolute gain of treating everybody. -/
theorem C78_auuc_normalized {sort : List (Row S τ K) → List (Row S τ K)} {kind : Kind} {te : Bool} {rows : List (Row S τ K)}
    {curve : List (Option K)} {top : S} (htc : t ≠ c) (hs : Ranked rows (sort rows))
    (hz : stat kind te t c (rows.map person) ≠ 0)
    (h : getCurve sort kind te t c true rows = .ok (curve, top)) : ∃ raw : List (Option K),
    getCurve sort kind te t c false rows = .ok (raw, top) ∧ auuc curve = auuc raw / |stat kind te t c (rows.map person)| := by
  obtain ⟨raw, h1, rfl⟩ := C32_scale htc hs hz h
  refine ⟨raw, h1, ?_⟩
  have h2 : cumulate sort kind te t c rows = .ok (raw, top) := by
    unfold getCurve at h1
    split at h1
    · cases h1
    · rename_i p hp
      simp only [Bool.false_eq_true, if_false, Except.ok.injEq] at h1
      rw [hp, ← h1]
  obtain ⟨vals, -, rfl⟩ := C30_no_nan htc hs h2
  unfold auuc
  rw [List.map_map, List.length_map, List.length_map, colSum_some]
  have : (vals.map ((fun v : Option K => v.map (fun a => a / |stat kind te t c (rows.map person)|)) ∘ some)) =
      (vals.map (fun a => a * |stat kind te t c (rows.map person)|⁻¹)).map some := by
    simp [Function.comp_def, div_eq_mul_inv]
  rw [this, colSum_some, sumMulRight, div_eq_mul_inv, div_eq_mul_inv, div_eq_mul_inv, List.map_id']
  ring

/-! ## Non-vacuity -/

example : (getCurve exSort .gain false true false true exRows).toOption.map (fun p => auuc p.1) =
    some (((0 + 3/2 + 3 + 9/2 + 4) / 5) / 4) ∧ stat .gain false true false (exRows.map person) = 4 := by decide +kernel

example : (cumulate exSort .gain false true false exRows).toOption.map (fun p => auuc p.1) = some ((0 + 3/2 + 3 + 9/2 + 4) / 5) := by
  decide +kernel
example : List.Forall₂ (· ≤ ·) [(0 : ℚ), 1, 2] [0, 3, 2] ∧ [(0 : ℚ), 1, 2] ≠ [0, 3, 2] := by decide +kernel
example : ([[0, 1, 2], [0, 3, 2]] : List (List ℚ)).map (fun r => qiniScore (r.map some)
    (randomColumn ([[0, 1, 2], [0, 3, 2]].map (fun r => r.map some)))) = [-1/3, 1/3] := by decide +kernel

end YL.Props
