import Verif.Lib.Hedge

/-! The two models of a hedge. -/

set_option linter.unusedSectionVars false
set_option linter.unusedVariables false

namespace YL.Sign

open Function Spec

variable {α : Type} [DecidableEq α]
variable {V O : Finset α} {G : α → α → Prop} {X Y S F D Λ : Finset α} {up nx : α → α} {y0 : α}

/-- the model; with `cut` the variables of `S` ignore everything outside `S` -/
noncomputable def Hedge.model (H : Hedge V O G X Y S F D Λ up nx y0) (cut : Prop) : BayesNet (K := ℚ) V G (Two (α := α)) :=
  net V G (coef F D y0) (prodOf G Y S F D Λ up nx cut) (coef_nonneg F D y0) (coef_le F D y0)
    (fun i b => by rw [mem_prodOf]; unfold inT; split <;> exact .inl rfl)
    (fun i => by rw [mem_prodOf]; unfold inT; simp)
    (fun i b γ h => by
      rw [mem_prodOf] at h
      unfold inT at h
      split at h
      · rcases h with h | h | h
        · exact .inl (by rw [h])
        · exact .inl (by rw [h.1])
        · exact .inr (by have := (H.nxD γ.1 h.2.1 h.2.2.1).1; rw [h.2.2.2] at this; exact this)
      · rcases h with h | h | h
        · exact .inl (by rw [h])
        · exact .inr (by have := (H.upF γ.1 h.2.1 h.2.2.1).1; rw [h.2.2.2.1] at this; exact this)
        · exact .inr h.2.2.1)

/-- the first bits of a set of variables -/
def bits (A : Finset α) (b : Bool) : Finset (Bit α) := A ×ˢ {b}

theorem mem_bits (A : Finset α) (b : Bool) (γ : Bit α) : γ ∈ bits A b ↔ γ.1 ∈ A ∧ γ.2 = b := by
  unfold bits; rw [Finset.mem_product, Finset.mem_singleton]

/-- the number of values of the variables in `Z` -/
def size (Z : Finset α) : ℚ := sumOut (Ω := Two) Z (fun _ => 1) (fun _ => (false, false))

theorem sumOut_one (Z : Finset α) (v : α → Bool × Bool) : sumOut (Ω := Two) Z (fun _ => (1 : ℚ)) v = size Z := rfl

theorem size_pos (Z : Finset α) : 0 < size Z := by
  unfold size sumOut
  apply Finset.sum_pos (fun _ _ => one_pos)
  exact ⟨fun _ => (false, false), Finset.mem_univ _⟩

theorem sumOut_const (Z : Finset α) (a : ℚ) (v : α → Bool × Bool) : sumOut (Ω := Two) Z (fun _ => a) v = a * size Z := by
  have := sumOut_smul Z a (fun _ => 1) v
  simp only [mul_one] at this
  rw [this, sumOut_one]

section
variable (H : Hedge V O G X Y S F D Λ up nx y0)
include H

/-- the set whose parity is visible in the data -/
theorem Hedge.even_first (cut : Prop) (R : Finset α) (hR : (¬ cut ∧ R = F) ∨ (cut ∧ R = S)) (γ : Bit α) :
    Even (cnt (prodOf G Y S F D Λ up nx cut) (bits R false) γ + if γ ∈ bits S false then 1 else 0) := by
  classical
  have hRF : R ⊆ F := by rcases hR with ⟨-, rfl⟩ | ⟨-, rfl⟩; exacts [Finset.Subset.refl _, H.SF]
  have hB : ∀ β ∈ bits R false, (β.2 = false → β.1 ∈ F) ∧ (β.2 = true → β.1 ∈ D) := by
    intro β hβ
    rw [mem_bits] at hβ
    exact ⟨fun _ => hRF hβ.1, fun h => absurd (hβ.2.symm.trans h) (by decide)⟩
  obtain ⟨u, b⟩ := γ
  cases b
  · by_cases hu : u ∈ F
    · rw [H.cnt_F cut _ hu, show (if (u, false) ∈ bits S false then 1 else 0) = ind ((u, false) ∈ bits S false) from rfl]
      have h3 : ind ((u, true) ∈ bits R false ∧ u ∈ S) = 0 := by simp [ind, mem_bits]
      rw [h3, add_zero, ev3]
      simp only [mem_bits, and_true]
      rcases hR with ⟨hc, rfl⟩ | ⟨hc, rfl⟩
      · simp only [hu, hc, false_and, not_false_eq_true, and_true, true_iff]
        by_cases hS : u ∈ S
        · simp [hS]
        · simp [hS, (H.upF u hu hS).2]
      · simp only [hc, true_and]
        tauto
    · by_cases hl : u ∈ Λ
      · obtain ⟨a, b, hab, ha, hb, hG⟩ := H.two u hl
        rw [H.cnt_lat cut _ hl hab hG (by rw [mem_bits]; exact fun h => hu (hRF h.1)) (by rw [mem_bits]; simp)]
        rw [if_neg (by rw [mem_bits]; exact fun h => hu (H.SF h.1)), add_zero, ev2]
        simp only [mem_bits, and_true]
        rcases hR with ⟨hc, rfl⟩ | ⟨hc, rfl⟩
        · simp [ha, hb, hc]
        · by_cases h1 : a ∈ R <;> by_cases h2 : b ∈ R
          · simp only [h1, h2, hc, true_and]
          · simp only [h1, h2, hc, true_and, false_and, iff_false, not_not]
            exact ⟨b, h2, (hG b).2 (.inr rfl)⟩
          · simp only [h1, h2, hc, true_and, false_and, false_iff, not_not]
            exact ⟨a, h1, (hG a).2 (.inl rfl)⟩
          · simp only [h1, h2, false_and]
      · rw [H.cnt_other cut _ hB (fun _ => ⟨hu, hl⟩) (fun h => by cases h),
          if_neg (by rw [mem_bits]; exact fun h => hu (H.SF h.1))]
        simp
  · by_cases hu : u ∈ D
    · rw [H.cnt_D cut _ hu, if_neg (by rw [mem_bits]; simp)]
      simp [ind, mem_bits]
    · rw [H.cnt_other cut _ hB (fun h => by cases h) (fun _ => hu), if_neg (by rw [mem_bits]; simp)]
      simp

/-- the sets of first bits that survive summing over the latent variables -/
theorem Hedge.survive (cut : Prop) (R : Finset α) (hR : (¬ cut ∧ R = F) ∨ (cut ∧ R = S)) (B : Finset α) (hBF : B ⊆ F)
    (h : ∀ l ∈ Λ, Even (cnt (prodOf G Y S F D Λ up nx cut) (bits B false) (l, false))) : B = ∅ ∨ B = R := by
  classical
  have hl : ∀ l ∈ Λ, ∃ a b, (∀ v, G l v ↔ v = a ∨ v = b) ∧ a ∈ F ∧ b ∈ F ∧
      ((a ∈ B ∧ ¬ (cut ∧ a ∈ S ∧ ∃ w, w ∉ S ∧ G l w)) ↔ (b ∈ B ∧ ¬ (cut ∧ b ∈ S ∧ ∃ w, w ∉ S ∧ G l w))) := by
    intro l hl
    obtain ⟨a, b, hab, ha, hb, hG⟩ := H.two l hl
    refine ⟨a, b, hG, ha, hb, ?_⟩
    have := h l hl
    rw [H.cnt_lat cut _ hl hab hG (by rw [mem_bits]; exact fun h => H.lat_notF hl (hBF h.1)) (by rw [mem_bits]; simp), ev2] at this
    simpa only [mem_bits, and_true] using this
  rcases Finset.eq_empty_or_nonempty B with h0 | hne
  · exact .inl h0
  rcases hR with ⟨hc, rfl⟩ | ⟨hc, rfl⟩
  · refine .inr (H.connF B hBF hne ?_)
    intro l hl' a' b' ga gb haB
    obtain ⟨a, b, hG, -, -, hiff⟩ := hl l hl'
    simp only [hc, false_and, not_false_eq_true, and_true] at hiff
    rcases (hG a').1 ga with rfl | rfl <;> rcases (hG b').1 gb with rfl | rfl
    · exact haB
    · exact hiff.1 haB
    · exact hiff.2 haB
    · exact haB
  · -- B is inside S
    have hout : F.filter (fun v => v ∈ R ∨ v ∉ B) = F := by
      refine H.connF _ (Finset.filter_subset _ _) ⟨y0, Finset.mem_filter.2 ⟨H.SF H.y0S, .inl H.y0S⟩⟩ ?_
      intro l hl' a' b' ga gb haB
      obtain ⟨a, b, hG, haF, hbF, hiff⟩ := hl l hl'
      simp only [hc, true_and] at hiff
      rw [Finset.mem_filter] at haB ⊢
      have step : ∀ p q, G l p → G l q → p ∈ F → q ∈ F →
          ((p ∈ B ∧ ¬ (p ∈ R ∧ ∃ w, w ∉ R ∧ G l w)) ↔ (q ∈ B ∧ ¬ (q ∈ R ∧ ∃ w, w ∉ R ∧ G l w))) →
          (p ∈ R ∨ p ∉ B) → (q ∈ F ∧ (q ∈ R ∨ q ∉ B)) := by
        intro p q gp gq hp hq hi hpB
        refine ⟨hq, ?_⟩
        by_contra hcon
        push Not at hcon
        have := hi.2 ⟨hcon.2, fun h => hcon.1 h.1⟩
        rcases hpB with h1 | h1
        · exact this.2 ⟨h1, q, hcon.1, gq⟩
        · exact h1 this.1
      rcases (hG a').1 ga with rfl | rfl <;> rcases (hG b').1 gb with rfl | rfl
      · exact haB
      · exact step _ _ ga gb haF hbF hiff haB.2
      · exact step _ _ ga gb hbF haF hiff.symm haB.2
      · exact haB
    have hBS : B ⊆ R := by
      intro v hv
      have : v ∈ F.filter (fun v => v ∈ R ∨ v ∉ B) := by rw [hout]; exact hBF hv
      exact (Finset.mem_filter.1 this).2.resolve_right (fun h => h hv)
    refine .inr (H.connS B hBS hne ?_)
    intro l hl' a' b' ga gb haS hbS haB
    obtain ⟨a, b, hG, -, -, hiff⟩ := hl l hl'
    have hno : ∀ p q, (∀ v, G l v ↔ v = p ∨ v = q) → p ∈ R → q ∈ R → ¬ ∃ w, w ∉ R ∧ G l w := by
      rintro p q h1 h2 h3 ⟨w, h4, h5⟩
      rcases (h1 w).1 h5 with rfl | rfl
      · exact h4 h2
      · exact h4 h3
    simp only [hc, true_and] at hiff
    rcases (hG a').1 ga with rfl | rfl <;> rcases (hG b').1 gb with rfl | rfl
    · exact haB
    · have := hno _ _ hG haS hbS
      simp only [this, and_false, not_false_eq_true, and_true] at hiff
      exact hiff.1 haB
    · have := hno _ _ hG hbS haS
      simp only [this, and_false, not_false_eq_true, and_true] at hiff
      exact hiff.2 haB
    · exact haB

/-- the distribution of the observed first bits -/
theorem Hedge.first (cut : Prop) (v : α → Bool × Bool) :
    sumOut (Ω := Two) (V \ O) (fun v => ∏ i ∈ V, half (coef F D y0) (prodOf G Y S F D Λ up nx cut) (i, false) v) v =
      (1 / 2) ^ V.card * (size (V \ O) * (1 + 1 / 2 * mon (bits S false) v)) := by
  classical
  let R := if cut then S else F
  have hR : (¬ cut ∧ R = F) ∨ (cut ∧ R = S) := by
    by_cases h : cut
    · exact .inr ⟨h, if_pos h⟩
    · exact .inl ⟨h, if_neg h⟩
  have hRF : R ⊆ F := by
    rcases hR with ⟨-, h⟩ | ⟨-, h⟩ <;> rw [h]
    exact H.SF
  have hSR : S ⊆ R := by
    rcases hR with ⟨-, h⟩ | ⟨-, h⟩ <;> rw [h]
    exact H.SF
  have hprod : ∀ v, ∏ i ∈ V, half (coef F D y0) (prodOf G Y S F D Λ up nx cut) (i, false) v =
      (1 / 2) ^ V.card * ∑ B ∈ V.powerset, (∏ i ∈ B, coef F D y0 (i, false)) *
        ∏ i ∈ B, mon (prodOf G Y S F D Λ up nx cut (i, false)) v := by
    intro v
    unfold half
    rw [Finset.prod_congr rfl (fun i _ => show (1 + coef F D y0 (i, false) * mon (prodOf G Y S F D Λ up nx cut (i, false)) v) / 2
      = 1 / 2 * (1 + coef F D y0 (i, false) * mon (prodOf G Y S F D Λ up nx cut (i, false)) v) by ring),
      Finset.prod_mul_distrib, Finset.prod_const, Finset.prod_one_add]
    congr 1
    exact Finset.sum_congr rfl (fun B _ => Finset.prod_mul_distrib)
  have hbits : ∀ (B : Finset α) v, ∏ i ∈ B, mon (prodOf G Y S F D Λ up nx cut (i, false)) v =
      ∏ β ∈ bits B false, mon (prodOf G Y S F D Λ up nx cut β) v := by
    intro B v
    unfold bits
    rw [Finset.prod_product]
    exact Finset.prod_congr rfl (fun i _ => by rw [Finset.prod_singleton])
  simp only [hprod]
  rw [sumOut_smul, sumOut_sum]
  congr 1
  simp only [sumOut_smul]
  have hne : (∅ : Finset α) ≠ R := fun e => by have := hSR H.y0S; rw [← e] at this; simp at this
  have hsub : ({∅, R} : Finset (Finset α)) ⊆ V.powerset := by
    intro B hB
    rw [Finset.mem_insert, Finset.mem_singleton] at hB
    rw [Finset.mem_powerset]
    rcases hB with rfl | rfl
    · exact Finset.empty_subset _
    · exact hRF.trans (H.FO.trans H.OV)
  rw [← Finset.sum_subset hsub, Finset.sum_pair hne]
  · have hmonR : ∀ v, ∏ i ∈ R, mon (prodOf G Y S F D Λ up nx cut (i, false)) v = mon (bits S false) v := by
      intro v
      rw [hbits]
      have := prod_even (prodOf G Y S F D Λ up nx cut) (bits R false) (bits S false) (H.even_first cut R hR) v
      have h2 := mon_sq (bits S false) v
      calc _ = (∏ β ∈ bits R false, mon (prodOf G Y S F D Λ up nx cut β) v) * (mon (bits S false) v * mon (bits S false) v) := by
              rw [h2, mul_one]
        _ = ((∏ β ∈ bits R false, mon (prodOf G Y S F D Λ up nx cut β) v) * mon (bits S false) v) * mon (bits S false) v := by ring
        _ = _ := by rw [this, one_mul]
    have hcoef : ∏ i ∈ R, coef F D y0 (i, false) = 1 / 2 := by
      rw [← Finset.mul_prod_erase R _ (hSR H.y0S), Finset.prod_eq_one, mul_one]
      · unfold coef
        simp [H.SF H.y0S]
      · intro i hi
        rw [Finset.mem_erase] at hi
        unfold coef
        simp [hRF hi.2, hi.1]
    simp only [Finset.prod_empty, hmonR, hcoef, one_mul]
    have hS : sumOut (Ω := Two) (V \ O) (fun v => mon (bits S false) v) v = mon (bits S false) v * size (V \ O) := by
      rw [← sumOut_const (V \ O) _ v]
      unfold sumOut
      refine Finset.sum_congr rfl (fun w _ => ?_)
      apply mon_congr
      intro γ hγ
      rw [mem_bits] at hγ
      unfold updateFinset
      rw [dif_neg (fun h => (Finset.mem_sdiff.1 h).2 (H.FO (H.SF hγ.1)))]
    rw [hS, sumOut_one]
    ring
  · intro B hBV hB
    rw [Finset.mem_insert, Finset.mem_singleton] at hB
    by_cases hBF : B ⊆ F
    · have hodd : ∃ l ∈ Λ, ¬ Even (cnt (prodOf G Y S F D Λ up nx cut) (bits B false) (l, false)) := by
        by_contra hcon
        push Not at hcon
        exact hB (H.survive cut R hR B hBF hcon)
      obtain ⟨l, hl, ho⟩ := hodd
      have hz := sum_odd (prodOf G Y S F D Λ up nx cut) (bits B false) ∅ (V \ O) (l, false)
        (Finset.mem_sdiff.2 (H.lat l hl)) (by simpa using ho) v
      simp only [hbits]
      simp only [mon, Finset.prod_empty, mul_one] at hz
      simp only [mon]
      rw [hz, mul_zero]
    · obtain ⟨i, hi, hiF⟩ := Finset.not_subset.1 hBF
      have h0 : coef F D y0 (i, false) = 0 := by unfold coef; simp [hiF]
      rw [Finset.prod_eq_zero (f := fun i => coef F D y0 (i, false)) hi h0, zero_mul]

/-- both models have the same distribution of the observed variables -/
theorem Hedge.observed (cut : Prop) (v : α → Bool × Bool) :
    (H.model cut).P O v = (∏ i ∈ V, half (coef F D y0) (prodOf G Y S F D Λ up nx False) (i, true) v) *
      ((1 / 2) ^ V.card * (size (V \ O) * (1 + 1 / 2 * mon (bits S false) v))) := by
  rw [← H.first cut v]
  unfold BayesNet.P
  show sumOut (V \ O) (fun v => ∏ i ∈ V, ker (coef F D y0) (prodOf G Y S F D Λ up nx cut) i v) v = _
  simp only [prod_ker]
  unfold sumOut
  rw [Finset.mul_sum]
  refine Finset.sum_congr rfl (fun w _ => ?_)
  dsimp only
  rw [mul_comm]
  congr 1
  refine Finset.prod_congr rfl (fun i _ => ?_)
  have hsame : prodOf G Y S F D Λ up nx cut (i, true) = prodOf G Y S F D Λ up nx False (i, true) := by
    ext γ
    rw [mem_prodOf, mem_prodOf]
    unfold inT
    simp
  unfold half
  rw [hsame]
  by_cases hi : i ∈ D
  · rw [mon_congr (w := v)]
    intro γ hγ
    rw [mem_prodOf] at hγ
    unfold inT at hγ
    simp only [if_true] at hγ
    have : γ.1 ∈ O := by
      rcases hγ with h | h | h
      · rw [h]; exact H.DO hi
      · rw [h.1]; exact H.DO hi
      · exact H.DO h.2.1
    unfold updateFinset
    rw [dif_neg (fun h => (Finset.mem_sdiff.1 h).2 this)]
  · have : coef F D y0 (i, true) = 0 := by unfold coef; simp [hi]
    rw [this, zero_mul, zero_mul]

theorem Hedge.observed_pos (cut : Prop) (v : α → Bool × Bool) : 0 < (H.model cut).P O v := by
  rw [H.observed cut v]
  refine mul_pos (Finset.prod_pos (fun i _ => half_pos _ _ _ (coef_nonneg F D y0 _) (coef_true F D y0 i) v)) ?_
  refine mul_pos (by positivity) (mul_pos (size_pos _) ?_)
  rcases mon_abs (bits S false) v with h | h <;> rw [h] <;> norm_num

/-! ### The effect -/

/-- the parity of the messages at the outcomes, under the intervention -/
theorem Hedge.functional (cut : Prop) (v : α → Bool × Bool) :
    sumOut (Ω := Two) Y (fun v => (H.model cut).Pdo X Y v * mon (bits (Y ∩ D) true) v) v =
      (1 / 4) ^ (V \ X).card * ∑ B ∈ ((V \ X) ×ˢ (Finset.univ : Finset Bool)).powerset, (∏ β ∈ B, coef F D y0 β) *
        sumOut (Ω := Two) (V \ X) (fun v => (∏ β ∈ B, mon (prodOf G Y S F D Λ up nx cut β) v) * mon (bits (Y ∩ D) true) v) v := by
  have hd : Disjoint Y (V \ (X ∪ Y)) := by
    rw [Finset.disjoint_left]; intro i; simp; tauto
  have hu : V \ X = Y ∪ (V \ (X ∪ Y)) := by
    ext i
    have a1 := @H.YV i
    have a2 : i ∈ Y → i ∉ X := fun h => Finset.disjoint_left.1 H.YX h
    simp only [Finset.mem_sdiff, Finset.mem_union]; tauto
  have hmon : DependsOn (mon (α := α) (bits (Y ∩ D) true)) (Y : Set α) := by
    intro v w h
    apply mon_congr
    intro γ hγ
    rw [mem_bits] at hγ
    exact h _ (Finset.mem_inter.1 hγ.1).1
  have h1 : sumOut (Ω := Two) Y (fun v => (H.model cut).Pdo X Y v * mon (bits (Y ∩ D) true) v) v =
      sumOut (Ω := Two) (V \ X) (fun v => (∏ i ∈ V \ X, ker (coef F D y0) (prodOf G Y S F D Λ up nx cut) i v) *
        mon (bits (Y ∩ D) true) v) v := by
    conv_rhs => rw [hu, sumOut_union hd]
    unfold sumOut
    refine Finset.sum_congr rfl (fun w _ => ?_)
    unfold BayesNet.Pdo sumOut
    dsimp only
    rw [Finset.sum_mul]
    refine Finset.sum_congr rfl (fun w' _ => ?_)
    congr 1
    · rw [← hu]; rfl
    · apply hmon
      intro i hi
      have : i ∉ V \ (X ∪ Y) := by
        simp only [Finset.mem_sdiff, Finset.mem_union, not_and, not_not]
        exact fun _ => .inr hi
      conv_rhs => unfold updateFinset
      rw [dif_neg this]
      rfl
  rw [h1]
  simp only [prod_ker', expand]
  have h2 : ∀ v, ((1 / 4 : ℚ) ^ (V \ X).card * ∑ B ∈ ((V \ X) ×ˢ (Finset.univ : Finset Bool)).powerset,
      (∏ β ∈ B, coef F D y0 β) * ∏ β ∈ B, mon (prodOf G Y S F D Λ up nx cut β) v) * mon (bits (Y ∩ D) true) v =
      (1 / 4 : ℚ) ^ (V \ X).card * ∑ B ∈ ((V \ X) ×ˢ (Finset.univ : Finset Bool)).powerset,
      (∏ β ∈ B, coef F D y0 β) * ((∏ β ∈ B, mon (prodOf G Y S F D Λ up nx cut β) v) * mon (bits (Y ∩ D) true) v) := by
    intro v
    rw [mul_assoc, Finset.sum_mul]
    congr 1
    exact Finset.sum_congr rfl (fun B _ => by ring)
  simp only [h2]
  rw [sumOut_smul, sumOut_sum]
  simp only [sumOut_smul]

/-- what a set of bits that survives the summation looks like -/
theorem Hedge.shape (cut : Prop) (B : Finset (Bit α)) (hBX : ∀ β ∈ B, β.1 ∉ X)
    (hB : ∀ β ∈ B, (β.2 = false → β.1 ∈ F) ∧ (β.2 = true → β.1 ∈ D))
    (h : ∀ γ : Bit α, γ.1 ∈ V \ X → Even (cnt (prodOf G Y S F D Λ up nx cut) B γ + if γ ∈ bits (Y ∩ D) true then 1 else 0)) :
    (∀ u ∈ D, (u, true) ∈ B) ∧ (∀ u ∈ S, (u, false) ∈ B) ∧
      (∀ u ∈ F, u ∉ S → u ∉ X → ((u, false) ∈ B ↔ (up u, false) ∈ B ∧ ¬ (cut ∧ up u ∈ S))) := by
  classical
  have hVX : ∀ {u}, u ∈ O → u ∉ X → u ∈ V \ X := fun h1 h2 => Finset.mem_sdiff.2 ⟨H.OV h1, h2⟩
  have hDX : ∀ u ∈ D, u ∉ X := fun u hu => Finset.disjoint_left.1 H.DX hu
  have hmsg : ∀ u ∈ D, (u, true) ∈ B := by
    by_contra hcon
    push Not at hcon
    obtain ⟨u0, hu0, hb0⟩ := hcon
    obtain ⟨u, hu, hsink⟩ := exists_sink H.acyclic (D.filter (fun u => (u, true) ∉ B)) ⟨u0, Finset.mem_filter.2 ⟨hu0, hb0⟩⟩
    rw [Finset.mem_filter] at hu
    have he := h (u, true) (hVX (H.DO hu.1) (hDX u hu.1))
    rw [H.cnt_D cut B hu.1, show (if (u, true) ∈ bits (Y ∩ D) true then 1 else 0) = ind ((u, true) ∈ bits (Y ∩ D) true) from rfl, ev3] at he
    simp only [mem_bits, and_true, Finset.mem_inter, hu.1, hu.2, false_iff, not_not] at he
    by_cases hY : u ∈ Y
    · simp [hY] at he
    · have hnx := H.nxD u hu.1 hY
      have : (nx u, true) ∉ B := by simpa [hY] using he
      exact hsink (nx u) (Finset.mem_filter.2 ⟨hnx.2, this⟩) hnx.1
  refine ⟨hmsg, ?_⟩
  have hF : ∀ u ∈ F, u ∉ X → ((u, false) ∈ B ↔ ¬ (((up u, false) ∈ B ∧ (u ∉ S ∧ ¬ (cut ∧ up u ∈ S))) ↔ u ∈ S)) := by
    intro u hu hX
    have he := h (u, false) (hVX (H.FO hu) hX)
    rw [H.cnt_F cut B hu, if_neg (by rw [mem_bits]; simp), add_zero, ev3] at he
    by_cases hS : u ∈ S
    · simpa [hS, hmsg u (H.SD hS)] using he
    · simpa [hS] using he
  refine ⟨fun u hu => ?_, fun u hu hS hX => ?_⟩
  · rw [hF u (H.SF hu) (hDX u (H.SD hu))]
    simp [hu]
  · rw [hF u hu hX]
    simp [hS]

theorem Hedge.zero_of_bad (cut : Prop) (B : Finset (Bit α)) (hBV : B ⊆ (V \ X) ×ˢ Finset.univ)
    (hbad : (∀ β ∈ B, (β.2 = false → β.1 ∈ F) ∧ (β.2 = true → β.1 ∈ D)) →
      (∀ γ : Bit α, γ.1 ∈ V \ X → Even (cnt (prodOf G Y S F D Λ up nx cut) B γ + if γ ∈ bits (Y ∩ D) true then 1 else 0)) → False)
    (v : α → Bool × Bool) :
    (∏ β ∈ B, coef F D y0 β) *
        sumOut (Ω := Two) (V \ X) (fun v => (∏ β ∈ B, mon (prodOf G Y S F D Λ up nx cut β) v) * mon (bits (Y ∩ D) true) v) v = 0 := by
  by_cases hB : ∀ β ∈ B, (β.2 = false → β.1 ∈ F) ∧ (β.2 = true → β.1 ∈ D)
  · have : ∃ γ : Bit α, γ.1 ∈ V \ X ∧
        ¬ Even (cnt (prodOf G Y S F D Λ up nx cut) B γ + if γ ∈ bits (Y ∩ D) true then 1 else 0) := by
      by_contra hcon
      push Not at hcon
      exact hbad hB hcon
    obtain ⟨γ, h1, h2⟩ := this
    rw [sum_odd _ B _ _ γ h1 (Nat.not_even_iff_odd.1 h2), mul_zero]
  · push Not at hB
    obtain ⟨β, hβ, h⟩ := hB
    have h0 : coef F D y0 β = 0 := by
      obtain ⟨i, b⟩ := β
      unfold coef
      cases b
      · by_cases hi : i ∈ F
        · have := h (fun _ => hi)
          simp at this
        · simp [hi]
      · have := h (fun e => by cases e)
        simp [this.2]
    rw [Finset.prod_eq_zero hβ h0, zero_mul]

/-- in the first model the parity of the messages is balanced -/
theorem Hedge.functional_one (v : α → Bool × Bool) :
    sumOut (Ω := Two) Y (fun v => (H.model False).Pdo X Y v * mon (bits (Y ∩ D) true) v) v = 0 := by
  classical
  rw [H.functional False v, Finset.sum_eq_zero, mul_zero]
  intro B hBV
  rw [Finset.mem_powerset] at hBV
  have hBX : ∀ β ∈ B, β.1 ∉ X := fun β hβ => (Finset.mem_sdiff.1 (Finset.mem_product.1 (hBV hβ)).1).2
  apply H.zero_of_bad False B hBV
  intro hB hev
  obtain ⟨h1, h2, h3⟩ := H.shape False B hBX hB hev
  have hcl : F.filter (fun u => (u, false) ∈ B) = F := by
    refine H.connF _ (Finset.filter_subset _ _) ⟨y0, Finset.mem_filter.2 ⟨H.SF H.y0S, h2 y0 H.y0S⟩⟩ ?_
    intro l hl a' b' ga gb haB
    obtain ⟨a, b, hab, ha, hb, hG⟩ := H.two l hl
    have hlV := H.lat l hl
    have he := hev (l, false) (Finset.mem_sdiff.2 ⟨hlV.1, fun h => hlV.2 (H.XO h)⟩)
    rw [H.cnt_lat False B hl hab hG (fun h => H.lat_notF hl ((hB _ h).1 rfl)) (fun h => H.lat_notD hl ((hB _ h).2 rfl)),
      if_neg (by rw [mem_bits]; simp), add_zero, ev2] at he
    simp only [false_and, not_false_eq_true, and_true] at he
    rw [Finset.mem_filter] at haB ⊢
    rcases (hG a').1 ga with rfl | rfl <;> rcases (hG b').1 gb with rfl | rfl
    · exact haB
    · exact ⟨hb, he.1 haB.2⟩
    · exact ⟨ha, he.2 haB.2⟩
    · exact haB
  obtain ⟨x, hxF, hxX⟩ := H.hit
  rw [← hcl, Finset.mem_filter] at hxF
  exact hBX _ hxF.2 hxX

/-- in the second model it is not -/
theorem Hedge.functional_two (v : α → Bool × Bool) :
    sumOut (Ω := Two) Y (fun v => (H.model True).Pdo X Y v * mon (bits (Y ∩ D) true) v) v ≠ 0 := by
  classical
  have hDX : ∀ u ∈ D, u ∉ X := fun u hu => Finset.disjoint_left.1 H.DX hu
  let B0 : Finset (Bit α) := bits S false ∪ bits D true
  have hmem : ∀ u b, (u, b) ∈ B0 ↔ (b = false ∧ u ∈ S) ∨ (b = true ∧ u ∈ D) := by
    intro u b
    simp only [B0, Finset.mem_union, mem_bits]
    tauto
  have hB0 : B0 ∈ ((V \ X) ×ˢ (Finset.univ : Finset Bool)).powerset := by
    rw [Finset.mem_powerset]
    rintro ⟨u, b⟩ hβ
    rw [hmem] at hβ
    refine Finset.mem_product.2 ⟨Finset.mem_sdiff.2 ?_, Finset.mem_univ _⟩
    rcases hβ with ⟨-, h⟩ | ⟨-, h⟩
    · exact ⟨H.OV (H.FO (H.SF h)), hDX u (H.SD h)⟩
    · exact ⟨H.OV (H.DO h), hDX u h⟩
  rw [H.functional True v, Finset.sum_eq_single_of_mem B0 hB0]
  · have heven : ∀ γ, Even (cnt (prodOf G Y S F D Λ up nx True) B0 γ + if γ ∈ bits (Y ∩ D) true then 1 else 0) := by
      rintro ⟨u, b⟩
      have hBok : ∀ β ∈ B0, (β.2 = false → β.1 ∈ F) ∧ (β.2 = true → β.1 ∈ D) := by
        rintro ⟨w, d⟩ hβ
        rw [hmem] at hβ
        rcases hβ with ⟨rfl, h⟩ | ⟨rfl, h⟩
        · exact ⟨fun _ => H.SF h, fun e => (by cases e)⟩
        · exact ⟨fun e => (by cases e), fun _ => h⟩
      cases b
      · rw [if_neg (by rw [mem_bits]; simp), add_zero]
        by_cases hu : u ∈ F
        · rw [H.cnt_F True _ hu, ev3]
          simp only [hmem, true_and, Bool.false_eq_true, Bool.true_eq_false, reduceCtorEq, false_and, or_false, false_or]
          have := @H.SD u
          tauto
        · by_cases hl : u ∈ Λ
          · obtain ⟨a, b, hab, ha, hb, hG⟩ := H.two u hl
            rw [H.cnt_lat True _ hl hab hG (fun h => H.lat_notF hl ((hBok _ h).1 rfl)) (fun h => H.lat_notD hl ((hBok _ h).2 rfl)), ev2]
            simp only [hmem, true_and, reduceCtorEq, false_and, or_false]
            by_cases h1 : a ∈ S <;> by_cases h2 : b ∈ S
            · simp only [h1, h2, true_and]
            · simp only [h1, h2, true_and, false_and, iff_false, not_not]
              exact ⟨b, h2, (hG b).2 (.inr rfl)⟩
            · simp only [h1, h2, true_and, false_and, false_iff, not_not]
              exact ⟨a, h1, (hG a).2 (.inl rfl)⟩
            · simp only [h1, h2, false_and]
          · rw [H.cnt_other True _ hBok (fun _ => ⟨hu, hl⟩) (fun h => by cases h)]
            simp
      · by_cases hu : u ∈ D
        · rw [H.cnt_D True _ hu, show (if (u, true) ∈ bits (Y ∩ D) true then 1 else 0) = ind ((u, true) ∈ bits (Y ∩ D) true) from rfl, ev3]
          simp only [hmem, mem_bits, true_and, reduceCtorEq, false_and, false_or, and_true, Finset.mem_inter, hu]
          by_cases hY : u ∈ Y
          · simp [hY]
          · simp [hY, (H.nxD u hu hY).2]
        · rw [H.cnt_other True _ hBok (fun h => by cases h) (fun _ => hu), if_neg]
          · simp
          · rw [mem_bits]
            exact fun h => hu (Finset.mem_inter.1 h.1).2
    simp only [prod_even _ _ _ heven, sumOut_one]
    refine mul_ne_zero (by positivity) (mul_ne_zero ?_ (size_pos _).ne')
    rw [Finset.prod_ne_zero_iff]
    rintro ⟨u, b⟩ hβ
    rw [hmem] at hβ
    unfold coef
    rcases hβ with ⟨rfl, h⟩ | ⟨rfl, h⟩
    · simp only [Bool.false_eq_true, if_false, if_pos (H.SF h)]
      split_ifs <;> norm_num
    · simp only [if_true, if_pos h]
      norm_num
  · intro B hBV hne
    rw [Finset.mem_powerset] at hBV
    have hBX : ∀ β ∈ B, β.1 ∉ X := fun β hβ => (Finset.mem_sdiff.1 (Finset.mem_product.1 (hBV hβ)).1).2
    apply H.zero_of_bad True B hBV
    intro hB hev
    obtain ⟨h1, h2, h3⟩ := H.shape True B hBX hB hev
    have hout : ∀ u ∈ F, u ∉ S → (u, false) ∉ B := by
      by_contra hcon
      push Not at hcon
      obtain ⟨u0, a1, a2, a3⟩ := hcon
      obtain ⟨u, hu, hsink⟩ := exists_sink H.acyclic (F.filter (fun u => u ∉ S ∧ (u, false) ∈ B))
        ⟨u0, Finset.mem_filter.2 ⟨a1, a2, a3⟩⟩
      rw [Finset.mem_filter] at hu
      obtain ⟨b1, b2⟩ := (h3 u hu.1 hu.2.1 (hBX _ hu.2.2)).1 hu.2.2
      have hup := H.upF u hu.1 hu.2.1
      exact hsink (up u) (Finset.mem_filter.2 ⟨hup.2, fun h => b2 ⟨trivial, h⟩, b1⟩) hup.1
    apply hne
    ext ⟨u, b⟩
    rw [hmem]
    cases b
    · simp only [true_and, reduceCtorEq, false_and, or_false]
      refine ⟨fun h => ?_, h2 u⟩
      by_contra hS
      exact hout u ((hB _ h).1 rfl) hS h
    · simp only [true_and, reduceCtorEq, false_and, false_or]
      exact ⟨fun h => (hB _ h).2 rfl, h1 u⟩

/-- a hedge makes the effect unidentifiable -/
theorem Hedge.not_identifiable : ∃ M₁ M₂ : BayesNet (K := ℚ) V G (fun _ => Bool × Bool),
    (∀ v, 0 < M₁.P O v) ∧ (∀ v, M₁.P O v = M₂.P O v) ∧ ∃ v, M₁.Pdo X Y v ≠ M₂.Pdo X Y v := by
  refine ⟨H.model False, H.model True, H.observed_pos False, fun v => ?_, ?_⟩
  · rw [H.observed False v, H.observed True v]
  · by_contra hcon
    push Not at hcon
    have h1 := H.functional_one (fun _ => (false, false))
    have h2 := H.functional_two (fun _ => (false, false))
    simp only [← hcon] at h2
    exact h2 h1

end

end YL.Sign
