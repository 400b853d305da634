import Mathlib.Algebra.BigOperators.Fin
import Mathlib.Tactic.FieldSimp
import Mathlib.Tactic.Positivity
import Verif.Lib.Sign

/-! Hedges: two models of the same diagram with the same distribution of the observed variables and different effects. -/

set_option linter.unusedSectionVars false
set_option linter.unusedVariables false

namespace YL.Sign

open Function Spec

variable {α : Type} [DecidableEq α]

/-- one if the statement holds, else zero -/
def ind (p : Prop) [Decidable p] : ℕ := if p then 1 else 0

theorem ev1 (p : Prop) [Decidable p] : Even (ind p) ↔ ¬ p := by unfold ind; by_cases p <;> simp [*]

theorem ev2 (p q : Prop) [Decidable p] [Decidable q] : Even (ind p + ind q) ↔ (p ↔ q) := by
  unfold ind; by_cases p <;> by_cases q <;> simp [*]

theorem ev3 (p q r : Prop) [Decidable p] [Decidable q] [Decidable r] : Even (ind p + ind q + ind r) ↔ (p ↔ ¬ (q ↔ r)) := by
  unfold ind; by_cases p <;> by_cases q <;> by_cases r <;> simp [*] <;> decide

theorem ind_or (p q : Prop) [Decidable p] [Decidable q] (h : ¬ (p ∧ q)) : ind (p ∨ q) = ind p + ind q := by
  unfold ind; by_cases p <;> by_cases q <;> simp_all

theorem sum_ind_eq (B : Finset (Bit α)) (p : Prop) [Decidable p] (δ : Bit α) :
    ∑ β ∈ B, ind (β = δ ∧ p) = ind (δ ∈ B ∧ p) := by
  unfold ind
  by_cases hp : p
  · simp only [hp, and_true]
    rw [Finset.sum_ite_eq']
  · simp [hp]

/-- the data of a hedge: an arc-connected set `F` of observed variables that meets the treatments, an arc-connected subset `S`
of it, a child inside `F` for every other variable of `F`, and a way down from `S` to the outcomes that avoids the treatments -/
structure Hedge (V O : Finset α) (G : α → α → Prop) (X Y S F D Λ : Finset α) (up nx : α → α) (y0 : α) : Prop where
  acyclic : Acyclic G
  OV : O ⊆ V
  FO : F ⊆ O
  SF : S ⊆ F
  y0S : y0 ∈ S
  lat : ∀ l ∈ Λ, l ∈ V ∧ l ∉ O
  two : ∀ l ∈ Λ, ∃ a b, a ≠ b ∧ a ∈ F ∧ b ∈ F ∧ ∀ v, G l v ↔ v = a ∨ v = b
  connF : ∀ B ⊆ F, B.Nonempty → (∀ l ∈ Λ, ∀ a b, G l a → G l b → a ∈ B → b ∈ B) → B = F
  connS : ∀ B ⊆ S, B.Nonempty → (∀ l ∈ Λ, ∀ a b, G l a → G l b → a ∈ S → b ∈ S → a ∈ B → b ∈ B) → B = S
  upF : ∀ v ∈ F, v ∉ S → G v (up v) ∧ up v ∈ F
  SD : S ⊆ D
  DO : D ⊆ O
  nxD : ∀ v ∈ D, v ∉ Y → G v (nx v) ∧ nx v ∈ D
  DX : Disjoint D X
  XO : X ⊆ O
  YV : Y ⊆ V
  YX : Disjoint Y X
  hit : ∃ x ∈ F, x ∈ X

variable {V O : Finset α} {G : α → α → Prop} {X Y S F D Λ : Finset α} {up nx : α → α} {y0 : α}

open Classical in
/-- whether `γ` is in the product of the bit `β`; with `cut` the variables of `S` ignore everything outside `S` -/
def inT (G : α → α → Prop) (Y S F D Λ : Finset α) (up nx : α → α) (cut : Prop) (β γ : Bit α) : Prop :=
  if β.2 then γ = β ∨ (γ = (β.1, false) ∧ β.1 ∈ S) ∨ (γ.2 = true ∧ γ.1 ∈ D ∧ γ.1 ∉ Y ∧ nx γ.1 = β.1)
  else γ = β ∨ (γ.2 = false ∧ γ.1 ∈ F ∧ γ.1 ∉ S ∧ up γ.1 = β.1 ∧ ¬ (cut ∧ β.1 ∈ S)) ∨
    (γ.2 = false ∧ γ.1 ∈ Λ ∧ G γ.1 β.1 ∧ ¬ (cut ∧ β.1 ∈ S ∧ ∃ w, w ∉ S ∧ G γ.1 w))

open Classical in
/-- the product of the bit `β` -/
noncomputable def prodOf (G : α → α → Prop) (Y S F D Λ : Finset α) (up nx : α → α) (cut : Prop) (β : Bit α) : Finset (Bit α) :=
  (insert β (insert (β.1, false) ((F ∪ D ∪ Λ) ×ˢ Finset.univ))).filter (inT G Y S F D Λ up nx cut β)

theorem mem_prodOf (cut : Prop) (β γ : Bit α) :
    γ ∈ prodOf G Y S F D Λ up nx cut β ↔ inT G Y S F D Λ up nx cut β γ := by
  unfold prodOf
  classical
  rw [Finset.mem_filter]
  refine ⟨fun h => h.2, fun h => ⟨?_, h⟩⟩
  unfold inT at h
  simp only [Finset.mem_insert, Finset.mem_product, Finset.mem_union, Finset.mem_univ, and_true]
  split at h
  · rcases h with h | h | h
    · exact .inl h
    · exact .inr (.inl h.1)
    · exact .inr (.inr (.inl (.inr h.2.1)))
  · rcases h with h | h | h
    · exact .inl h
    · exact .inr (.inr (.inl (.inl h.2.1)))
    · exact .inr (.inr (.inr h.2.1))

/-- how strongly a bit follows its product -/
def coef (F D : Finset α) (y0 : α) (β : Bit α) : ℚ :=
  if β.2 then (if β.1 ∈ D then 1 / 2 else 0) else (if β.1 ∈ F then (if β.1 = y0 then 1 / 2 else 1) else 0)

theorem coef_nonneg (F D : Finset α) (y0 : α) (β : Bit α) : 0 ≤ coef F D y0 β := by
  unfold coef; split_ifs <;> norm_num

theorem coef_le (F D : Finset α) (y0 : α) (β : Bit α) : coef F D y0 β ≤ 1 := by
  unfold coef; split_ifs <;> norm_num

theorem coef_true (F D : Finset α) (y0 i : α) : coef F D y0 (i, true) < 1 := by
  unfold coef; simp only [if_true]; split_ifs <;> norm_num

section
variable (H : Hedge V O G X Y S F D Λ up nx y0)
include H

theorem Hedge.ne_up {u : α} (hu : u ∈ F) (hS : u ∉ S) : up u ≠ u := fun e =>
  H.acyclic u (.single (by have := (H.upF u hu hS).1; rwa [e] at this))

theorem Hedge.ne_nx {u : α} (hu : u ∈ D) (hY : u ∉ Y) : nx u ≠ u := fun e =>
  H.acyclic u (.single (by have := (H.nxD u hu hY).1; rwa [e] at this))

theorem Hedge.lat_notF {l : α} (hl : l ∈ Λ) : l ∉ F := fun h => (H.lat l hl).2 (H.FO h)

theorem Hedge.lat_notD {l : α} (hl : l ∈ Λ) : l ∉ D := fun h => (H.lat l hl).2 (H.DO h)

open Classical in
/-- how often the first bit of a variable of `F` occurs -/
theorem Hedge.cnt_F (cut : Prop) (B : Finset (Bit α)) {u : α} (hu : u ∈ F) :
    cnt (prodOf G Y S F D Λ up nx cut) B (u, false) =
      ind ((u, false) ∈ B) + ind ((up u, false) ∈ B ∧ (u ∉ S ∧ ¬ (cut ∧ up u ∈ S))) + ind ((u, true) ∈ B ∧ u ∈ S) := by
  have huΛ : u ∉ Λ := fun h => H.lat_notF h hu
  unfold cnt
  rw [← sum_ind_eq, ← sum_ind_eq, show ind ((u, false) ∈ B) = ind ((u, false) ∈ B ∧ True) by simp [ind], ← sum_ind_eq,
    ← Finset.sum_add_distrib, ← Finset.sum_add_distrib]
  refine Finset.sum_congr rfl (fun β _ => ?_)
  obtain ⟨w, b⟩ := β
  have hm : ((u, false) ∈ prodOf G Y S F D Λ up nx cut (w, b)) ↔
      ((w, b) = (u, false) ∧ True) ∨ ((w, b) = (up u, false) ∧ (u ∉ S ∧ ¬ (cut ∧ up u ∈ S))) ∨ ((w, b) = (u, true) ∧ u ∈ S) := by
    rw [mem_prodOf]
    unfold inT
    cases b
    · simp only [Bool.false_eq_true, if_false, Prod.mk.injEq, and_true, true_and, hu, huΛ, false_and, or_false, and_false]
      constructor
      · rintro (e | ⟨h1, h2, h3⟩)
        · exact .inl e.symm
        · exact .inr ⟨h2.symm, h1, by rw [h2]; exact h3⟩
      · rintro (e | ⟨h1, h2, h3⟩)
        · exact .inl e.symm
        · exact .inr ⟨h2, h1.symm, by rw [h1]; exact h3⟩
    · simp only [if_true, Prod.mk.injEq, Bool.false_eq_true, reduceCtorEq, and_false, false_and, false_or, and_true, or_false]
      constructor
      · rintro ⟨e, h⟩
        exact ⟨e.symm, by rw [e]; exact h⟩
      · rintro ⟨e, h⟩
        exact ⟨e.symm, by rw [e]; exact h⟩
  have hne : u ∉ S → up u ≠ u := fun h => H.ne_up hu h
  show (if _ then 1 else 0) = _
  simp only [hm]
  rw [show (if ((w, b) = (u, false) ∧ True) ∨ ((w, b) = (up u, false) ∧ (u ∉ S ∧ ¬ (cut ∧ up u ∈ S))) ∨ ((w, b) = (u, true) ∧ u ∈ S) then 1 else 0)
    = ind (((w, b) = (u, false) ∧ True) ∨ ((w, b) = (up u, false) ∧ (u ∉ S ∧ ¬ (cut ∧ up u ∈ S))) ∨ ((w, b) = (u, true) ∧ u ∈ S)) from rfl,
    ind_or, ind_or, add_assoc]
  · rintro ⟨⟨h1, -⟩, h2, -⟩
    rw [h1] at h2; simp at h2
  · rintro ⟨⟨h1, -⟩, ⟨h2, h3, -⟩ | ⟨h2, -⟩⟩
    · rw [h1] at h2
      exact hne h3 (Prod.mk.inj h2).1.symm
    · rw [h1] at h2; simp at h2

open Classical in
/-- how often the first bit of an arc occurs -/
theorem Hedge.cnt_lat (cut : Prop) (B : Finset (Bit α)) {l a b : α} (hl : l ∈ Λ) (hab : a ≠ b) (hG : ∀ v, G l v ↔ v = a ∨ v = b)
    (hB : (l, false) ∉ B) (hB' : (l, true) ∉ B) :
    cnt (prodOf G Y S F D Λ up nx cut) B (l, false) =
      ind ((a, false) ∈ B ∧ ¬ (cut ∧ a ∈ S ∧ ∃ w, w ∉ S ∧ G l w)) + ind ((b, false) ∈ B ∧ ¬ (cut ∧ b ∈ S ∧ ∃ w, w ∉ S ∧ G l w)) := by
  have hlF := H.lat_notF hl
  have hlS : l ∉ S := fun h => hlF (H.SF h)
  unfold cnt
  rw [← sum_ind_eq, ← sum_ind_eq, ← Finset.sum_add_distrib]
  refine Finset.sum_congr rfl (fun β hβ => ?_)
  obtain ⟨w, d⟩ := β
  have hm : ((l, false) ∈ prodOf G Y S F D Λ up nx cut (w, d)) ↔
      ((w, d) = (a, false) ∧ ¬ (cut ∧ a ∈ S ∧ ∃ w, w ∉ S ∧ G l w)) ∨ ((w, d) = (b, false) ∧ ¬ (cut ∧ b ∈ S ∧ ∃ w, w ∉ S ∧ G l w)) := by
    rw [mem_prodOf]
    unfold inT
    cases d
    · have hwl : ¬ (l = w) := fun e => hB (by rw [e]; exact hβ)
      simp only [Bool.false_eq_true, if_false, Prod.mk.injEq, and_true, true_and, hlF, hwl, false_and, false_or, hl]
      constructor
      · rintro ⟨h1, h2⟩
        rcases (hG w).1 h1 with e | e
        · exact .inl ⟨e, by rw [← e]; exact h2⟩
        · exact .inr ⟨e, by rw [← e]; exact h2⟩
      · rintro (⟨e, h⟩ | ⟨e, h⟩)
        · exact ⟨(hG w).2 (.inl e), by rw [e]; exact h⟩
        · exact ⟨(hG w).2 (.inr e), by rw [e]; exact h⟩
    · simp only [if_true, Prod.mk.injEq, Bool.false_eq_true, reduceCtorEq, and_false, false_and, false_or, and_true, or_false, iff_false]
      rintro ⟨e, h⟩
      exact hB' (by rw [e]; exact hβ)
  show (if _ then 1 else 0) = _
  simp only [hm]
  rw [show (if ((w, d) = (a, false) ∧ ¬ (cut ∧ a ∈ S ∧ ∃ w, w ∉ S ∧ G l w)) ∨ ((w, d) = (b, false) ∧ ¬ (cut ∧ b ∈ S ∧ ∃ w, w ∉ S ∧ G l w)) then 1 else 0)
    = ind (((w, d) = (a, false) ∧ ¬ (cut ∧ a ∈ S ∧ ∃ w, w ∉ S ∧ G l w)) ∨ ((w, d) = (b, false) ∧ ¬ (cut ∧ b ∈ S ∧ ∃ w, w ∉ S ∧ G l w))) from rfl,
    ind_or]
  rintro ⟨⟨h1, -⟩, h2, -⟩
  rw [h1] at h2
  exact hab (Prod.mk.inj h2).1

open Classical in
/-- how often the second bit of a variable of `D` occurs -/
theorem Hedge.cnt_D (cut : Prop) (B : Finset (Bit α)) {u : α} (hu : u ∈ D) :
    cnt (prodOf G Y S F D Λ up nx cut) B (u, true) = ind ((u, true) ∈ B) + ind ((nx u, true) ∈ B ∧ u ∉ Y) := by
  unfold cnt
  rw [← sum_ind_eq, show ind ((u, true) ∈ B) = ind ((u, true) ∈ B ∧ True) by simp [ind], ← sum_ind_eq, ← Finset.sum_add_distrib]
  refine Finset.sum_congr rfl (fun β _ => ?_)
  obtain ⟨w, b⟩ := β
  have hm : ((u, true) ∈ prodOf G Y S F D Λ up nx cut (w, b)) ↔
      ((w, b) = (u, true) ∧ True) ∨ ((w, b) = (nx u, true) ∧ u ∉ Y) := by
    rw [mem_prodOf]
    unfold inT
    cases b
    · simp
    · simp only [if_true, Prod.mk.injEq, Bool.true_eq_false, and_false, false_and, false_or, and_true, true_and, hu]
      constructor
      · rintro (e | ⟨h1, h2⟩)
        · exact .inl e.symm
        · exact .inr ⟨h2.symm, h1⟩
      · rintro (e | ⟨h1, h2⟩)
        · exact .inl e.symm
        · exact .inr ⟨h2, h1.symm⟩
  show (if _ then 1 else 0) = _
  simp only [hm]
  rw [show (if ((w, b) = (u, true) ∧ True) ∨ ((w, b) = (nx u, true) ∧ u ∉ Y) then 1 else 0)
    = ind (((w, b) = (u, true) ∧ True) ∨ ((w, b) = (nx u, true) ∧ u ∉ Y)) from rfl, ind_or]
  rintro ⟨⟨h1, -⟩, h2, h3⟩
  rw [h1] at h2
  exact H.ne_nx hu h3 (Prod.mk.inj h2).1.symm

/-- no other bit occurs -/
theorem Hedge.cnt_other (cut : Prop) (B : Finset (Bit α)) (hB : ∀ β ∈ B, (β.2 = false → β.1 ∈ F) ∧ (β.2 = true → β.1 ∈ D))
    {γ : Bit α} (h1 : γ.2 = false → γ.1 ∉ F ∧ γ.1 ∉ Λ) (h2 : γ.2 = true → γ.1 ∉ D) :
    cnt (prodOf G Y S F D Λ up nx cut) B γ = 0 := by
  unfold cnt
  refine Finset.sum_eq_zero (fun β hβ => if_neg ?_)
  obtain ⟨w, b⟩ := β
  obtain ⟨u, d⟩ := γ
  have := hB _ hβ
  rw [mem_prodOf]
  unfold inT
  cases b <;> cases d
  · simp only [Bool.false_eq_true, if_false, Prod.mk.injEq, and_true, true_and]
    rintro (e | h | h)
    · exact (h1 rfl).1 (by have := this.1 rfl; dsimp only at this; rwa [← e] at this)
    · exact (h1 rfl).1 h.1
    · exact (h1 rfl).2 h.1
  · simp
  · simp only [if_true, Prod.mk.injEq, Bool.false_eq_true, and_false, false_and, false_or, and_true, or_false]
    rintro ⟨e, h⟩
    exact (h1 rfl).1 (by dsimp only; rw [e]; exact H.SF h)
  · simp only [if_true, Prod.mk.injEq, Bool.true_eq_false, and_false, false_and, false_or, and_true, true_and]
    rintro (e | h)
    · exact h2 rfl (by have := this.2 rfl; dsimp only at this; rwa [← e] at this)
    · exact h2 rfl h.1

end

end YL.Sign
