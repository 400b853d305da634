import Mathlib.Tactic.Ring
import Mathlib.Tactic.Linarith
import Mathlib.Tactic.FinCases
import Mathlib.Algebra.Field.Rat
import Mathlib.Algebra.Order.Ring.Rat
import Mathlib.Algebra.Ring.Parity
import Mathlib.Algebra.BigOperators.Ring.Finset
import Verif.Lib.Bayes

/-! Networks of signs: every variable carries two signs; products of signs and their sums. Used to build the pairs of models
that show that an effect is not identifiable. -/

set_option linter.unusedSectionVars false
set_option linter.unusedVariables false

namespace YL.Sign

open Function Spec

variable {α : Type} [DecidableEq α]

/-- every variable carries two bits -/
abbrev Two : α → Type := fun _ => Bool × Bool

/-- the names of the bits -/
abbrev Bit (α : Type) := α × Bool

/-- the sign of a bit -/
def sgn (b : Bool) : ℚ := if b then -1 else 1

/-- the sign of the bit `γ` -/
def sg (v : α → Bool × Bool) (γ : Bit α) : ℚ := if γ.2 then sgn (v γ.1).2 else sgn (v γ.1).1

theorem sgn_not (b : Bool) : sgn (!b) = - sgn b := by cases b <;> simp [sgn]

theorem sgn_sq (b : Bool) : sgn b * sgn b = 1 := by cases b <;> simp [sgn]

theorem sg_sq (v : α → Bool × Bool) (γ : Bit α) : sg v γ * sg v γ = 1 := by
  unfold sg; split <;> exact sgn_sq _

theorem sg_abs (v : α → Bool × Bool) (γ : Bit α) : sg v γ = 1 ∨ sg v γ = -1 := by
  unfold sg sgn
  cases γ.2 <;> cases (v γ.1).1 <;> cases (v γ.1).2 <;> simp

/-- the other value of one of the bits -/
def flipVal (b : Bool) (p : Bool × Bool) : Bool × Bool := if b then (p.1, !p.2) else (!p.1, p.2)

theorem flipVal_flipVal (b : Bool) (p : Bool × Bool) : flipVal b (flipVal b p) = p := by
  cases b <;> simp [flipVal]

/-- the assignment with the bit `γ` changed -/
def flip (γ : Bit α) (v : α → Bool × Bool) : α → Bool × Bool := update v γ.1 (flipVal γ.2 (v γ.1))

theorem sg_flip (γ δ : Bit α) (v : α → Bool × Bool) : sg (flip γ v) δ = if δ = γ then - sg v δ else sg v δ := by
  obtain ⟨i, b⟩ := γ
  obtain ⟨j, d⟩ := δ
  by_cases hij : j = i
  · subst hij
    unfold sg flip
    simp only [update_self]
    cases b <;> cases d <;> simp [flipVal, sgn_not]
  · have : ¬ ((j, d) = (i, b)) := fun e => hij (Prod.mk.inj e).1
    rw [if_neg this]
    unfold sg flip
    simp only [update_of_ne hij]

/-- the product of the signs in `E` -/
def mon (E : Finset (Bit α)) (v : α → Bool × Bool) : ℚ := ∏ γ ∈ E, sg v γ

theorem mon_abs (E : Finset (Bit α)) (v : α → Bool × Bool) : mon E v = 1 ∨ mon E v = -1 := by
  unfold mon
  induction E using Finset.induction_on with
  | empty => simp
  | insert γ E hγ ih =>
    rw [Finset.prod_insert hγ]
    rcases sg_abs v γ with h | h <;> rcases ih with h' | h' <;> rw [h, h'] <;> norm_num

theorem mon_sq (E : Finset (Bit α)) (v : α → Bool × Bool) : mon E v * mon E v = 1 := by
  rcases mon_abs E v with h | h <;> rw [h] <;> norm_num

theorem mon_flip (γ : Bit α) (E : Finset (Bit α)) (v : α → Bool × Bool) :
    mon E (flip γ v) = (if γ ∈ E then -1 else 1) * mon E v := by
  unfold mon
  induction E using Finset.induction_on with
  | empty => simp
  | insert δ E hδ ih =>
    rw [Finset.prod_insert hδ, Finset.prod_insert hδ, ih, sg_flip]
    by_cases h : δ = γ
    · subst h
      rw [if_pos rfl, if_neg hδ, if_pos (Finset.mem_insert_self _ _)]
      ring
    · rw [if_neg h]
      have : γ ∈ insert δ E ↔ γ ∈ E := by
        rw [Finset.mem_insert]; exact ⟨fun e => e.resolve_left (fun e => h e.symm), Or.inr⟩
      by_cases hE : γ ∈ E
      · rw [if_pos hE, if_pos (this.2 hE)]; ring
      · rw [if_neg hE, if_neg (fun e => hE (this.1 e))]; ring

/-- how many of the products `T β`, `β ∈ B`, contain `γ` -/
def cnt (T : Bit α → Finset (Bit α)) (B : Finset (Bit α)) (γ : Bit α) : ℕ := ∑ β ∈ B, if γ ∈ T β then 1 else 0

theorem prod_flip (T : Bit α → Finset (Bit α)) (B : Finset (Bit α)) (γ : Bit α) (v : α → Bool × Bool) :
    ∏ β ∈ B, mon (T β) (flip γ v) = (-1) ^ cnt T B γ * ∏ β ∈ B, mon (T β) v := by
  unfold cnt
  induction B using Finset.induction_on with
  | empty => simp
  | insert β B hβ ih =>
    rw [Finset.prod_insert hβ, Finset.prod_insert hβ, ih, mon_flip, Finset.sum_insert hβ, pow_add]
    by_cases h : γ ∈ T β
    · rw [if_pos h, if_pos h]; ring
    · rw [if_neg h, if_neg h]; ring

/-- a sum in which one bit changes the sign of every term vanishes -/
theorem sum_flip (Z : Finset α) (f : (α → Bool × Bool) → ℚ) (γ : Bit α) (hγ : γ.1 ∈ Z) (h : ∀ v, f (flip γ v) = - f v)
    (v : α → Bool × Bool) : sumOut (Ω := Two) Z f v = 0 := by
  unfold sumOut
  let e : (∀ i : Z, Two (i : α)) → (∀ i : Z, Two (i : α)) := fun w => update w ⟨γ.1, hγ⟩ (flipVal γ.2 (w ⟨γ.1, hγ⟩))
  have he : Involutive e := by
    intro w
    simp only [e, update_self, update_idem, flipVal_flipVal, update_eq_self]
  have hup : ∀ w, updateFinset v Z (e w) = flip γ (updateFinset v Z w) := by
    intro w
    funext i
    by_cases hi : i = γ.1
    · subst hi
      simp [e, flip, updateFinset, hγ]
    · simp only [flip, update_of_ne hi, updateFinset]
      by_cases hiZ : i ∈ Z
      · simp only [dif_pos hiZ, e]
        rw [update_of_ne]
        intro e'; exact hi (congrArg Subtype.val e')
      · simp only [dif_neg hiZ]
  have h1 : ∑ w : (∀ i : Z, Two (i : α)), f (updateFinset v Z w) = ∑ w : (∀ i : Z, Two (i : α)), f (updateFinset v Z (e w)) :=
    (Equiv.sum_comp he.toPerm (fun w => f (updateFinset v Z w))).symm
  have h2 : ∑ w : (∀ i : Z, Two (i : α)), f (updateFinset v Z (e w)) = - ∑ w : (∀ i : Z, Two (i : α)), f (updateFinset v Z w) := by
    rw [← Finset.sum_neg_distrib]
    exact Finset.sum_congr rfl (fun w _ => by rw [hup, h])
  rw [h2] at h1
  linarith

/-- a product of signs in which some summed bit occurs an odd number of times sums to zero -/
theorem sum_odd (T : Bit α → Finset (Bit α)) (B E : Finset (Bit α)) (Z : Finset α) (γ : Bit α) (hγ : γ.1 ∈ Z)
    (h : Odd (cnt T B γ + if γ ∈ E then 1 else 0)) (v : α → Bool × Bool) :
    sumOut (Ω := Two) Z (fun v => (∏ β ∈ B, mon (T β) v) * mon E v) v = 0 := by
  apply sum_flip Z _ γ hγ
  intro v
  rw [prod_flip, mon_flip]
  have : (-1 : ℚ) ^ cnt T B γ * (if γ ∈ E then -1 else 1) = -1 := by
    have h' := h.neg_one_pow (α := ℚ)
    rw [pow_add] at h'
    by_cases hE : γ ∈ E
    · rw [if_pos hE] at h' ⊢; simpa using h'
    · rw [if_neg hE] at h' ⊢; simpa using h'
  calc (-1 : ℚ) ^ cnt T B γ * (∏ β ∈ B, mon (T β) v) * ((if γ ∈ E then -1 else 1) * mon E v)
      = ((-1 : ℚ) ^ cnt T B γ * (if γ ∈ E then -1 else 1)) * ((∏ β ∈ B, mon (T β) v) * mon E v) := by ring
    _ = - ((∏ β ∈ B, mon (T β) v) * mon E v) := by rw [this]; ring

/-- a product of signs in which every bit occurs an even number of times is one -/
theorem prod_even (T : Bit α → Finset (Bit α)) (B E : Finset (Bit α))
    (h : ∀ γ, Even (cnt T B γ + if γ ∈ E then 1 else 0)) (v : α → Bool × Bool) :
    (∏ β ∈ B, mon (T β) v) * mon E v = 1 := by
  let U := B.biUnion T ∪ E
  have key : ∀ (S : Finset (Bit α)), S ⊆ U → mon S v = ∏ γ ∈ U, sg v γ ^ (if γ ∈ S then 1 else 0) := by
    intro S hS
    unfold mon
    rw [← Finset.prod_subset hS (f := fun γ => sg v γ ^ (if γ ∈ S then 1 else 0))
      (fun γ _ hγ => by rw [if_neg hγ, pow_zero])]
    exact Finset.prod_congr rfl (fun γ hγ => by rw [if_pos hγ, pow_one])
  rw [key E Finset.subset_union_right,
    Finset.prod_congr rfl (fun β hβ => key (T β) (fun γ hγ => Finset.mem_union_left _ (Finset.mem_biUnion.2 ⟨β, hβ, hγ⟩))),
    Finset.prod_comm, ← Finset.prod_mul_distrib]
  refine Finset.prod_eq_one (fun γ _ => ?_)
  rw [Finset.prod_pow_eq_pow_sum, ← pow_add]
  have := h γ
  unfold cnt at this
  obtain ⟨n, hn⟩ := this
  rw [hn, pow_add, ← mul_pow, sg_sq, one_pow]

/-- the product of the factors of the variables in `W`, multiplied out -/
theorem expand (c : Bit α → ℚ) (T : Bit α → Finset (Bit α)) (W : Finset (Bit α)) (v : α → Bool × Bool) :
    ∏ β ∈ W, (1 + c β * mon (T β) v) = ∑ B ∈ W.powerset, (∏ β ∈ B, c β) * ∏ β ∈ B, mon (T β) v := by
  rw [Finset.prod_one_add]
  exact Finset.sum_congr rfl (fun B _ => Finset.prod_mul_distrib)

theorem sumOut_sum {ι : Type} (s : Finset ι) (Z : Finset α) (f : ι → (α → Bool × Bool) → ℚ) (v : α → Bool × Bool) :
    sumOut (Ω := Two) Z (fun v => ∑ i ∈ s, f i v) v = ∑ i ∈ s, sumOut (Ω := Two) Z (f i) v := by
  unfold sumOut
  exact Finset.sum_comm

theorem sumOut_smul (Z : Finset α) (a : ℚ) (f : (α → Bool × Bool) → ℚ) (v : α → Bool × Bool) :
    sumOut (Ω := Two) Z (fun v => a * f v) v = a * sumOut (Ω := Two) Z f v := by
  unfold sumOut
  rw [Finset.mul_sum]

/-! ## The networks -/

/-- the factor of one bit -/
def half (c : Bit α → ℚ) (T : Bit α → Finset (Bit α)) (β : Bit α) (v : α → Bool × Bool) : ℚ := (1 + c β * mon (T β) v) / 2

/-- the kernel of a variable -/
def ker (c : Bit α → ℚ) (T : Bit α → Finset (Bit α)) (i : α) (v : α → Bool × Bool) : ℚ := half c T (i, false) v * half c T (i, true) v

theorem mon_congr (E : Finset (Bit α)) {v w : α → Bool × Bool} (h : ∀ γ ∈ E, v γ.1 = w γ.1) : mon E v = mon E w := by
  unfold mon
  refine Finset.prod_congr rfl (fun γ hγ => ?_)
  unfold sg
  rw [h γ hγ]

theorem half_nonneg (c : Bit α → ℚ) (T : Bit α → Finset (Bit α)) (β : Bit α) (h0 : 0 ≤ c β) (h1 : c β ≤ 1)
    (v : α → Bool × Bool) : 0 ≤ half c T β v := by
  unfold half
  rcases mon_abs (T β) v with h | h <;> rw [h] <;> linarith

theorem half_pos (c : Bit α → ℚ) (T : Bit α → Finset (Bit α)) (β : Bit α) (h0 : 0 ≤ c β) (h1 : c β < 1)
    (v : α → Bool × Bool) : 0 < half c T β v := by
  unfold half
  rcases mon_abs (T β) v with h | h <;> rw [h] <;> linarith

/-- the sum of the kernel over the four values of its variable -/
theorem ker_sum (c : Bit α → ℚ) (T : Bit α → Finset (Bit α)) (i : α) (h1 : (i, false) ∈ T (i, false))
    (h2 : (i, true) ∉ T (i, false)) (h3 : (i, true) ∈ T (i, true)) (v : α → Bool × Bool) :
    ∑ a : Bool × Bool, ker c T i (update v i a) = 1 := by
  have f1 : ∀ a : Bool × Bool, mon (T (i, false)) (update v i a) = sgn a.1 * mon ((T (i, false)).erase (i, false)) v := by
    intro a
    unfold mon
    rw [← Finset.mul_prod_erase _ _ h1]
    congr 1
    · simp [sg]
    · refine Finset.prod_congr rfl (fun γ hγ => ?_)
      obtain ⟨j, b⟩ := γ
      rw [Finset.mem_erase] at hγ
      have hj : j ≠ i := by
        rintro rfl
        cases b
        · exact hγ.1 rfl
        · exact h2 hγ.2
      unfold sg
      simp only [update_of_ne hj]
  have f2 : ∀ a : Bool × Bool, mon (T (i, true)) (update v i a) =
      sgn a.2 * ((if (i, false) ∈ T (i, true) then sgn a.1 else 1) * mon (((T (i, true)).erase (i, true)).erase (i, false)) v) := by
    intro a
    unfold mon
    rw [← Finset.mul_prod_erase _ _ h3]
    congr 1
    · simp [sg]
    · have hrest : ∏ γ ∈ ((T (i, true)).erase (i, true)).erase (i, false), sg (update v i a) γ =
          ∏ γ ∈ ((T (i, true)).erase (i, true)).erase (i, false), sg v γ := by
        refine Finset.prod_congr rfl (fun γ hγ => ?_)
        obtain ⟨j, b⟩ := γ
        rw [Finset.mem_erase, Finset.mem_erase] at hγ
        have hj : j ≠ i := by
          rintro rfl
          cases b
          · exact hγ.1 rfl
          · exact hγ.2.1 rfl
        unfold sg
        simp only [update_of_ne hj]
      by_cases hm : (i, false) ∈ T (i, true)
      · have hm' : (i, false) ∈ (T (i, true)).erase (i, true) := Finset.mem_erase.2 ⟨by simp, hm⟩
        rw [← Finset.mul_prod_erase _ _ hm', if_pos hm, hrest]
        congr 1
        simp [sg]
      · have hm' : (i, false) ∉ (T (i, true)).erase (i, true) := fun h => hm (Finset.mem_erase.1 h).2
        rw [if_neg hm, one_mul, ← hrest, Finset.erase_eq_of_notMem hm']
  unfold ker half
  simp only [f1, f2, Fintype.sum_prod_type, Fintype.sum_bool, sgn, if_true, Bool.false_eq_true, if_false]
  split <;> ring

/-- the network with these factors -/
def net (V : Finset α) (G : α → α → Prop) (c : Bit α → ℚ) (T : Bit α → Finset (Bit α)) (h0 : ∀ β, 0 ≤ c β) (h1 : ∀ β, c β ≤ 1)
    (hT : ∀ i b, (i, b) ∈ T (i, b)) (hT' : ∀ i, (i, true) ∉ T (i, false))
    (hloc : ∀ i b, ∀ γ ∈ T (i, b), γ.1 = i ∨ G γ.1 i) : BayesNet (K := ℚ) V G (Two (α := α)) where
  kernel := ker c T
  isLocal i _ := by
    intro v w hvw
    have : ∀ b, mon (T (i, b)) v = mon (T (i, b)) w := by
      intro b
      apply mon_congr
      intro γ hγ
      apply hvw
      rcases hloc i b γ hγ with h | h
      · rw [h]; exact Set.mem_insert _ _
      · exact Set.mem_insert_of_mem _ h
    unfold ker half
    rw [this, this]
  nonneg i _ v := mul_nonneg (half_nonneg c T _ (h0 _) (h1 _) v) (half_nonneg c T _ (h0 _) (h1 _) v)
  sum_one i _ v := ker_sum c T i (hT i false) (hT' i) (hT i true) v

theorem prod_ker (c : Bit α → ℚ) (T : Bit α → Finset (Bit α)) (W : Finset α) (v : α → Bool × Bool) :
    ∏ i ∈ W, ker c T i v = (∏ i ∈ W, half c T (i, false) v) * ∏ i ∈ W, half c T (i, true) v := by
  unfold ker
  exact Finset.prod_mul_distrib

theorem prod_ker' (c : Bit α → ℚ) (T : Bit α → Finset (Bit α)) (W : Finset α) (v : α → Bool × Bool) :
    ∏ i ∈ W, ker c T i v = (1 / 4) ^ W.card * ∏ β ∈ W ×ˢ Finset.univ, (1 + c β * mon (T β) v) := by
  rw [Finset.prod_product, ← Finset.prod_const, ← Finset.prod_mul_distrib]
  refine Finset.prod_congr rfl (fun i _ => ?_)
  rw [Fintype.prod_bool]
  unfold ker half
  ring

end YL.Sign
