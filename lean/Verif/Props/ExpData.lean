import Verif.Model.ExpData
import Mathlib.Tactic.Linarith
import Mathlib.Tactic.Ring
import Mathlib.Algebra.Order.Ring.Rat
import Mathlib.Algebra.Field.Rat
import Mathlib.Algebra.Order.Field.Basic

/-!
# C161: the generated data sets have the stated effects
-/

set_option linter.unusedSectionVars false

namespace YL.Spec

open YL.ExpData

variable {K : Type} [Field K] [LinearOrder K]

/-- the structural equation a row of the generated data satisfies: the outcome is the treatments times the effects in the same row plus a
function `g` of the confounders plus a noise of at most 1 -/
def SolvesEq (g : List K → K) (r : Row K) : Prop :=
  |r.outcome - (List.zipWith (· * ·) r.te r.treatment).sum - g r.w| ≤ 1

end YL.Spec

namespace YL.Props

open YL YL.Spec YL.ExpData

variable {K : Type} [Field K] [LinearOrder K] [IsStrictOrderedRing K]

theorem split_ok {A : Type} {ord : List A → List A} (hord : ∀ l, (ord l).Perm l) {rows : List A} (h : 2 ≤ rows.length) :
    ∃ p, split ord rows = .ok p ∧ (p.1 ++ p.2).Perm rows ∧ p.1 ≠ [] ∧ p.2 ≠ [] ∧ 4 * p.2.length < rows.length + 4 ∧
      rows.length ≤ 4 * p.2.length := by
  have hlen : (ord rows).length = rows.length := (hord rows).length_eq
  refine ⟨((ord rows).drop ((rows.length + 3) / 4), (ord rows).take ((rows.length + 3) / 4)), ?_, ?_, ?_, ?_, ?_, ?_⟩
  · unfold split; rw [if_neg (by omega)]
  · exact (List.perm_append_comm.trans (by rw [List.take_append_drop])).trans (hord rows)
  · intro h0
    have := congrArg List.length h0
    simp only [List.length_drop, List.length_nil] at this
    omega
  · intro h0
    have := congrArg List.length h0
    simp only [List.length_take, List.length_nil] at this
    omega
  · simp only [List.length_take]; omega
  · simp only [List.length_take]; omega

/-- **C161** (rows): with at least five confounders, one covariate and two rows every generator with covariates returns a training and a
validation set that together are the generated rows, each once, neither empty, a quarter (rounded up) for validation. In every row the
outcome solves the structural equation with the effects written in the same row, and the effects are the functions of the first
covariate. -/
theorem C161_rows (te te2 : K → K) (supp : List Nat) (coefsY coefsT : List K) (row : Draw K → Row K)
    (hrow : row = binaryRow te supp coefsY ∨ row = continuousRow te supp coefsY coefsT ∨ row = multiRow te te2 supp coefsY coefsT)
    (ord : List (Row K) → List (Row K)) (hord : ∀ l, (ord l).Perm l) (nW nC : Nat) (hW : 5 ≤ nW) (hC : 1 ≤ nC) (draws : List (Draw K))
    (hn : 2 ≤ draws.length) (heps : ∀ d ∈ draws, |d.eps| ≤ 1) :
    ∃ train val tes, generate row ord nW nC draws = .ok ((train, val), tes) ∧ (train ++ val).Perm (draws.map row) ∧ train ≠ [] ∧
      val ≠ [] ∧ (draws.length ≤ 4 * val.length ∧ 4 * val.length < draws.length + 4) ∧
      ∃ g : List K → K, ∀ r ∈ train ++ val, SolvesEq g r ∧ r.te.head? = some (te (r.c.headD 0)) := by
  obtain ⟨p, hp, hperm, h1, h2, h3, h4⟩ := split_ok hord (rows := draws.map row) (by simpa using hn)
  refine ⟨p.1, p.2, (draws.map row).map (·.te), ?_, hperm, h1, h2, ⟨by simpa using h4, by simpa using h3⟩, lin supp coefsY, ?_⟩
  · unfold generate
    rw [if_neg (by omega), if_neg (by omega), hp]
  · intro r hr
    obtain ⟨d, hd, rfl⟩ := List.mem_map.1 (hperm.mem_iff.1 hr)
    have he := heps d hd
    rcases hrow with rfl | rfl | rfl
    · refine ⟨?_, rfl⟩
      unfold SolvesEq binaryRow
      simp only [List.zipWith_cons_cons, List.zipWith_nil_left, List.sum_cons, List.sum_nil]
      convert he using 2; ring
    · refine ⟨?_, rfl⟩
      unfold SolvesEq continuousRow
      simp only [List.zipWith_cons_cons, List.zipWith_nil_left, List.sum_cons, List.sum_nil]
      convert he using 2; ring
    · refine ⟨?_, rfl⟩
      unfold SolvesEq multiRow
      simp only [List.zipWith_cons_cons, List.zipWith_nil_left, List.sum_cons, List.sum_nil]
      convert he using 2; ring

/-- **C161** (treatments): the treatment is 0 or 1; a linear function of the confounders plus noise; such a function and its square. Its
effects are `te` of the first covariate, and `te2` of it for the square. -/
theorem C161_treatments (te te2 : K → K) (supp : List Nat) (coefsY coefsT : List K) (d : Draw K) :
    (binaryRow te supp coefsY d).treatment = [if d.coin then 1 else 0] ∧
    (continuousRow te supp coefsY coefsT d).treatment = [lin supp coefsT d.w + d.eta] ∧
    (∃ t, (multiRow te te2 supp coefsY coefsT d).treatment = [t, t ^ 2]) ∧
    (multiRow te te2 supp coefsY coefsT d).te = [te (d.c.headD 0), te2 (d.c.headD 0)] := ⟨rfl, rfl, ⟨_, rfl⟩, rfl⟩

example : ∃ out, generate (multiRow (K := ℚ) id (fun _ => 1) [0] [1] [2]) List.reverse 5 1
    [⟨[1], [1/2], 1/4, 1, true⟩, ⟨[2], [1], 0, -1, false⟩] = .ok out := ⟨_, rfl⟩

/-- **C161** (refusals): fewer than five confounders or fewer than two rows raise `ValueError`, no covariates `IndexError`. -/
theorem C161_refused (row : Draw K → Row K) (ord : List (Row K) → List (Row K)) (nW nC : Nat) (draws : List (Draw K)) :
    (nW < 5 → generate row ord nW nC draws = .error .value) ∧
    (5 ≤ nW → nC = 0 → draws ≠ [] → generate row ord nW nC draws = .error .index) ∧
    (5 ≤ nW → 1 ≤ nC → draws.length ≤ 1 → generate row ord nW nC draws = .error .value) := by
  refine ⟨fun h => if_pos h, fun h h' h0 => ?_, fun h h' h1 => ?_⟩
  · unfold generate; rw [if_neg (by omega), if_pos ⟨h', h0⟩]
  · unfold generate split; rw [if_neg (by omega), if_neg (by omega), if_pos (by simpa using h1)]

/-- What does not hold: the third output, the list of the effects, is in the order of generation, not that of the shuffled training
rows. -/
theorem C161_aligned_refuted : ∃ (row : Draw ℚ → Row ℚ) (ord : List (Row ℚ) → List (Row ℚ)) (draws : List (Draw ℚ))
    (out : (List (Row ℚ) × List (Row ℚ)) × List (List ℚ)), (∀ l, (ord l).Perm l) ∧ generate row ord 5 1 draws = .ok out ∧
    out.1.1.map (·.te) ≠ out.2.take out.1.1.length :=
  ⟨binaryRow id [0] [1], List.reverse, [⟨[1], [0], 0, 0, true⟩, ⟨[2], [1], 0, 0, false⟩, ⟨[3], [2], 0, 0, true⟩],
    (([⟨[2], [1], [0], 2, [1]⟩, ⟨[1], [0], [1], 1, [0]⟩], [⟨[3], [2], [1], 5, [2]⟩]), [[0], [1], [2]]),
    fun l => List.reverse_perm l, by decide +kernel, by decide +kernel⟩

/-! ### the discrete data sets -/

theorem argmax_lt : ∀ {l : List K}, l ≠ [] → argmax l < l.length ∧ ∀ a ∈ l, a ≤ l.getD (argmax l) 0
  | [], h => absurd rfl h
  | [a], _ => by simp [argmax]
  | a :: b :: l, _ => by
    obtain ⟨h1, h2⟩ := argmax_lt (l := b :: l) (by simp)
    unfold argmax
    split
    · rename_i h
      refine ⟨by simp, fun x hx => ?_⟩
      rw [List.getD_cons_zero]
      rcases List.mem_cons.1 hx with rfl | hx
      · exact le_refl _
      · exact (h2 x hx).trans h
    · rename_i h
      refine ⟨by simpa using h1, fun x hx => ?_⟩
      rw [List.getD_cons_succ]
      rcases List.mem_cons.1 hx with rfl | hx
      · exact (not_le.1 h).le
      · exact h2 x hx

theorem zip_append_sum (a b c d : List K) (h : a.length = b.length) :
    (List.zipWith (· * ·) (a ++ c) (b ++ d)).sum = (List.zipWith (· * ·) a b).sum + (List.zipWith (· * ·) c d).sum := by
  rw [List.zipWith_append h, List.sum_append]

theorem onehot_sum (l : List K) (x s : Nat) :
    (List.zipWith (· * ·) ((List.range' s l.length).map (fun j => if j = x + s then (1 : K) else 0)) l).sum = l.getD x 0 := by
  induction l generalizing x s with
  | nil => simp
  | cons a l ih =>
    simp only [List.length_cons, List.range'_succ, List.map_cons, List.zipWith_cons_cons, List.sum_cons]
    rcases x with _ | x
    · have h0 : (List.zipWith (· * ·) ((List.range' (s + 1) l.length).map (fun j => if j = 0 + s then (1 : K) else 0)) l).sum = 0 := by
        refine List.sum_eq_zero (fun y hy => ?_)
        obtain ⟨i, hi, rfl⟩ := List.getElem_of_mem hy
        simp only [List.getElem_zipWith, List.getElem_map, List.getElem_range']
        rw [if_neg (by omega), zero_mul]
      rw [h0]; simp
    · have h1 := ih x (s + 1)
      have e : x + (s + 1) = x + 1 + s := by omega
      rw [e] at h1
      rw [h1, if_neg (by omega)]
      simp

theorem armOutcome_eq (effect coef w : List K) (eps : K) (x : Nat) :
    armOutcome_ effect coef w eps x = effect.getD x 0 + (List.zipWith (· * ·) w coef).sum + eps := by
  unfold armOutcome_
  rw [zip_append_sum _ _ _ _ (by simp)]
  have h := onehot_sum effect x 0
  simp only [Nat.add_zero] at h
  rw [List.range_eq_range', h]

/-- **C161** (discrete): in `meaningless_discrete_dataset_` every row's treatment is one of the arms, its outcome is that of this arm, and
for the same row (same confounders, same noise) the outcomes of two arms differ by exactly the difference of the two given effects. -/
theorem C161_discrete (effect : List K) (wCoef : List (List K)) (coef w noise : List K) (eps : K) (h0 : effect ≠ [])
    (hw : wCoef.length = effect.length) (hn : noise.length = effect.length) :
    (row_ effect wCoef coef w noise eps).1 < effect.length ∧
    (row_ effect wCoef coef w noise eps).2 = armOutcome_ effect coef w eps (row_ effect wCoef coef w noise eps).1 ∧
    ∀ i j, armOutcome_ effect coef w eps i - armOutcome_ effect coef w eps j = effect.getD i 0 - effect.getD j 0 := by
  refine ⟨?_, rfl, fun i j => ?_⟩
  · have hlen : (scores wCoef noise w).length = effect.length := by
      unfold scores; rw [List.length_zipWith, hw, hn, Nat.min_self]
    have hne : scores wCoef noise w ≠ [] := fun h => h0 (List.length_eq_zero_iff.1 (by rw [← hlen, h]; rfl))
    have := (argmax_lt hne).1
    rw [hlen] at this
    exact this
  · rw [armOutcome_eq, armOutcome_eq]; ring

example : row_ [(0 : ℚ), 2, 5] [[1], [2], [-1]] [3] [4] [0, 0, 0] (1/10) = (1, 2 + 12 + 1/10) := by decide +kernel

/-- **C161** (discrete): in `meaningless_discrete_dataset` the treatment is one of the arms, and the row has an outcome if there are as
many effects as arms. -/
theorem C161_clip (arms : Nat) (h : 1 ≤ arms) (rnd : K → Int) (group : Nat) (w effect coef : List K) (base : K)
    (he : arms ≤ effect.length) :
    clip arms rnd group w < arms ∧ ∃ y, armOutcome effect coef w base (clip arms rnd group w) = .ok y := by
  have hlt : clip arms rnd group w < arms := by
    unfold clip
    split
    · omega
    · split
      · omega
      · omega
  exact ⟨hlt, _, if_pos (by omega)⟩

/-- What does not hold: in `meaningless_discrete_dataset` the given effects are not the effects of the arms. For the same row the outcome
of arm `i` exceeds that of arm 0 by `i` times the effect given for `i`. -/
theorem C161_discrete_refuted (effect coef w : List K) (base : K) (i : Nat) (hi : i < effect.length) :
    ∃ y y0, armOutcome effect coef w base i = .ok y ∧ armOutcome effect coef w base 0 = .ok y0 ∧ y - y0 = (i : K) * effect.getD i 0 := by
  refine ⟨_, _, if_pos hi, if_pos (by omega), ?_⟩
  push_cast
  ring

example : armOutcome [(0 : ℚ), 1, 5] [2] [3] 0 2 = .ok 16 ∧ armOutcome [(0 : ℚ), 1, 5] [2] [3] 0 0 = .ok 6 := by decide +kernel

/-! ### the coupon data -/

/-- **C161** (coupon): the binary coupon is 0 or 1; amount and time spent are linear in the coupon with the slopes 30 and 103 (with income
150 and 25), for every gender, income and noise: two rows with the same gender, income and second noise differ by these multiples of the
difference of their coupons. -/
theorem C161_coupon (b gender : Bool) (e1 e1' e2 income : K) :
    (b = true → (coupon b gender e1 e2).1 = 0 ∨ (coupon b gender e1 e2).1 = 1) ∧
    (coupon b gender e1 e2).2.1 - (coupon b gender e1' e2).2.1 = 30 * ((coupon b gender e1 e2).1 - (coupon b gender e1' e2).1) ∧
    (coupon b gender e1 e2).2.2 - (coupon b gender e1' e2).2.2 = 103 * ((coupon b gender e1 e2).1 - (coupon b gender e1' e2).1) ∧
    (b = true → (couponIncome b gender income e1 e2).1 = 0 ∨ (couponIncome b gender income e1 e2).1 = 1) ∧
    (couponIncome b gender income e1 e2).2.1 - (couponIncome b gender income e1' e2).2.1 =
      150 * ((couponIncome b gender income e1 e2).1 - (couponIncome b gender income e1' e2).1) ∧
    (couponIncome b gender income e1 e2).2.2 - (couponIncome b gender income e1' e2).2.2 =
      25 * ((couponIncome b gender income e1 e2).1 - (couponIncome b gender income e1' e2).1) := by
  refine ⟨?_, ?_, ?_, ?_, ?_, ?_⟩
  · rintro rfl
    simp only [coupon, if_true]
    generalize (if gender = true then (1 : K) else 0) * 20 + 150 + e1 = z
    by_cases hz : 150 < z
    · exact Or.inr (if_pos hz)
    · exact Or.inl (if_neg hz)
  · simp only [coupon]; ring
  · simp only [coupon]; ring
  · rintro rfl
    simp only [couponIncome, if_true]
    generalize (if gender = true then (1 : K) else 0) * 20 + 110 + income / 50 + e1 = z
    by_cases hz : 120 < z
    · exact Or.inr (if_pos hz)
    · exact Or.inl (if_neg hz)
  · simp only [couponIncome]; ring
  · simp only [couponIncome]; ring

example : coupon true true (0 : ℚ) 0 = (1, 280, 128) ∧ coupon true false (0 : ℚ) 0 = (0, 150, 15) := by decide +kernel

end YL.Props
