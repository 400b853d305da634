import Verif.Props.Dagma

/-!
# C132: the training loops of `DagmaDiscovery`
-/

set_option linter.unusedSectionVars false

namespace YL.Props

open YL Spec Discovery NoTears Dagma

section
variable {d n : Nat}

/-! ### the inner loops end -/

theorem invPlus_err {s : ℝ} {W : Mx d} {e : Err} (h : invPlus s W = .error e) :
    e = .exception ∧ (mMatrix s W).det = 0 := by
  unfold invPlus at h
  by_cases h0 : (mMatrix s W).det = 0
  · rw [if_pos h0] at h; cases h; exact ⟨rfl, h0⟩
  · rw [if_neg h0] at h; cases h

theorem backtrack_spec (s : ℝ) (grad : Mx d) (first : Bool) : ∀ (f : Nat) (W : Mx d) (lr : ℝ) (M : Mx d),
    lr ≤ 1e-16 * 2 ^ f →
    ∀ r, backtrack s grad first (f + 1) W lr M = r →
      (∀ e, r = .error e → e = .exception) ∧
      (∀ W', r = .ok (.done W' false) → anyNeg M ∧ ((first = true ∧ W' = W) ∨ s ≤ 0.9)) ∧
      (∀ W' lr' M', r = .ok (.go W' lr' M') → ¬ anyNeg M' ∧ (lr' ≤ lr ∨ lr' ≤ 1e-16)) := by
  classical
  intro f
  induction f with
  | zero =>
    intro W lr M hlr r hr
    rw [pow_zero, mul_one] at hlr
    unfold backtrack at hr
    by_cases hM : anyNeg M
    · rw [if_pos hM] at hr
      by_cases h1 : first = true ∨ s ≤ 0.9
      · rw [if_pos h1] at hr; subst hr
        refine ⟨fun e he => (by cases he), fun W' hW => ?_, fun _ _ _ hW => (by cases hW)⟩
        cases hW
        exact ⟨hM, h1.imp (fun h => ⟨h, rfl⟩) id⟩
      · have h2 : lr * 0.5 ≤ 1e-16 := by norm_num at hlr ⊢; linarith
        rw [if_neg h1, if_pos h2] at hr; subst hr
        exact ⟨fun e he => (by cases he), fun W' hW => (by cases hW), fun _ _ _ hW => (by cases hW)⟩
    · rw [if_neg hM] at hr; subst hr
      refine ⟨fun e he => (by cases he), fun W' hW => (by cases hW), fun _ _ _ hW => ?_⟩
      cases hW; exact ⟨hM, .inl le_rfl⟩
  | succ f ih =>
    intro W lr M hlr r hr
    unfold backtrack at hr
    by_cases hM : anyNeg M
    · rw [if_pos hM] at hr
      by_cases h1 : first = true ∨ s ≤ 0.9
      · rw [if_pos h1] at hr; subst hr
        refine ⟨fun e he => (by cases he), fun W' hW => ?_, fun _ _ _ hW => (by cases hW)⟩
        cases hW
        exact ⟨hM, h1.imp (fun h => ⟨h, rfl⟩) id⟩
      · rw [if_neg h1] at hr
        by_cases h2 : lr * 0.5 ≤ 1e-16
        · rw [if_pos h2] at hr; subst hr
          exact ⟨fun e he => (by cases he), fun W' hW => (by cases hW), fun _ _ _ hW => (by cases hW)⟩
        · rw [if_neg h2] at hr
          rcases hi : invPlus s (W + lr • grad - (lr * 0.5) • grad) with e | M'
          · rw [hi] at hr
            subst hr
            refine ⟨fun e' he => ?_, fun W' hW => (by cases hW), fun _ _ _ hW => (by cases hW)⟩
            cases he; exact (invPlus_err hi).1
          · rw [hi] at hr
            have hle : lr * 0.5 ≤ 1e-16 * 2 ^ f := by
              rw [pow_succ] at hlr; norm_num at hlr ⊢; linarith
            obtain ⟨a, b, c⟩ := ih _ _ _ hle r hr
            refine ⟨a, fun W' hW => ⟨hM, ?_⟩, fun W' lr' M'' hW => ⟨(c _ _ _ hW).1, ?_⟩⟩
            · rcases (b W' hW).2 with h | h
              · exact absurd (.inl h.1) h1
              · exact .inr h
            · rcases (c _ _ _ hW).2 with h | h
              · left
                refine h.trans ?_
                have : (0 : ℝ) < lr * 0.5 := lt_of_lt_of_le (by norm_num) (not_le.1 h2).le
                linarith
              · exact .inr h
    · rw [if_neg hM] at hr; subst hr
      refine ⟨fun e he => (by cases he), fun W' hW => (by cases hW), fun _ _ _ hW => ?_⟩
      cases hW; exact ⟨hM, .inl le_rfl⟩

theorem minLoop_spec (c : Cfg) (C : Mx d) (mu s tol : ℝ) (f : Nat) : ∀ (k iter : Nat) (st : St d),
    st.lr ≤ 1e-16 * 2 ^ f →
    ∀ r, minLoop c C mu s tol (f + 1) k iter st = r →
      (∀ e, r = .error e → e = .exception) ∧
      (∀ W', r = .ok (W', false) → s ≤ 0.9 ∨ (iter = 1 ∧ W' = st.W ∧ ∃ M, invPlus s st.W = .ok M ∧ anyNeg M) ∨ (iter = 0)) := by
  classical
  intro k
  induction k with
  | zero =>
    intro iter st _ r hr
    rw [minLoop] at hr; subst hr
    exact ⟨fun e he => (by cases he), fun W' hW => (by cases hW)⟩
  | succ k ih =>
    intro iter st hlr r hr
    rw [minLoop] at hr
    rcases hi : invPlus s st.W with e | M
    · rw [hi] at hr; subst hr
      refine ⟨fun e' he => ?_, fun W' hW => (by cases hW)⟩
      cases he; exact (invPlus_err hi).1
    · rw [hi] at hr
      simp only at hr
      have hb := backtrack_spec s st.grad (iter == 1) f st.W st.lr M hlr _ rfl
      rcases hbt : backtrack s st.grad (iter == 1) (f + 1) st.W st.lr M with e | b
      · rw [hbt] at hr hb; subst hr
        refine ⟨fun e' he => ?_, fun W' hW => (by cases hW)⟩
        cases he; exact hb.1 e rfl
      · rw [hbt] at hr hb
        cases b with
        | done W ok =>
          simp only at hr
          subst hr
          refine ⟨fun e' he => (by cases he), fun W' hW => ?_⟩
          cases hW
          obtain ⟨hM, h⟩ := hb.2.1 _ rfl
          rcases h with ⟨h1, h2⟩ | h
          · exact .inr (.inl ⟨by simpa using h1, h2, M, rfl, hM⟩)
          · exact .inl h
        | go W lr M' =>
          have hlr' : lr ≤ 1e-16 * 2 ^ f := by
            rcases (hb.2.2 _ _ _ rfl).2 with h | h
            · exact h.trans hlr
            · refine h.trans ?_
              have : (1 : ℝ) ≤ 2 ^ f := one_le_pow₀ (by norm_num)
              nlinarith
          have key : ∀ st' : St d, st'.lr = lr → ∀ r, minLoop c C mu s tol (f + 1) k (iter + 1) st' = r →
              (∀ e, r = .error e → e = .exception) ∧
              (∀ W', r = .ok (W', false) → s ≤ 0.9 ∨ (iter = 1 ∧ W' = st.W ∧ ∃ M, invPlus s st.W = .ok M ∧ anyNeg M) ∨ (iter = 0)) := by
            intro st' hst r hr'
            obtain ⟨a, b⟩ := ih (iter + 1) st' (by rw [hst]; exact hlr') r hr'
            refine ⟨a, fun W' hW => ?_⟩
            rcases b W' hW with h | ⟨h, -⟩ | h
            · exact .inl h
            · exact .inr (.inr (by omega))
            · omega
          simp only at hr
          split_ifs at hr with h1 h2
          · subst hr
            exact ⟨fun e he => (by cases he), fun W' hW => (by cases hW)⟩
          · rw [hi] at key; exact key _ rfl r hr
          · rw [hi] at key; exact key _ rfl r hr

/-- C132. `minimize` ends for every number of iterations, every learning rate and every data set, unless a singular matrix is
inverted; it reports failure only if the weights it was given are outside of the region (it then leaves them as they are) or if
`s` is at most 0.9. The inner loop halves the learning rate at most `f` times if `lr ≤ 1e-16 * 2 ^ f`. -/
theorem C132_minimize (c : Cfg) (C : Mx d) (f : Nat) (W : Mx d) (mu : ℝ) (maxIter : Nat) (lr s : ℝ) (hlr : lr ≤ 1e-16 * 2 ^ f) :
    (∀ e, minimize c C (f + 1) W mu maxIter lr s = .error e → e = .exception) ∧
      (∀ W', minimize c C (f + 1) W mu maxIter lr s = .ok (W', false) →
        s ≤ 0.9 ∨ (W' = W ∧ ¬ Region s W)) := by
  obtain ⟨a, b⟩ := minLoop_spec c C mu s 1e-6 f maxIter 1 ⟨W, 0, 0, lr, 0, some 1e16⟩ hlr _ rfl
  refine ⟨a, fun W' hW => ?_⟩
  rcases b W' hW with h | ⟨-, h, M, hM, hneg⟩ | h
  · exact .inl h
  · refine .inr ⟨h, fun hreg => ?_⟩
    obtain ⟨i, j, hij⟩ := hneg
    have hne : (mMatrix s W).det ≠ 0 := hreg.1
    simp only [invPlus, if_neg hne] at hM
    cases hM
    have := hreg.2 i j
    simp only [Matrix.of_apply, mMatrix] at hij
    linarith
  · omega

/-! ### the retries end -/

theorem half_le {lr : ℝ} {f : Nat} (h : lr ≤ 1e-16 * 2 ^ f) : lr * 0.5 ≤ 1e-16 * 2 ^ f := by
  have h0 : (0 : ℝ) < 1e-16 * 2 ^ f := by positivity
  rcases le_or_gt 0 lr with hl | hl
  · refine le_trans ?_ h
    norm_num; linarith
  · refine le_trans ?_ h0.le
    norm_num; linarith

theorem retry_mono (c : Cfg) (C : Mx d) (inner : Nat) (mu : ℝ) (iters : Nat) : ∀ (f : Nat) (W : Mx d) (lr s : ℝ),
    retry c C inner mu iters f W lr s ≠ .error .recursion → ∀ f', f ≤ f' →
      retry c C inner mu iters f' W lr s = retry c C inner mu iters f W lr s := by
  intro f
  induction f with
  | zero => intro W lr s h; exact absurd rfl h
  | succ f ih =>
    intro W lr s h f' hf
    obtain ⟨g, rfl⟩ : ∃ g, f' = g + 1 := ⟨f' - 1, by omega⟩
    simp only [retry] at h ⊢
    rcases hm : minimize c C inner W mu iters lr s with e | ⟨W', ok⟩
    · rfl
    · rw [hm] at h
      cases ok with
      | true => rfl
      | false => exact ih _ _ _ h g (by omega)

theorem retry_region (c : Cfg) (C : Mx d) (f : Nat) (mu : ℝ) (iters : Nat) (W : Mx d) :
    ∀ (k : Nat) (lr s : ℝ), lr ≤ 1e-16 * 2 ^ f → 0.9 < s → (∀ i, ∑ j, W i j ^ 2 < s + 0.1 * k) →
      retry c C (f + 1) mu iters (k + 1) W lr s ≠ .error .recursion
  | k, lr, s, hlr, hs, hk => by
    rw [retry]
    rcases hm : minimize c C (f + 1) W mu iters lr s with e | ⟨W', ok⟩
    · have := (C132_minimize c C f W mu iters lr s hlr).1 e hm
      simp [this]
    · cases ok with
      | true => simp
      | false =>
        simp only
        rcases (C132_minimize c C f W mu iters lr s hlr).2 W' hm with h | ⟨h, hreg⟩
        · exact absurd h (not_le.2 hs)
        · subst h
          cases k with
          | zero => exact absurd ((C131_region s W').2 (fun i => by simpa using hk i)) hreg
          | succ k =>
            refine retry_region c C f mu iters W' k (lr * 0.5) (s + 0.1) ?_ (by norm_num at hs ⊢; linarith) (fun i => ?_)
            · exact half_le hlr
            · have := hk i
              push_cast at this
              norm_num at this ⊢
              linarith

theorem retry_ends (c : Cfg) (C : Mx d) (f : Nat) (mu : ℝ) (iters : Nat) : ∀ (k : Nat) (W : Mx d) (lr s : ℝ),
    lr ≤ 1e-16 * 2 ^ f → 0.9 < s + 0.1 * k →
      ∃ N, retry c C (f + 1) mu iters N W lr s ≠ .error .recursion := by
  intro k
  induction k with
  | zero =>
    intro W lr s hlr hs
    have hs' : (0.9 : ℝ) < s := by simpa using hs
    obtain ⟨m, hm⟩ := exists_nat_gt ((∑ i, ∑ j, W i j ^ 2) * 10)
    refine ⟨m + 1, retry_region c C f mu iters W m lr s hlr hs' (fun i => ?_)⟩
    have h1 : ∑ j, W i j ^ 2 ≤ ∑ i, ∑ j, W i j ^ 2 :=
      Finset.single_le_sum (f := fun i => ∑ j, W i j ^ 2) (fun i _ => Finset.sum_nonneg (fun j _ => sq_nonneg _)) (Finset.mem_univ i)
    norm_num at hs' ⊢
    linarith
  | succ k ih =>
    intro W lr s hlr hs
    rcases hm : minimize c C (f + 1) W mu iters lr s with e | ⟨W', ok⟩
    · have := (C132_minimize c C f W mu iters lr s hlr).1 e hm
      exact ⟨1, by rw [retry, hm]; simp [this]⟩
    · cases ok with
      | true => exact ⟨1, by rw [retry, hm]; simp⟩
      | false =>
        obtain ⟨N, hN⟩ := ih W' (lr * 0.5) (s + 0.1) (half_le hlr) (by
            push_cast at hs
            norm_num at hs ⊢
            linarith)
        exact ⟨N + 1, by rw [retry, hm]; exact hN⟩

theorem stages_ends (c : Cfg) (p : Disc) (C : Mx d) (f : Nat) (hlr : p.lr ≤ 1e-16 * 2 ^ f) :
    ∀ (k : Nat) (ss : List ℝ) (W : Mx d) (mu : ℝ), k ≤ ss.length →
      ∃ N, ∀ outer ≥ N, stages c p C (f + 1) outer k ss W mu ≠ .error .recursion := by
  intro k
  induction k with
  | zero => intro ss W mu _; exact ⟨0, fun _ _ => by simp [stages]⟩
  | succ k ih =>
    intro ss W mu hk
    cases ss with
    | nil => simp at hk
    | cons s ss =>
      obtain ⟨m, hm⟩ := exists_nat_gt ((0.9 - s) * 10)
      obtain ⟨N, hN⟩ := retry_ends c C f mu (if k = 0 then p.maxIter else p.warmIter) m W p.lr s hlr (by norm_num at hm ⊢; linarith)
      have hmono := retry_mono c C (f + 1) mu _ N W p.lr s hN
      rcases hr : retry c C (f + 1) mu (if k = 0 then p.maxIter else p.warmIter) N W p.lr s with e | ⟨W', s'⟩
      · refine ⟨N, fun outer ho => ?_⟩
        rw [stages, hmono outer ho, hr]
        intro h
        cases h
        exact hN hr
      · obtain ⟨N', hN'⟩ := ih ss W' (mu * p.muFactor) (by simpa using hk)
        refine ⟨max N N', fun outer ho => ?_⟩
        rw [stages, hmono outer (le_trans (le_max_left _ _) ho), hr]
        have := hN' outer (le_trans (le_max_right _ _) ho)
        simp only
        rcases hst : stages c p C (f + 1) outer k ss W' (mu * p.muFactor) with e | ⟨W'', ss'⟩
        · rw [hst] at this
          simp only
          intro h; cases h; exact this rfl
        · simp

theorem padS_length {T : Nat} {s s' : List ℝ} (h : padS T s = .ok s') : T ≤ s'.length ∧ (∃ t, s' = s ++ t) := by
  unfold padS at h
  by_cases hl : s.length < T
  · rw [if_pos hl] at h
    rcases hg : s.getLast? with _ | l
    · rw [hg] at h; cases h
    · rw [hg] at h; cases h
      exact ⟨by simp; omega, _, rfl⟩
  · rw [if_neg hl] at h; cases h
    exact ⟨by omega, [], by simp⟩

/-- C132. The training ends for every data set and all settings: there is a number of retries after which no stage fails any more, whatever
happens before (`f` bounds the halvings of the learning rate in the inner loop). -/
theorem C132_train_ends (c : Cfg) (p : Disc) (f : Nat) (hlr : p.lr ≤ 1e-16 * 2 ^ f) (ss : List ℝ) (X : Matrix (Fin n) (Fin d) ℝ) :
    ∃ N, ∀ outer ≥ N, Dagma.train c p (f + 1) outer ss X ≠ .error .recursion := by
  rcases hp : padS p.T ss with e | ss'
  · refine ⟨0, fun outer _ => ?_⟩
    rw [Dagma.train, hp]
    unfold padS at hp
    by_cases hl : ss.length < p.T
    · rw [if_pos hl] at hp
      rcases hg : ss.getLast? with _ | l
      · rw [hg] at hp; cases hp; simp
      · rw [hg] at hp; cases hp
    · rw [if_neg hl] at hp; cases hp
  · obtain ⟨N, hN⟩ := stages_ends c p (cov X) f hlr p.T ss' 0 p.muInit (padS_length hp).1
    exact ⟨N, fun outer ho => by rw [Dagma.train, hp]; exact hN outer ho⟩

/-- the default learning rate meets the bound of `C132_train_ends` with 42 halvings -/
example : (0.0003 : ℝ) ≤ 1e-16 * 2 ^ 42 := by norm_num

/-- `s` grows by tenths -/
theorem retry_s (c : Cfg) (C : Mx d) (inner : Nat) (mu : ℝ) (iters : Nat) : ∀ (f : Nat) (W : Mx d) (lr s : ℝ) (W' : Mx d) (s' : ℝ),
    retry c C inner mu iters f W lr s = .ok (W', s') → ∃ m : Nat, s' = s + 0.1 * m := by
  intro f
  induction f with
  | zero => intro W lr s W' s' h; cases h
  | succ f ih =>
    intro W lr s W' s' h
    rw [retry] at h
    rcases hm : minimize c C inner W mu iters lr s with e | ⟨W1, ok⟩
    · rw [hm] at h; cases h
    · rw [hm] at h
      cases ok with
      | true => cases h; exact ⟨0, by simp⟩
      | false =>
        obtain ⟨m, hm⟩ := ih _ _ _ _ _ h
        exact ⟨m + 1, by rw [hm]; push_cast; ring⟩

theorem stages_s (c : Cfg) (p : Disc) (C : Mx d) (inner outer : Nat) : ∀ (k : Nat) (ss : List ℝ) (W : Mx d) (mu : ℝ) (W' : Mx d) (ss' : List ℝ),
    stages c p C inner outer k ss W mu = .ok (W', ss') →
      List.Forall₂ (fun a b : ℝ => ∃ m : Nat, b = a + 0.1 * m) ss ss' := by
  intro k
  induction k with
  | zero =>
    intro ss W mu W' ss' h
    rw [stages] at h; cases h
    exact List.forall₂_same.2 (fun a _ => ⟨0, by simp⟩)
  | succ k ih =>
    intro ss W mu W' ss' h
    cases ss with
    | nil => rw [stages] at h; cases h
    | cons s ss =>
      rw [stages] at h
      rcases hr : retry c C inner mu (if k = 0 then p.maxIter else p.warmIter) outer W p.lr s with e | ⟨W1, s1⟩
      · rw [hr] at h; cases h
      · rw [hr] at h
        simp only at h
        rcases hst : stages c p C inner outer k ss W1 (mu * p.muFactor) with e | ⟨W2, ss2⟩
        · rw [hst] at h; cases h
        · rw [hst] at h; cases h
          exact .cons (retry_s _ _ _ _ _ _ _ _ _ _ _ hr) (ih _ _ _ _ _ hst)

/-- C132. What a call leaves behind in `self.s`: the padded list, each entry larger by a number of tenths (the retries of that stage). -/
theorem C132_s (c : Cfg) (p : Disc) (inner outer : Nat) (ss ss' : List ℝ) (X : Matrix (Fin n) (Fin d) ℝ) (W : Mx d)
    (h : Dagma.train c p inner outer ss X = .ok (W, ss')) :
    ∃ t, List.Forall₂ (fun a b : ℝ => ∃ m : Nat, b = a + 0.1 * m) (ss ++ t) ss' := by
  rw [Dagma.train] at h
  rcases hp : padS p.T ss with e | s1
  · rw [hp] at h; cases h
  · rw [hp] at h
    obtain ⟨t, rfl⟩ := (padS_length hp).2
    exact ⟨t, stages_s _ _ _ _ _ _ _ _ _ _ _ h⟩
end

/-! ### the history of the object matters -/

section History

theorem one_inv (x : ℝ) (_h : x ≠ 0) : ((Matrix.of ![![x]] : Mx 1)⁻¹) = Matrix.of ![![x⁻¹]] := by
  refine Matrix.inv_eq_right_inv ?_
  ext i j
  fin_cases i; fin_cases j
  simp [Matrix.mul_apply, _h]

/-- the 1 × 1 matrix -/
def mx1 (w : ℝ) : Mx 1 := Matrix.of ![![w]]

theorem mx1_sub (a b : ℝ) : mx1 a - mx1 b = mx1 (a - b) := by
  ext i j; fin_cases i; fin_cases j; simp [mx1]

theorem mMatrix_one (s w : ℝ) : mMatrix s (mx1 w) = mx1 (s - w * w) := by
  ext i j; fin_cases i; fin_cases j; simp [mMatrix, mx1]

theorem invPlus_one (s w : ℝ) (h : s - w * w ≠ 0) : invPlus s (mx1 w) = .ok (mx1 ((s - w * w)⁻¹ + 1e-16)) := by
  unfold invPlus
  have hd : (mMatrix s (mx1 w)).det ≠ 0 := by rw [mMatrix_one]; simpa [mx1] using h
  rw [if_neg hd, mMatrix_one]
  have : (mx1 (s - w * w))⁻¹ = mx1 ((s - w * w)⁻¹) := one_inv _ h
  rw [this]
  congr 1
  ext i j; fin_cases i; fin_cases j; simp [mx1]

theorem anyNeg_one (x : ℝ) : anyNeg (mx1 x) ↔ x < 0 := by
  constructor
  · rintro ⟨i, j, h⟩
    fin_cases i; fin_cases j; simpa [mx1] using h
  · intro h; exact ⟨0, 0, by simpa [mx1] using h⟩

/-- one Adam step from fresh moments: the gradient over its absolute value plus `1e-8` -/
theorem adam_first (g : ℝ) : (adam Cfg.default (0 : Mx 1) 0 (mx1 g) 1).2.2 = mx1 (g / (|g| + 1e-8)) := by
  ext i j; fin_cases i; fin_cases j
  simp only [adam, Cfg.default, mx1]
  simp
  have h1 : (1 - 0.99) * g / (1 - 0.99 : ℝ) = g := by field_simp
  have h2 : (1 - 0.999) * g ^ 2 / (1 - 0.999 : ℝ) = g ^ 2 := by
    rw [mul_div_cancel_left₀]; norm_num
  rw [h1, h2, Real.sqrt_sq_eq_abs]

/-- a call of `minimize` with one iteration on one variable, inside of the region -/
theorem minimize_one (c0 mu lr s w : ℝ) (inner : Nat) (h : 0 < s - w * w) :
    minimize Cfg.default (mx1 c0) (inner + 1) (mx1 w) mu 1 lr s =
      .ok (mx1 (w - lr * ((-mu * (c0 * (1 - w)) + mu * 0.02 * (SignType.sign w : ℝ) + 2 * w * ((s - w * w)⁻¹ + 1e-16)) /
        (|-mu * (c0 * (1 - w)) + mu * 0.02 * (SignType.sign w : ℝ) + 2 * w * ((s - w * w)⁻¹ + 1e-16)| + 1e-8))), true) := by
  have hpos : ¬ anyNeg (mx1 ((s - w * w)⁻¹ + 1e-16)) := by
    rw [anyNeg_one, not_lt]
    have := inv_pos.2 h
    positivity
  unfold minimize
  rw [minLoop]
  simp only [invPlus_one s w h.ne', backtrack, if_neg hpos]
  have hg : gObj Cfg.default.lam (mx1 c0) mu (mx1 w) (mx1 ((s - w * w)⁻¹ + 1e-16)) =
      mx1 (-mu * (c0 * (1 - w)) + mu * 0.02 * (SignType.sign w : ℝ) + 2 * w * ((s - w * w)⁻¹ + 1e-16)) := by
    ext i j; fin_cases i; fin_cases j
    simp [gObj, mx1, Cfg.default, Matrix.mul_apply]
  rw [hg, adam_first]
  have hw : ∀ g : ℝ, mx1 w - lr • mx1 g = mx1 (w - lr * g) := fun g => by
    ext i j; fin_cases i; fin_cases j; simp [mx1]
  simp only [hw, or_true, if_true, minLoop, ite_self]

/-- outside of the region it fails at once -/
theorem minimize_fail (c0 mu lr s w : ℝ) (inner : Nat) (h : s - w * w < 0) (h2 : (s - w * w)⁻¹ + 1e-16 < 0) :
    minimize Cfg.default (mx1 c0) (inner + 1) (mx1 w) mu 1 lr s = .ok (mx1 w, false) := by
  have hneg : anyNeg (mx1 ((s - w * w)⁻¹ + 1e-16)) := (anyNeg_one _).2 h2
  unfold minimize
  rw [minLoop]
  simp [invPlus_one s w h.ne, backtrack, hneg]

/-- the weight after the first stage of the example -/
noncomputable def w1 : ℝ := 0.97 * (1 / (1 + 1e-8))

theorem w1_bounds : 0.9 < w1 * w1 ∧ w1 * w1 < 0.95 ∧ 0.9 < w1 ∧ w1 < 1 := by
  unfold w1; norm_num

/-- the settings of the example: two stages of one iteration each, learning rate 0.97 -/
noncomputable def histDisc : Disc := ⟨2, 0.97, 1, 0.1, 1, 1⟩

/-- the gradient in the second stage of the example -/
noncomputable def g2 : ℝ := -(0.1) * (1 * (1 - w1)) + 0.1 * 0.02 * (SignType.sign w1 : ℝ) + 2 * w1 * ((1 - w1 * w1)⁻¹ + 1e-16)

theorem cov_unit : cov (Matrix.of ![![(1 : ℝ)]] : Matrix (Fin 1) (Fin 1) ℝ) = mx1 1 := by
  ext i j; fin_cases i; fin_cases j; simp [cov, mx1, Matrix.mul_apply]

theorem hist_stage1 (inner : Nat) : minimize Cfg.default (mx1 1) (inner + 1) (0 : Mx 1) 1 1 0.97 1 = .ok (mx1 w1, true) := by
  have h0 : (0 : Mx 1) = mx1 0 := by ext i j; fin_cases i; fin_cases j; simp [mx1]
  rw [h0, minimize_one 1 1 0.97 1 0 inner (by norm_num)]
  congr 3
  unfold w1
  norm_num

theorem hist_train (inner : Nat) (s2 : ℝ) (tl : List ℝ) (h : s2 = 0.9 ∨ s2 = 1) :
    Dagma.train Cfg.default histDisc (inner + 1) 2 (1 :: s2 :: tl) (Matrix.of ![![(1 : ℝ)]] : Matrix (Fin 1) (Fin 1) ℝ) =
      .ok (mx1 (w1 - (if s2 = 1 then 0.97 else 0.485) * (g2 / (|g2| + 1e-8))), 1 :: 1 :: tl) := by
  have hpad : padS histDisc.T (1 :: s2 :: tl) = .ok (1 :: s2 :: tl) := by
    unfold padS histDisc; rw [if_neg (by simp)]
  obtain ⟨b1, b2, -, -⟩ := w1_bounds
  have hok : ∀ lr : ℝ, minimize Cfg.default (mx1 1) (inner + 1) (mx1 w1) 0.1 1 lr 1 =
      .ok (mx1 (w1 - lr * (g2 / (|g2| + 1e-8))), true) := fun lr => minimize_one 1 0.1 lr 1 w1 inner (by linarith)
  rw [Dagma.train, hpad, cov_unit]
  simp only [histDisc, stages, retry, hist_stage1 inner, if_true, ite_self]
  have hmu : (1 : ℝ) * 0.1 = 0.1 := by norm_num
  rw [hmu]
  rcases h with h | h
  · subst h
    have hf : minimize Cfg.default (mx1 1) (inner + 1) (mx1 w1) 0.1 1 0.97 0.9 = .ok (mx1 w1, false) := by
      refine minimize_fail 1 0.1 0.97 0.9 w1 inner (by linarith) ?_
      have h1 : 0 < w1 * w1 - 0.9 := by linarith
      have h2 : w1 * w1 - 0.9 < 1 := by linarith
      have h3 : (0.9 - w1 * w1)⁻¹ = -(w1 * w1 - 0.9)⁻¹ := by rw [← inv_neg, neg_sub]
      have h4 : 1 < (w1 * w1 - 0.9)⁻¹ := (one_lt_inv₀ h1).2 h2
      rw [h3]
      norm_num at h4 ⊢
      linarith
    have hs : (0.9 : ℝ) + 0.1 = 1 := by norm_num
    have hl : (0.97 : ℝ) * 0.5 = 0.485 := by norm_num
    rw [hf]
    simp only [hs, hl, hok]
    rw [if_neg (by norm_num : ¬ (0.9 : ℝ) = 1)]
  · subst h
    simp only [hok, if_true]

/-- C132, a second training of the same object on the same data gives other weights: `self.s` keeps the increments of the
failed attempts. One variable, one row of data, two stages of one iteration, learning rate 0.97. -/
theorem C132_history_refuted (inner : Nat) :
    ∃ (X : Matrix (Fin 1) (Fin 1) ℝ) (W W' : Mx 1) (ss ss' : List ℝ),
      Dagma.train Cfg.default histDisc (inner + 1) 2 sInit X = .ok (W, ss) ∧ ss ≠ sInit ∧
      Dagma.train Cfg.default histDisc (inner + 1) 2 ss X = .ok (W', ss') ∧ W' ≠ W := by
  refine ⟨Matrix.of ![![1]], mx1 (w1 - (if (0.9 : ℝ) = 1 then 0.97 else 0.485) * (g2 / (|g2| + 1e-8))), _, [1, 1, 0.8, 0.7, 0.6], [1, 1, 0.8, 0.7, 0.6], ?_, ?_, hist_train inner 1 [0.8, 0.7, 0.6] (.inr rfl), ?_⟩
  · have : sInit = 1 :: 0.9 :: [0.8, 0.7, 0.6] := by unfold sInit; norm_num
    rw [this]
    exact hist_train inner 0.9 [0.8, 0.7, 0.6] (.inl rfl)
  · unfold sInit; norm_num
  · intro h
    have h1 := congrFun (congrFun h 0) 0
    rw [if_pos rfl, if_neg (by norm_num : ¬ (0.9 : ℝ) = 1)] at h1
    simp only [mx1, Matrix.of_apply, Matrix.cons_val_zero] at h1
    obtain ⟨b1, b2, b3, b4⟩ := w1_bounds
    have hg : 0 < g2 := by
      have hi : 1 ≤ (1 - w1 * w1)⁻¹ := (one_le_inv₀ (by linarith)).2 (by linarith)
      have hs : (SignType.sign w1 : ℝ) = 1 := by rw [sign_pos (by linarith)]; rfl
      unfold g2
      rw [hs]
      norm_num at b3 b4 ⊢
      nlinarith
    have hq : 0 < g2 / (|g2| + 1e-8) := div_pos hg (by positivity)
    norm_num at h1 hq
    rcases h1 with h1 | h1
    · linarith
    · rw [h1, div_zero] at hq; exact lt_irrefl _ hq

/-- C132, the arguments `lr`, `T`, `warm_iter`, `s` and `max_iter` of the call and the constructor's `lambdaa` have no effect: only the
settings of the object (apart from `lambdaa`) and the threshold matter. -/
theorem C132_arguments_refuted {d n : Nat} (p : Disc) (l l' : ℝ) (a a' : CallArgs) (h : a.threshold = a'.threshold) (f inner outer : Nat)
    (ss : List ℝ) (X : Matrix (Fin n) (Fin d) ℝ) : call p l a f inner outer ss X = call p l' a' f inner outer ss X := by
  unfold call
  rw [h]
end History
end YL.Props
