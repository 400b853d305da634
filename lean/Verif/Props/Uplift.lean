import Verif.Model.Uplift
import Verif.Spec.Uplift
import Mathlib.Algebra.Order.Ring.Rat
import Mathlib.Algebra.Order.Field.Basic
import Mathlib.Tactic.Linarith
import Mathlib.Tactic.Ring
import Mathlib.Tactic.FieldSimp
import Mathlib.Data.List.Sort

/-!
# C30-C34: uplift curves
-/

set_option linter.unusedSectionVars false

namespace YL.Props

open YL Spec Uplift

variable {S τ K : Type} [LinearOrder S] [DecidableEq τ] [Field K] [LinearOrder K] [IsStrictOrderedRing K]

/-- forget the score -/
def person (r : Row S τ K) : Person τ K := ⟨r.y, r.x, r.effect⟩

/-- `sorted` lists the rows by decreasing score (ties in any order). -/
def Ranked (rows sorted : List (Row S τ K)) : Prop :=
  sorted.Perm rows ∧ sorted.Pairwise (fun a b => b.score ≤ a.score)

/-- The statistic each curve stands for. -/
def stat (kind : Kind) (trueEffect : Bool) (t c : τ) (l : List (Person τ K)) : K :=
  match kind, trueEffect with
  | .lift, false => upliftOf t c l
  | .gain, false => gainOf t c l
  | .qini, false => qiniOf t c l
  | .lift, true => totalEffect l / (l.length : K)
  | .gain, true => totalEffect l
  | .qini, true => totalEffect l / (l.length : K) * (armSize t l : K)

theorem cumsum_length (a : K) (l : List K) : (cumsum a l).length = l.length := by
  induction l generalizing a with
  | nil => rfl
  | cons b l ih => simp [cumsum, ih]

theorem cumsum_get (l : List K) : ∀ (a : K) (k : Nat), k < l.length → (cumsum a l)[k]? = some (a + (l.take (k + 1)).sum) := by
  induction l with
  | nil => intro a k hk; simp at hk
  | cons b l ih =>
    intro a k hk
    cases k with
    | zero => simp [cumsum]
    | succ k =>
      rw [cumsum, List.getElem?_cons_succ, ih (a + b) k (by simpa using hk)]
      simp [add_assoc]

variable (t c : τ)

theorem sum_ind (l : List (Row S τ K)) :
    (l.map (fun r => if r.x = t then (1 : K) else 0)).sum = (armSize t (l.map person) : K) := by
  induction l with
  | nil => simp [armSize]
  | cons r l ih =>
    simp only [List.map_cons, List.sum_cons, ih, armSize, List.filter_cons, person]
    by_cases h : r.x = t
    · simp [h]; ring
    · simp [h]

theorem sum_yarm (l : List (Row S τ K)) :
    (l.map (fun r => r.y * (if r.x = t then (1 : K) else 0))).sum = armTotal t (l.map person) := by
  induction l with
  | nil => simp [armTotal]
  | cons r l ih =>
    simp only [List.map_cons, List.sum_cons, ih, armTotal, List.filter_cons, person]
    by_cases h : r.x = t
    · simp [h]
    · simp [h]

variable {t c}

theorem armSize_add (htc : t ≠ c) {l : List (Row S τ K)} (h : ∀ r ∈ l, r.x = t ∨ r.x = c) :
    armSize t (l.map person) + armSize c (l.map person) = l.length := by
  induction l with
  | nil => simp [armSize]
  | cons r l ih =>
    have ih' := ih (fun r hr => h r (List.mem_cons_of_mem _ hr))
    simp only [armSize, List.map_cons, List.filter_cons, person, List.length_cons] at ih' ⊢
    rcases h r (by simp) with e | e
    · simp only [e, htc, decide_true, decide_false, if_true, List.length_cons, Bool.false_eq_true, if_false]
      omega
    · simp only [e, htc.symm, decide_true, decide_false, if_true, List.length_cons, Bool.false_eq_true, if_false]
      omega

section cols
variable {l : List (Row S τ K)} {k : Nat} (hk : k < l.length)
include hk

theorem xTr_get : (xTr t l)[k]? = some ((armSize t ((l.take (k + 1)).map person) : K)) := by
  unfold xTr
  rw [cumsum_get _ _ _ (by simpa using hk), zero_add, ← List.map_take, sum_ind]

theorem yArm_get : (yArm t l)[k]? = some (armTotal t ((l.take (k + 1)).map person)) := by
  unfold yArm
  rw [cumsum_get _ _ _ (by simpa using hk), zero_add, ← List.map_take, sum_yarm]

theorem index_get : (index l)[k]? = some ((k + 1 : Nat) : K) := by
  simp [index, hk, add_comm]

theorem xCt_get (htc : t ≠ c) (h : ∀ r ∈ l, r.x = t ∨ r.x = c) :
    (xCt t l)[k]? = some ((armSize c ((l.take (k + 1)).map person) : K)) := by
  unfold xCt
  rw [List.getElem?_zipWith, index_get hk, xTr_get hk]
  have := armSize_add htc (l := l.take (k + 1)) (fun r hr => h r (List.mem_of_mem_take hr))
  rw [List.length_take, Nat.min_eq_left hk] at this
  have e : ((k + 1 : Nat) : K) = (armSize t ((l.take (k + 1)).map person) : K) + (armSize c ((l.take (k + 1)).map person) : K) := by
    exact_mod_cast this.symm
  simp only [Option.some.injEq]
  rw [e]
  ring

theorem effect_get : (cumsum 0 (l.map (·.effect)))[k]? = some (totalEffect ((l.take (k + 1)).map person)) := by
  rw [cumsum_get _ _ _ (by simpa using hk), zero_add, ← List.map_take]
  simp [totalEffect, person, Function.comp_def]

end cols

/-- both arms occur -/
def BothArms (t c : τ) (l : List (Person τ K)) : Prop := armSize t l ≠ 0 ∧ armSize c l ≠ 0

instance (l : List (Person τ K)) : Decidable (BothArms t c l) := inferInstanceAs (Decidable (_ ∧ _))

theorem armsOk_iff {l : List (Row S τ K)} : armsOk t c l = true ↔
    (∀ r ∈ l, r.x = t ∨ r.x = c) ∧ BothArms t c (l.map person) := by
  unfold armsOk BothArms armSize
  simp only [Bool.and_eq_true, List.all_eq_true, List.any_eq_true, decide_eq_true_eq, ne_eq, List.length_eq_zero_iff,
    List.filter_eq_nil_iff, List.mem_map, forall_exists_index, and_imp, forall_apply_eq_imp_iff₂, person, not_forall,
    not_not, and_assoc, exists_prop]

theorem natCast_ne {m : Nat} (h : m ≠ 0) : (m : K) ≠ 0 := by exact_mod_cast h

theorem div_ne {a b : K} (h : b ≠ 0) : Uplift.div a b = some (a / b) := by simp [Uplift.div, h]

/-- The statistic is a number: with a true effect always; lift and gain need both arms, qini needs a control. -/
def Defined (kind : Kind) (te : Bool) (t c : τ) (l : List (Person τ K)) : Prop :=
  te = true ∨ (armSize c l ≠ 0 ∧ (kind = .qini ∨ armSize t l ≠ 0))

instance (kind : Kind) (te : Bool) (l : List (Person τ K)) : Decidable (Defined kind te t c l) :=
  inferInstanceAs (Decidable (_ ∨ _))

theorem column_some {kind : Kind} {te : Bool} {l : List (Row S τ K)} {r : List (Option K)} (htc : t ≠ c)
    (hok : column kind te t c l = .ok r) : r.length = l.length ∧
    ∀ k < l.length, r[k]? = some (if Defined kind te t c ((l.take (k + 1)).map person) then
      some (stat kind te t c ((l.take (k + 1)).map person)) else none) := by
  have hlen : ∀ k < l.length, ((l.take (k + 1)).map person).length = k + 1 := by
    intro k hk; simp; omega
  have hcast : ∀ k : Nat, ((k + 1 : Nat) : K) ≠ 0 := fun k => natCast_ne (Nat.succ_ne_zero k)
  cases te with
  | true =>
    refine ⟨?_, fun k hk => ?_⟩
    · cases kind <;> simp only [column] at hok
      · cases hok; simp [cumsum_length, index]
      · cases hok; simp [cumsum_length, index]
      · split at hok
        · cases hok; simp [cumsum_length, index, xTr]
        · cases hok
    · rw [if_pos (show Defined kind true t c _ from Or.inl rfl)]
      cases kind <;> simp only [column] at hok
      · cases hok
        simp only [List.getElem?_zipWith, effect_get hk, index_get hk, div_ne (hcast k), stat, hlen k hk]
      · cases hok
        simp only [List.getElem?_zipWith, effect_get hk, index_get hk, div_ne (hcast k), stat, mulc]
        rw [div_mul_cancel₀ _ (hcast k)]
      · split at hok
        · cases hok
          simp only [List.getElem?_zipWith, effect_get hk, index_get hk, xTr_get hk, div_ne (hcast k), stat, mulc, hlen k hk]
        · cases hok
  | false =>
    have hb : armsOk t c l = true := by
      by_contra h
      cases kind <;> simp only [column, if_neg h] at hok <;> cases hok
    obtain ⟨harms, _⟩ := armsOk_iff.1 hb
    refine ⟨?_, fun k hk => ?_⟩
    · cases kind <;> simp only [column, if_pos hb, Except.ok.injEq] at hok <;> cases hok <;>
        simp [cumsum_length, index, xTr, xCt, yArm]
    · by_cases h1 : armSize t ((l.take (k + 1)).map person) = 0 <;>
      by_cases h2 : armSize c ((l.take (k + 1)).map person) = 0 <;>
      cases kind <;> simp only [column, if_pos hb, Except.ok.injEq] at hok <;> cases hok <;>
      simp [-List.map_take, List.getElem?_zipWith, List.getElem?_map, Option.map_some, yArm_get hk, index_get hk, xTr_get hk,
            xCt_get hk htc harms, h1, h2, Uplift.div, sub, mulc, stat, Defined,
            upliftOf, gainOf, qiniOf, hlen k hk]

theorem armSize_mono (a : τ) {l l' : List (Person τ K)} (h : l.Sublist l') : armSize a l ≤ armSize a l' :=
  (h.filter _).length_le

theorem defined_mono {kind : Kind} {te : Bool} {l : List (Row S τ K)} {j k : Nat} (hjk : j ≤ k)
    (h : Defined kind te t c ((l.take j).map person)) : Defined kind te t c ((l.take k).map person) := by
  have hs : ((l.take j).map (person (K := K))).Sublist ((l.take k).map person) := by
    apply List.Sublist.map
    rw [← Nat.min_eq_left hjk, ← List.take_take]
    exact List.take_sublist _ _
  rcases h with h | ⟨h1, h2⟩
  · exact Or.inl h
  · have a1 := armSize_mono c hs
    have a2 := armSize_mono t hs
    refine Or.inr ⟨by omega, h2.imp id (fun h => by omega)⟩

theorem nextValid_drop {l : List (Option K)} {m : Nat} {v : K} (hm : l[m]? = some (some v)) :
    ∀ d j : Nat, j + d = m → (∀ i, j ≤ i → i < m → l[i]? = some none) → nextValid (l.drop j) j = some (m, v) := by
  intro d
  induction d with
  | zero =>
    intro j hj _
    have hj : j = m := by omega
    subst hj
    obtain ⟨hlt, he⟩ := List.getElem?_eq_some_iff.1 hm
    rw [List.drop_eq_getElem_cons hlt, he]
    rfl
  | succ d ih =>
    intro j hj hn
    obtain ⟨hlt, he⟩ := List.getElem?_eq_some_iff.1 (hn j le_rfl (by omega))
    rw [List.drop_eq_getElem_cons hlt, he]
    exact ih (j + 1) (by omega) (fun i hi hi' => hn i (by omega) hi')

theorem prevValid_zero {l : List (Option K)} {m : Nat} {a : K} (h0 : l[0]? = some (some a))
    (hn : ∀ i, 1 ≤ i → i < m → l[i]? = some none) : ∀ i, 1 ≤ i → i ≤ m → prevValid l i = some (0, a) := by
  intro i
  induction i with
  | zero => intro h; omega
  | succ i ih =>
    intro _ hi
    cases i with
    | zero => simp [prevValid, h0]
    | succ i => rw [prevValid, hn (i + 1) (by omega) (by omega)]; exact ih (by omega) (by omega)

theorem interpolate_get {l : List (Option K)} {i : Nat} (hi : i < l.length) :
    (interpolate l)[i]? = some (interpAt l i) := by simp [interpolate, hi]

theorem interpAt_valid {l : List (Option K)} {i : Nat} {v : K} (h : l[i]? = some (some v)) : interpAt l i = some v := by
  simp [interpAt, h]

theorem interpAt_gap {l : List (Option K)} {m k : Nat} {v : K} (h0 : l[0]? = some (some 0)) (hm : l[m]? = some (some v))
    (hn : ∀ i, 1 ≤ i → i < m → l[i]? = some none) (hk : 1 ≤ k) (hkm : k < m) :
    interpAt l k = some (v * (k : K) / (m : K)) := by
  unfold interpAt
  rw [hn k hk hkm, prevValid_zero h0 hn k hk (by omega),
    nextValid_drop hm (m - (k + 1)) (k + 1) (by omega) (fun i hi hi' => hn i (by omega) hi')]
  simp

/-- the `k` rows with the highest scores -/
def topK (sorted : List (Row S τ K)) (k : Nat) : List (Person τ K) := (sorted.take k).map person

theorem column_top {kind : Kind} {te : Bool} {l : List (Row S τ K)} {r : List (Option K)} (htc : t ≠ c)
    (hok : column kind te t c l = .ok r) : r.length = l.length ∧
    ∀ k < l.length, r[k]? = some (if Defined kind te t c (topK l (k + 1)) then
      some (stat kind te t c (topK l (k + 1))) else none) := column_some htc hok

theorem idxmax_get {r : List (Option K)} {i : Nat} {v : K} (h : idxmax r = some (i, v)) : r[i]? = some (some v) ∧
    (∀ (j : Nat) (u : K), r[j]? = some (some u) → u ≤ v) ∧ (∀ (j : Nat) (u : K), j < i → r[j]? = some (some u) → u < v) := by
  induction r generalizing i v with
  | nil => cases h
  | cons a r ih =>
    cases a with
    | none =>
      cases h' : idxmax r with
      | none => simp [idxmax, h'] at h
      | some p =>
        obtain ⟨i', v'⟩ := p
        simp only [idxmax, h', Option.some.injEq, Prod.mk.injEq] at h
        obtain ⟨rfl, rfl⟩ := h
        obtain ⟨h1, h2, h3⟩ := ih h'
        refine ⟨by simpa using h1, fun j u hj => ?_, fun j u hji hj => ?_⟩
        · cases j with
          | zero => simp at hj
          | succ j => exact h2 j u (by simpa using hj)
        · cases j with
          | zero => simp at hj
          | succ j => exact h3 j u (by omega) (by simpa using hj)
    | some w =>
      cases h' : idxmax r with
      | none =>
        simp only [idxmax, h', Option.some.injEq, Prod.mk.injEq] at h
        obtain ⟨rfl, rfl⟩ := h
        refine ⟨rfl, fun j u hj => ?_, fun j u hji => by omega⟩
        cases j with
        | zero => simp at hj; exact hj.ge
        | succ j =>
          exfalso
          have : ∀ (r : List (Option K)), idxmax r = none → ∀ (j : Nat) (u : K), r[j]? = some (some u) → False := by
            intro r
            induction r with
            | nil => intro _ j u hj; simp at hj
            | cons a r ih2 =>
              intro hn j u hj
              cases a with
              | some w => simp only [idxmax] at hn; cases hq : idxmax r <;> rw [hq] at hn <;> simp at hn; split at hn <;> simp at hn
              | none =>
                cases hq : idxmax r with
                | some p => simp [idxmax, hq] at hn
                | none =>
                  cases j with
                  | zero => simp at hj
                  | succ j => exact ih2 hq j u (by simpa using hj)
          exact this r h' j u (by simpa using hj)
      | some p =>
        obtain ⟨i', v'⟩ := p
        simp only [idxmax, h'] at h
        obtain ⟨h1, h2, h3⟩ := ih h'
        split at h
        · rename_i hle
          simp only [Option.some.injEq, Prod.mk.injEq] at h
          obtain ⟨rfl, rfl⟩ := h
          refine ⟨rfl, fun j u hj => ?_, fun j u hji => by omega⟩
          cases j with
          | zero => simp at hj; exact hj.ge
          | succ j => exact (h2 j u (by simpa using hj)).trans hle
        · rename_i hle
          simp only [Option.some.injEq, Prod.mk.injEq] at h
          obtain ⟨rfl, rfl⟩ := h
          refine ⟨by simpa using h1, fun j u hj => ?_, fun j u hji hj => ?_⟩
          · cases j with
            | zero => simp at hj; rw [← hj]; exact (not_le.1 hle).le
            | succ j => exact h2 j u (by simpa using hj)
          · cases j with
            | zero => simp at hj; rw [← hj]; exact not_le.1 hle
            | succ j => exact h3 j u (by omega) (by simpa using hj)

theorem idxmax_some {r : List (Option K)} {j : Nat} {u : K} (h : r[j]? = some (some u)) : ∃ p, idxmax r = some p := by
  induction r generalizing j with
  | nil => simp at h
  | cons a r ih =>
    cases hq : idxmax r with
    | some p => cases a <;> simp only [idxmax, hq]
                · exact ⟨_, rfl⟩
                · split <;> exact ⟨_, rfl⟩
    | none =>
      cases a with
      | some w => exact ⟨_, by simp only [idxmax, hq]; rfl⟩
      | none =>
        cases j with
        | zero => simp at h
        | succ j => obtain ⟨p, hp⟩ := ih (j := j) (by simpa using h); rw [hq] at hp; cases hp

theorem cumulate_ok {sort : List (Row S τ K) → List (Row S τ K)} {kind : Kind} {te : Bool} {rows : List (Row S τ K)}
    {curve : List (Option K)} {top : S} (h : cumulate sort kind te t c rows = .ok (curve, top)) :
    ∃ (r : List (Option K)) (i : Nat) (v : K) (row : Row S τ K), column kind te t c (sort rows) = .ok r ∧ curve = interpolate (some 0 :: r) ∧
      idxmax r = some (i, v) ∧ (sort rows)[i]? = some row ∧ row.score = top := by
  unfold cumulate at h
  simp only at h
  split at h
  · cases h
  · rename_i r hr
    cases hm : idxmax r with
    | none => simp [hm] at h
    | some p =>
      obtain ⟨i, v⟩ := p
      cases hs : (sort rows)[i]? with
      | none => simp [hm, hs] at h
      | some row =>
        simp [hm, hs] at h
        exact ⟨r, i, v, row, hr, h.1.symm, hm, hs, h.2⟩

/-- **C30**: row 0 of the curve is zero, and row `k` is the stated statistic of the `k` highest scored rows whenever
that statistic is defined. -/
theorem C30_curve {sort : List (Row S τ K) → List (Row S τ K)} {kind : Kind} {te : Bool} {rows : List (Row S τ K)}
    {curve : List (Option K)} {top : S} (htc : t ≠ c) (hs : Ranked rows (sort rows))
    (h : cumulate sort kind te t c rows = .ok (curve, top)) :
    curve.length = rows.length + 1 ∧ curve[0]? = some (some 0) ∧
    ∀ k, 1 ≤ k → k ≤ rows.length → Defined kind te t c (topK (sort rows) k) →
      curve[k]? = some (some (stat kind te t c (topK (sort rows) k))) := by
  obtain ⟨r, i, v, row, hr, rfl, -, -, -⟩ := cumulate_ok h
  obtain ⟨hl, hv⟩ := column_top htc hr
  have hl' : r.length = rows.length := hl.trans hs.1.length_eq
  refine ⟨by simp [interpolate, hl'], ?_, fun k hk hkn hd => ?_⟩
  · rw [interpolate_get (by simp), interpAt_valid (v := 0) (by simp)]
  · obtain ⟨k, rfl⟩ : ∃ j, k = j + 1 := ⟨k - 1, by omega⟩
    rw [interpolate_get (by simp; omega), interpAt_valid]
    rw [List.getElem?_cons_succ, hv k (by omega), if_pos hd]

/-- **C30**: before the first population `m` at which the statistic is defined (as long as only one arm has been met)
the curve is the straight line from 0 to that point. -/
theorem C30_gap {sort : List (Row S τ K) → List (Row S τ K)} {kind : Kind} {te : Bool} {rows : List (Row S τ K)}
    {curve : List (Option K)} {top : S} {k m : Nat} (htc : t ≠ c) (hs : Ranked rows (sort rows))
    (h : cumulate sort kind te t c rows = .ok (curve, top)) (hk : 1 ≤ k) (hkm : k < m) (hm : m ≤ rows.length)
    (hd : Defined kind te t c (topK (sort rows) m)) (hn : ¬ Defined kind te t c (topK (sort rows) (m - 1))) :
    curve[k]? = some (some (stat kind te t c (topK (sort rows) m) * (k : K) / (m : K))) := by
  obtain ⟨r, i, v, row, hr, rfl, -, -, -⟩ := cumulate_ok h
  obtain ⟨hl, hv⟩ := column_top htc hr
  have hl' : r.length = rows.length := hl.trans hs.1.length_eq
  rw [interpolate_get (by simp; omega)]
  have hm' : (some 0 :: r)[m]? = some (some (stat kind te t c (topK (sort rows) m))) := by
    obtain ⟨m, rfl⟩ : ∃ j, m = j + 1 := ⟨m - 1, by omega⟩
    rw [List.getElem?_cons_succ, hv m (by omega), if_pos hd]
  rw [interpAt_gap (by simp) hm' _ hk hkm]
  intro i hi him
  obtain ⟨i, rfl⟩ : ∃ j, i = j + 1 := ⟨i - 1, by omega⟩
  rw [List.getElem?_cons_succ, hv i (by omega), if_neg]
  intro hd'
  exact hn (defined_mono (show i + 1 ≤ m - 1 by omega) hd')

theorem stat_perm (kind : Kind) (te : Bool) {l l' : List (Person τ K)} (h : l.Perm l') : stat kind te t c l = stat kind te t c l' := by
  have a : ∀ b : τ, armSize b l = armSize b l' := fun b => (h.filter _).length_eq
  have b : ∀ b : τ, armTotal b l = armTotal b l' := fun b => ((h.filter _).map _).sum_eq
  have d : totalEffect l = totalEffect l' := (h.map _).sum_eq
  cases kind <;> cases te <;> simp [stat, upliftOf, gainOf, qiniOf, a, b, d, h.length_eq]

theorem defined_perm (kind : Kind) (te : Bool) {l l' : List (Person τ K)} (h : l.Perm l') :
    Defined kind te t c l ↔ Defined kind te t c l' := by
  have a : ∀ b : τ, armSize b l = armSize b l' := fun b => (h.filter _).length_eq
  simp [Defined, a]

theorem armsOk_perm {l l' : List (Row S τ K)} (h : l.Perm l') : armsOk t c l = armsOk t c l' := by
  rw [Bool.eq_iff_iff, armsOk_iff, armsOk_iff]
  have a : ∀ b : τ, armSize b (l.map (person (K := K))) = armSize b (l'.map person) := fun b => ((h.map _).filter _).length_eq
  simp [BothArms, a, h.mem_iff]

theorem column_armsOk {kind : Kind} {te : Bool} {l : List (Row S τ K)} {r : List (Option K)}
    (h : column kind te t c l = .ok r) : te = true ∨ armsOk t c l = true := by
  cases te with
  | true => exact Or.inl rfl
  | false =>
    refine Or.inr ?_
    by_contra h'
    cases kind <;> simp only [column, if_neg h'] at h <;> cases h

/-- **C30**: the curves exist whenever there is data and exactly the two arms occur. -/
theorem C30_total {sort : List (Row S τ K) → List (Row S τ K)} (kind : Kind) (te : Bool) {rows : List (Row S τ K)}
    (htc : t ≠ c) (hs : Ranked rows (sort rows)) (harms : ∀ r ∈ rows, r.x = t ∨ r.x = c)
    (hb : BothArms t c (rows.map person)) : ∃ p, cumulate sort kind te t c rows = .ok p := by
  have hok : armsOk t c (sort rows) = true := by rw [armsOk_perm hs.1, armsOk_iff]; exact ⟨harms, hb⟩
  obtain ⟨r, hr⟩ : ∃ r, column kind te t c (sort rows) = .ok r := by
    cases kind <;> cases te <;> simp only [column, hok, if_true] <;> exact ⟨_, rfl⟩
  obtain ⟨hl, hv⟩ := column_top htc hr
  have hpos : 0 < rows.length := by
    rcases rows with _ | ⟨a, l⟩
    · exact absurd rfl hb.1
    · simp
  have hlen := hs.1.length_eq
  have hlast := hv (rows.length - 1) (by omega)
  rw [if_pos] at hlast
  · obtain ⟨⟨i, v⟩, hp⟩ := idxmax_some hlast
    have hi : i < r.length := (List.getElem?_eq_some_iff.1 (idxmax_get hp).1).1
    unfold cumulate
    simp only [hr, hp, Option.bind_some]
    rw [List.getElem?_eq_getElem (by omega)]
    exact ⟨_, rfl⟩
  · unfold topK
    rw [show rows.length - 1 + 1 = (sort rows).length by omega, List.take_length, defined_perm kind te (hs.1.map person)]
    exact Or.inr ⟨hb.2, Or.inr hb.1⟩

/-- **C31**: the last point of every curve is the statistic of the whole data set, whatever the scores. -/
theorem C31_last {sort : List (Row S τ K) → List (Row S τ K)} {kind : Kind} {te : Bool} {rows : List (Row S τ K)}
    {curve : List (Option K)} {top : S} (htc : t ≠ c) (hs : Ranked rows (sort rows))
    (h : cumulate sort kind te t c rows = .ok (curve, top)) :
    curve.getLast? = some (some (stat kind te t c (rows.map person))) := by
  obtain ⟨hl, -, hv⟩ := C30_curve htc hs h
  obtain ⟨r, i, v, row, hr, rfl, -, hrow, -⟩ := cumulate_ok h
  have hlen := hs.1.length_eq
  have hpos : 1 ≤ rows.length := by
    have := (List.getElem?_eq_some_iff.1 hrow).1
    omega
  have htop : topK (sort rows) rows.length = (sort rows).map person := by
    unfold topK; rw [← hlen, List.take_length]
  rw [List.getLast?_eq_getElem?, hl, Nat.add_sub_cancel, hv rows.length hpos le_rfl, htop,
    stat_perm kind te (hs.1.map person)]
  rw [htop, defined_perm kind te (hs.1.map person)]
  rcases column_armsOk hr with h | h
  · exact Or.inl h
  · rw [armsOk_perm hs.1, armsOk_iff] at h
    exact Or.inr ⟨h.2.2, Or.inr h.2.1⟩

/-- **C31**: two scorings of the same people (any two score columns, any tie breaking) end in the same point. -/
theorem C31_model_independent {S' : Type} [LinearOrder S'] {sort : List (Row S τ K) → List (Row S τ K)}
    {sort' : List (Row S' τ K) → List (Row S' τ K)} {kind : Kind} {te : Bool} {rows : List (Row S τ K)} {rows' : List (Row S' τ K)}
    {curve curve' : List (Option K)} {top : S} {top' : S'} (htc : t ≠ c) (hp : rows.map person = rows'.map person)
    (hs : Ranked rows (sort rows)) (hs' : Ranked rows' (sort' rows'))
    (h : cumulate sort kind te t c rows = .ok (curve, top)) (h' : cumulate sort' kind te t c rows' = .ok (curve', top')) :
    curve.getLast? = curve'.getLast? := by
  rw [C31_last htc hs h, C31_last htc hs' h', hp]

/-- **C31**: the same holds of the RANDOM column, the mean of any number of randomly scored columns. -/
theorem C31_random {curves : List (List (Option K))} {n : Nat} {z : K} (hne : curves ≠ [])
    (h : ∀ r ∈ curves, r.length = n + 1 ∧ r.getLast? = some (some z)) :
    (randomColumn curves).getLast? = some (some z) := by
  have hget : ∀ r ∈ curves, r[n]? = some (some z) := fun r hr => by
    have := (h r hr).2
    rwa [List.getLast?_eq_getElem?, (h r hr).1, Nat.add_sub_cancel] at this
  have hvals : curves.filterMap (fun r => (r[n]?).join) = List.replicate curves.length z := by
    clear h hne
    induction curves with
    | nil => rfl
    | cons r l ih =>
      rw [List.filterMap_cons, hget r (by simp)]
      simp only [Option.join_some, List.length_cons, List.replicate_succ]
      rw [ih (fun r hr => hget r (List.mem_cons_of_mem _ hr))]
  have hat : randomAt curves n = some z := by
    unfold randomAt
    simp only
    rw [hvals]
    have : ((curves.length : Nat) : K) ≠ 0 := natCast_ne (by simpa using hne)
    simp only [List.sum_replicate, List.length_replicate, nsmul_eq_mul]
    rw [div_ne this, mul_div_cancel_left₀ _ this]
  cases curves with
  | nil => exact absurd rfl hne
  | cons r l =>
    have hr := (h r (by simp)).1
    simp only [randomColumn, List.getLast?_map, hr, List.getLast?_range, Nat.succ_ne_zero, if_false, Nat.add_sub_cancel, Option.map_some]
    simp [hat]

/-- **C31**: the RANDOM column computed from any random scorings of the same people ends where the model columns end. -/
theorem C31_random_rows {sort sort' : List (Row S τ K) → List (Row S τ K)} {kind : Kind} {te : Bool} {rows : List (Row S τ K)}
    {curve : List (Option K)} {top : S} (htc : t ≠ c) (hs : Ranked rows (sort rows))
    (h : cumulate sort kind te t c rows = .ok (curve, top))
    {curves : List (List (Option K))} (hne : curves ≠ [])
    (hr : ∀ r ∈ curves, ∃ (rows' : List (Row S τ K)) (top' : S), rows'.map person = rows.map person ∧
      Ranked rows' (sort' rows') ∧ cumulate sort' kind te t c rows' = .ok (r, top')) :
    (randomColumn curves).getLast? = curve.getLast? := by
  rw [C31_last htc hs h]
  refine C31_random (n := rows.length) hne (fun r hrc => ?_)
  obtain ⟨rows', top', hp, hs', h'⟩ := hr r hrc
  have hl : rows'.length = rows.length := by simpa using congrArg List.length hp
  exact ⟨by rw [(C30_curve htc hs' h').1, hl], by rw [C31_last htc hs' h', hp]⟩

theorem normalize_last {curve : List (Option K)} {z : K} (h : curve.getLast? = some (some z)) (hz : z ≠ 0) :
    (normalize curve).getLast? = some (some (z / |z|)) := by
  unfold normalize
  rw [h]
  simp only [List.getLast?_map, h, Option.map_some, Option.bind_some]
  rw [div_ne (abs_ne_zero.2 hz)]

/-- **C32**: a normalised curve ends at 1 if the statistic of the whole data set is positive, at -1 if it is negative. -/
theorem C32_normalized {sort : List (Row S τ K) → List (Row S τ K)} {kind : Kind} {te : Bool} {rows : List (Row S τ K)}
    {curve : List (Option K)} {top : S} (htc : t ≠ c) (hs : Ranked rows (sort rows))
    (h : getCurve sort kind te t c true rows = .ok (curve, top)) :
    (0 < stat kind te t c (rows.map person) → curve.getLast? = some (some 1)) ∧
    (stat kind te t c (rows.map person) < 0 → curve.getLast? = some (some (-1))) := by
  unfold getCurve at h
  split at h
  · cases h
  · rename_i p hp
    obtain ⟨curve0, top0⟩ := p
    simp only [if_true, Except.ok.injEq, Prod.mk.injEq] at h
    obtain ⟨rfl, rfl⟩ := h
    have hl := C31_last htc hs hp
    refine ⟨fun hz => ?_, fun hz => ?_⟩
    · rw [normalize_last hl hz.ne', abs_of_pos hz, div_self hz.ne']
    · rw [normalize_last hl hz.ne, abs_of_neg hz, div_neg, div_self hz.ne]

/-- **C32**: normalising only rescales: without it the curve is the one of C30, with it every value is divided by the
absolute value of the last. -/
theorem C32_scale {sort : List (Row S τ K) → List (Row S τ K)} {kind : Kind} {te : Bool} {rows : List (Row S τ K)}
    {curve : List (Option K)} {top : S} (htc : t ≠ c) (hs : Ranked rows (sort rows))
    (hz : stat kind te t c (rows.map person) ≠ 0)
    (h : getCurve sort kind te t c true rows = .ok (curve, top)) : ∃ raw : List (Option K),
    getCurve sort kind te t c false rows = .ok (raw, top) ∧
    curve = raw.map (fun v => v.map (fun a => a / |stat kind te t c (rows.map person)|)) := by
  unfold getCurve at h ⊢
  split at h
  · cases h
  · rename_i p hp
    obtain ⟨curve0, top0⟩ := p
    simp only [if_true, Except.ok.injEq, Prod.mk.injEq] at h
    obtain ⟨rfl, rfl⟩ := h
    have hl := C31_last htc hs hp
    refine ⟨curve0, by simp, ?_⟩
    unfold normalize
    rw [hl]
    apply List.map_congr_left
    intro v _
    cases v with
    | none => rfl
    | some a => simp [div_ne (abs_ne_zero.2 hz)]

/-- **C33**: the reported score is that of a row `k` (1-based) at which the statistic is maximal among all populations
with a defined statistic; it is the first such. -/
theorem C33_top {sort : List (Row S τ K) → List (Row S τ K)} {kind : Kind} {te : Bool} {rows : List (Row S τ K)}
    {curve : List (Option K)} {top : S} (htc : t ≠ c) (hs : Ranked rows (sort rows))
    (h : cumulate sort kind te t c rows = .ok (curve, top)) : ∃ (k : Nat) (row : Row S τ K), 1 ≤ k ∧ k ≤ rows.length ∧
      (sort rows)[k - 1]? = some row ∧ row.score = top ∧ Defined kind te t c (topK (sort rows) k) ∧
      (∀ j, 1 ≤ j → j ≤ rows.length → Defined kind te t c (topK (sort rows) j) →
        stat kind te t c (topK (sort rows) j) ≤ stat kind te t c (topK (sort rows) k) ∧
        (j < k → stat kind te t c (topK (sort rows) j) < stat kind te t c (topK (sort rows) k))) := by
  obtain ⟨r, i, v, row, hr, rfl, hm, hrow, htop⟩ := cumulate_ok h
  obtain ⟨hl, hv⟩ := column_top htc hr
  have hlen := hs.1.length_eq
  obtain ⟨h1, h2, h3⟩ := idxmax_get hm
  have hi := (List.getElem?_eq_some_iff.1 hrow).1
  have hd : Defined kind te t c (topK (sort rows) (i + 1)) := by
    by_contra hd
    have := hv i hi
    rw [h1, if_neg hd] at this
    simp at this
  have hvi : v = stat kind te t c (topK (sort rows) (i + 1)) := by
    have := hv i hi
    rw [h1, if_pos hd] at this
    simpa using this
  refine ⟨i + 1, row, by omega, by omega, hrow, htop, hd, fun j hj hjn hdj => ?_⟩
  obtain ⟨j, rfl⟩ : ∃ j', j = j' + 1 := ⟨j - 1, by omega⟩
  have hj' := hv j (by omega)
  rw [if_pos hdj] at hj'
  rw [← hvi]
  exact ⟨h2 j _ hj', fun hlt => h3 j _ (by omega) hj'⟩

/-- **C33**: if the statistic is not negative everywhere, the reported point maximises the whole returned curve,
including the row 0 and the interpolated rows. -/
theorem C33_maximises {sort : List (Row S τ K) → List (Row S τ K)} {kind : Kind} {te : Bool} {rows : List (Row S τ K)}
    {curve : List (Option K)} {top : S} (htc : t ≠ c) (hs : Ranked rows (sort rows))
    (h : cumulate sort kind te t c rows = .ok (curve, top))
    (hpos : ∃ k, 1 ≤ k ∧ k ≤ rows.length ∧ Defined kind te t c (topK (sort rows) k) ∧ 0 ≤ stat kind te t c (topK (sort rows) k)) :
    ∃ (k : Nat) (row : Row S τ K) (v : K), 1 ≤ k ∧ (sort rows)[k - 1]? = some row ∧ row.score = top ∧
      curve[k]? = some (some v) ∧ ∀ (j : Nat) (u : K), curve[j]? = some (some u) → u ≤ v := by
  obtain ⟨k, row, hk, hkn, hrow, htop, hd, hmax⟩ := C33_top htc hs h
  obtain ⟨hl, h0, hv⟩ := C30_curve htc hs h
  obtain ⟨k0, hk0, hk0n, hd0, hs0⟩ := hpos
  have hge : 0 ≤ stat kind te t c (topK (sort rows) k) := hs0.trans (hmax k0 hk0 hk0n hd0).1
  refine ⟨k, row, _, hk, hrow, htop, hv k hk hkn hd, fun j u hj => ?_⟩
  have hjl : j < curve.length := (List.getElem?_eq_some_iff.1 hj).1
  rcases Nat.eq_zero_or_pos j with rfl | hjp
  · rw [h0] at hj; cases hj; exact hge
  by_cases hdj : Defined kind te t c (topK (sort rows) j)
  · rw [hv j hjp (by omega) hdj] at hj
    cases hj
    exact (hmax j hjp (by omega) hdj).1
  · -- first defined population after j
    have hex : ∃ m, j < m ∧ m ≤ rows.length ∧ Defined kind te t c (topK (sort rows) m) := by
      refine ⟨k, ?_, hkn, hd⟩
      by_contra hlt
      exact hdj (defined_mono (by omega) hd)
    classical
    obtain ⟨hjm, hmn, hdm⟩ := Nat.find_spec hex
    have hmin : ¬ Defined kind te t c (topK (sort rows) (Nat.find hex - 1)) := by
      intro hd'
      by_cases he : Nat.find hex - 1 = j
      · rw [he] at hd'; exact hdj hd'
      · exact Nat.find_min hex (m := Nat.find hex - 1) (by omega) ⟨by omega, by omega, hd'⟩
    rw [C30_gap htc hs h hjp hjm hmn hdm hmin] at hj
    cases hj
    have hm0 : (0 : K) < (Nat.find hex : K) := by exact_mod_cast (show 0 < Nat.find hex by omega)
    rw [div_le_iff₀ hm0]
    have hle := (hmax _ (by omega) hmn hdm).1
    have hjm' : (j : K) ≤ (Nat.find hex : K) := by exact_mod_cast hjm.le
    have hj0 : (0 : K) ≤ (j : K) := Nat.cast_nonneg _
    nlinarith [mul_le_mul_of_nonneg_right hle hj0, mul_le_mul_of_nonneg_left hjm' hge]

/-- change the score of a row -/
def rescore {S' : Type} (f : S → S') (r : Row S τ K) : Row S' τ K := ⟨f r.score, r.y, r.x, r.effect⟩

theorem column_rescore {S' : Type} [LinearOrder S'] (f : S → S') (kind : Kind) (te : Bool) (l : List (Row S τ K)) :
    column kind te t c (l.map (rescore f)) = column kind te t c l := by
  have h1 : armsOk t c (l.map (rescore f)) = armsOk t c l := by simp [armsOk, rescore, Function.comp_def]; rfl
  have h2 : xTr t (l.map (rescore f)) = xTr t l := by simp [xTr, rescore, Function.comp_def]; rfl
  have h3 : index (l.map (rescore f)) = index l := by simp [index]
  have h4 : ∀ a, yArm a (l.map (rescore f)) = yArm a l := by intro a; simp [yArm, rescore, Function.comp_def]; rfl
  have h5 : xCt t (l.map (rescore f)) = xCt t l := by unfold xCt; rw [h2, h3]
  have h6 : (l.map (rescore f)).map (·.effect) = l.map (·.effect) := by simp [rescore, Function.comp_def]
  unfold column
  rw [h1, h2, h3, h4, h4, h5, h6]

theorem ranked_unique {rows l l' : List (Row S τ K)} (hn : (rows.map (·.score)).Nodup) (h : Ranked rows l) (h' : Ranked rows l') :
    l = l' := by
  refine List.Perm.eq_of_pairwise ?_ h.2 h'.2 (h.1.trans h'.1.symm)
  intro a b ha hb hab hba
  exact List.inj_on_of_nodup_map hn (h.1.mem_iff.1 ha) (h'.1.mem_iff.1 hb) (le_antisymm hba hab)

theorem ranked_rescore {S' : Type} [LinearOrder S'] {f : S → S'} (hf : StrictMono f) {rows l : List (Row S τ K)} (h : Ranked rows l) :
    Ranked (rows.map (rescore f)) (l.map (rescore f)) := by
  refine ⟨h.1.map _, ?_⟩
  rw [List.pairwise_map]
  exact h.2.imp (fun hab => hf.monotone hab)

/-- **C34**: without ties, a strictly increasing transform of the scores (into any other score type, with any sorting
function) changes neither the curve nor any area under it; the score at the top point is transformed. -/
theorem C34_ranking {S' : Type} [LinearOrder S'] {f : S → S'} (hf : StrictMono f) {sort : List (Row S τ K) → List (Row S τ K)}
    {sort' : List (Row S' τ K) → List (Row S' τ K)} (kind : Kind) (te norm : Bool) {rows : List (Row S τ K)}
    (hn : (rows.map (·.score)).Nodup) (hs : Ranked rows (sort rows))
    (hs' : Ranked (rows.map (rescore f)) (sort' (rows.map (rescore f)))) :
    getCurve sort' kind te t c norm (rows.map (rescore f)) =
      (getCurve sort kind te t c norm rows).map (fun p => (p.1, f p.2)) := by
  have hn' : ((rows.map (rescore f)).map (·.score)).Nodup := by
    rw [List.map_map]
    have : (fun r : Row S' τ K => r.score) ∘ rescore f = f ∘ (fun r : Row S τ K => r.score) := rfl
    rw [this, ← List.map_map]
    exact hn.map hf.injective
  have he : sort' (rows.map (rescore f)) = (sort rows).map (rescore f) := ranked_unique hn' hs' (ranked_rescore hf hs)
  unfold getCurve cumulate
  simp only
  rw [he, column_rescore]
  cases column kind te t c (sort rows) with
  | error e => rfl
  | ok r =>
    cases hm : idxmax r with
    | none => simp [hm]; rfl
    | some p =>
      cases hq : (sort rows)[p.1]? with
      | none => simp [hm, hq]; rfl
      | some row => simp [hm, hq, rescore]; rfl

/-- **C34** for the areas: AUUC and Qini scores only depend on the ranking. -/
theorem C34_areas {S' : Type} [LinearOrder S'] {f : S → S'} (hf : StrictMono f) {sort : List (Row S τ K) → List (Row S τ K)}
    {sort' : List (Row S' τ K) → List (Row S' τ K)} {kind : Kind} {te norm : Bool} {rows : List (Row S τ K)}
    (hn : (rows.map (·.score)).Nodup) (hs : Ranked rows (sort rows))
    (hs' : Ranked (rows.map (rescore f)) (sort' (rows.map (rescore f)))) {curve curve' : List (Option K)} {top : S} {top' : S'}
    (h : getCurve sort kind te t c norm rows = .ok (curve, top))
    (h' : getCurve sort' kind te t c norm (rows.map (rescore f)) = .ok (curve', top')) (random : List (Option K)) :
    auuc curve' = auuc curve ∧ qiniScore curve' random = qiniScore curve random ∧ top' = f top := by
  rw [C34_ranking hf kind te norm hn hs hs', h] at h'
  cases h'
  exact ⟨rfl, rfl, rfl⟩

/-! ## A concrete data set: four people, scores 1..4, the two best scored are treated -/

/-- `sort_values(ascending=False)` for the examples -/
def exSort {S : Type} [LinearOrder S] (l : List (Row S Bool ℚ)) : List (Row S Bool ℚ) :=
  l.insertionSort (fun a b => b.score ≤ a.score)

theorem exSort_ranked {S : Type} [LinearOrder S] (l : List (Row S Bool ℚ)) : Ranked l (exSort l) := by
  refine ⟨List.perm_insertionSort _ _, ?_⟩
  haveI : Std.Total (fun a b : Row S Bool ℚ => b.score ≤ a.score) := ⟨fun a b => le_total _ _⟩
  haveI : IsTrans (Row S Bool ℚ) (fun a b => b.score ≤ a.score) := ⟨fun a b c hab hbc => le_trans hbc hab⟩
  exact List.pairwise_insertionSort _ l

def exRows : List (Row Nat Bool ℚ) := [⟨2, 1, false, 0⟩, ⟨4, 3, true, 1⟩, ⟨1, 2, false, 5⟩, ⟨3, 2, true, 2⟩]

example : cumulate exSort .gain false true false exRows =
    .ok ([some 0, some (3/2), some 3, some (9/2), some 4], 2) := by decide +kernel
example : cumulate exSort .qini false true false exRows =
    .ok ([some 0, some 1, some 2, some 3, some 2], 2) := by decide +kernel
example : getCurve exSort .gain false true false true exRows =
    .ok ([some 0, some (3/8), some (3/4), some (9/8), some 1], 2) := by decide +kernel
example : BothArms true false (exRows.map person) ∧ ¬ Defined .gain false true false (topK (exSort exRows) 2) ∧
    Defined .gain false true false (topK (exSort exRows) 3) := by decide +kernel
example : (exRows.map (·.score)).Nodup := by decide

/-- **C33 (negative finding)**: the reported point need not maximise the returned curve: when the statistic is negative
everywhere, nobody should be treated (row 0 has value 0), but a point of negative gain is reported. -/
theorem C33_ignores_treating_nobody : ∃ (rows : List (Row Nat Bool ℚ)) (curve : List (Option ℚ)) (top : Nat),
    cumulate exSort .gain false true false rows = .ok (curve, top) ∧ curve[0]? = some (some 0) ∧
    (∀ k, 1 ≤ k → k ≤ rows.length → ∀ v : ℚ, curve[k]? = some (some v) → v < 0) ∧ top = 1 := by
  refine ⟨[⟨2, 0, true, 0⟩, ⟨1, 1, false, 0⟩], [some 0, some (-1), some (-2)], 1, by decide +kernel, rfl, ?_, rfl⟩
  intro k hk hkn v hv
  have : k = 1 ∨ k = 2 := by simp at hkn; omega
  rcases this with rfl | rfl <;> simp at hv <;> rw [← hv] <;> norm_num

/-- **C30 (negative finding)**: with ties the curve depends on the unspecified order of tied rows. -/
theorem C34_ties_matter : ∃ (rows : List (Row Nat Bool ℚ)) (s1 s2 : List (Row Nat Bool ℚ) → List (Row Nat Bool ℚ)),
    Ranked rows (s1 rows) ∧ Ranked rows (s2 rows) ∧
    (cumulate s1 .gain false true false rows).map (·.1) ≠ (cumulate s2 .gain false true false rows).map (·.1) := by
  refine ⟨[⟨1, 3, true, 0⟩, ⟨1, 1, false, 0⟩, ⟨1, 2, true, 0⟩], id, List.reverse, ⟨List.Perm.refl _, ?_⟩, ⟨List.reverse_perm _, ?_⟩, ?_⟩
  · simp
  · simp
  · decide +kernel

end YL.Props
