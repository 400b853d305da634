import Verif.Model.CTForest
import Verif.Props.Tree
import Verif.Props.Forest

/-!
# C116: `CTCausalForest`
-/

set_option linter.unusedSectionVars false

namespace YL.Spec
open YL.Tree YL.CTForest

variable {K : Type} [Field K] [LinearOrder K]

/-- the rows whose treatment is `treat` or `control`, marked 1 or 0, in the order of the data -/
def armRows (treat control : List K) (rows : List (Raw K)) : List (Sample K) :=
  (rows.filter (fun r => decide (r.x = treat) || decide (r.x = control))).map
    (fun r => ⟨r.wv, if r.x = treat then 1 else 0, r.y⟩)

/-- `v` is the smallest value of column `j` in the rows -/
def IsFirst (rows : List (Raw K)) (j : Nat) (v : K) : Prop :=
  (∃ r ∈ rows, r.x.getD j 0 = v) ∧ ∀ r ∈ rows, v ≤ r.x.getD j 0

/-- `v` is the second smallest value of column `j` in the rows -/
def IsSecond (rows : List (Raw K)) (j : Nat) (v : K) : Prop :=
  (∃ r ∈ rows, r.x.getD j 0 = v) ∧ ∃ u, IsFirst rows j u ∧ u < v ∧ ∀ r ∈ rows, r.x.getD j 0 = u ∨ v ≤ r.x.getD j 0

/-- the mean of the trees' predictions for one query -/
def treeMean (trees : List (Fitted K)) (q : Nat → K) : K :=
  (trees.map (fun t => (predict t.nodes q).getD 0)).sum / (trees.length : K)

end YL.Spec

namespace YL.Props
open YL.Tree YL.CTForest YL.Spec

section
variable {K : Type} [Field K] [LinearOrder K] [IsStrictOrderedRing K] {n : Nat}

/-! ### predictions -/

theorem addPrediction_fold (qs : List (Nat → K)) : ∀ (trees : List (Fitted K)) (f : (Nat → K) → K),
    trees.foldl (addPrediction qs) (qs.map f) =
      qs.map (fun q => f q + (trees.map (fun t => (predict t.nodes q).getD 0)).sum) := by
  intro trees
  induction trees with
  | nil => intro f; simp
  | cons t ts ih =>
    intro f
    have e : addPrediction qs (qs.map f) t = qs.map (fun q => f q + (predict t.nodes q).getD 0) := by
      unfold addPrediction
      rw [List.zipWith_map, List.zipWith_self]
    rw [List.foldl_cons, e, ih]
    apply List.map_congr_left
    intro q _
    rw [List.map_cons, List.sum_cons]
    ring

/-- **C116.** In whatever order the threads add their trees' predictions, the estimate for every query is the mean of the
trees' predictions, one number per row of the data. -/
theorem C116_mean {schedule : List (Fitted K) → List (Fitted K)} (hs : ∀ l, (schedule l).Perm l) (trees : List (Fitted K))
    (qs : List (Nat → K)) : CTForest.estimate schedule trees (some qs) = .ok (qs.map (treeMean trees)) := by
  unfold CTForest.estimate
  have h0 : List.replicate qs.length (0 : K) = qs.map (fun _ => 0) := by simp [List.map_const']
  simp only [h0, addPrediction_fold, List.map_map]
  congr 1
  apply List.map_congr_left
  intro q _
  simp only [Function.comp_apply, zero_add, treeMean]
  rw [((hs trees).map _).sum_eq]

/-- **C116.** A single forest's estimates do not depend on the other rows: estimating a part of the data gives that part of
the estimates. -/
theorem C116_rowwise {schedule : List (Fitted K) → List (Fitted K)} (hs : ∀ l, (schedule l).Perm l) (trees : List (Fitted K))
    (qs qs' : List (Nat → K)) :
    CTForest.estimate schedule trees (some (qs ++ qs')) =
      (CTForest.estimate schedule trees (some qs)).bind (fun a => (CTForest.estimate schedule trees (some qs')).map (a ++ ·)) := by
  rw [C116_mean hs, C116_mean hs, C116_mean hs, List.map_append]
  rfl

/-- **C116, refuted without data.** `estimate()` raises `AttributeError` for every fitted forest: the adjustment is not
stored. `apply` raises `TypeError` for every forest with a tree. -/
theorem C116_default_data_refuted (schedule : List (Fitted K) → List (Fitted K)) (trees : List (Fitted K)) :
    CTForest.estimate schedule trees none = .error "AttributeError: _w" ∧
    ∀ qs, trees ≠ [] → applyAll trees qs = .error "TypeError: apply() takes 1 positional argument" := by
  refine ⟨rfl, ?_⟩
  intro qs h
  cases trees with
  | nil => exact absurd rfl h
  | cons t ts => rfl

/-! ### the encoding -/

theorem uniques_mem {l : List K} {v : K} : v ∈ uniques l ↔ v ∈ l := by
  unfold uniques
  rw [(List.perm_insertionSort _ _).mem_iff, List.mem_dedup]

theorem uniques_nodup (l : List K) : (uniques l).Nodup :=
  (List.perm_insertionSort _ _).nodup_iff.mpr (List.nodup_dedup l)

theorem uniques_sorted (l : List K) : (uniques l).Pairwise (· < ·) := by
  have h : (uniques l).Pairwise (· ≤ ·) := List.pairwise_insertionSort _ _
  exact (h.and (uniques_nodup l)).imp (fun a => lt_of_le_of_ne a.1 a.2)

theorem encode_ok {cats : List K} {v : K} (h : v ∈ cats) : ∃ i, encode cats v = .ok i ∧ cats[i]? = some v := by
  refine ⟨cats.findIdx (fun c => decide (c = v)), by unfold encode; rw [if_pos h], ?_⟩
  have hlt : cats.findIdx (fun c => decide (c = v)) < cats.length :=
    List.findIdx_lt_length_of_exists ⟨v, h, by simp⟩
  rw [List.getElem?_eq_getElem hlt]
  have := List.findIdx_getElem (p := fun c => decide (c = v)) (w := hlt)
  simpa using this

theorem encode_place {cats : List K} (hn : cats.Nodup) {v : K} {i : Nat} (h : cats[i]? = some v) : encode cats v = .ok i := by
  obtain ⟨j, hj, hc⟩ := encode_ok (List.mem_of_getElem? h)
  rw [hj]
  obtain ⟨h1, e1⟩ := List.getElem?_eq_some_iff.mp h
  obtain ⟨h2, e2⟩ := List.getElem?_eq_some_iff.mp hc
  congr 1
  exact (hn.getElem_inj_iff).mp (e2.trans e1.symm)

/-- the value is at this place -/
def Coded (cats : List (List K)) (x : List K) (c : List Nat) : Prop :=
  x.length = cats.length ∧ c.length = cats.length ∧
    ∀ j < cats.length, ∃ v i, x[j]? = some v ∧ c[j]? = some i ∧ (cats.getD j [])[i]? = some v

theorem coded_cons {cats : List K} {css : List (List K)} {v : K} {x : List K} {i : Nat} {c : List Nat} :
    Coded (cats :: css) (v :: x) (i :: c) ↔ cats[i]? = some v ∧ Coded css x c := by
  unfold Coded
  constructor
  · rintro ⟨h1, h2, h3⟩
    refine ⟨?_, by simpa using h1, by simpa using h2, ?_⟩
    · obtain ⟨a, b, e1, e2, e3⟩ := h3 0 (by simp)
      simp at e1 e2 e3
      subst e1; subst e2; exact e3
    · intro j hj
      obtain ⟨a, b, e1, e2, e3⟩ := h3 (j + 1) (by simp; exact hj)
      exact ⟨a, b, by simpa using e1, by simpa using e2, by simpa using e3⟩
  · rintro ⟨h0, h1, h2, h3⟩
    refine ⟨by simp [h1], by simp [h2], ?_⟩
    intro j hj
    cases j with
    | zero => exact ⟨v, i, rfl, rfl, h0⟩
    | succ j =>
      obtain ⟨a, b, e1, e2, e3⟩ := h3 j (by simp at hj; exact hj)
      exact ⟨a, b, by simpa using e1, by simpa using e2, by simpa using e3⟩

theorem encodeRow_ok : ∀ {cats : List (List K)} {x : List K} {c : List Nat}, encodeRow cats x = .ok c → Coded cats x c := by
  intro cats
  induction cats with
  | nil =>
    intro x c h
    cases x with
    | nil => cases h; exact ⟨rfl, rfl, by simp⟩
    | cons v x => cases h
  | cons cs css ih =>
    intro x c h
    cases x with
    | nil => cases h
    | cons v x =>
      unfold encodeRow at h
      by_cases hv : v ∈ cs
      · obtain ⟨i, hi, hc⟩ := encode_ok hv
        simp only [hi] at h
        cases he : encodeRow css x with
        | error e => simp only [he] at h; cases h
        | ok is =>
          simp only [he] at h
          cases h
          exact coded_cons.mpr ⟨hc, ih he⟩
      · simp [encode, hv] at h

theorem encodeRow_of_coded : ∀ {cats : List (List K)} {x : List K} {c : List Nat}, (∀ l ∈ cats, l.Nodup) →
    Coded cats x c → encodeRow cats x = .ok c := by
  intro cats
  induction cats with
  | nil =>
    intro x c _ h
    have h1 := List.length_eq_zero_iff.mp h.1
    have h2 := List.length_eq_zero_iff.mp h.2.1
    subst h1; subst h2; rfl
  | cons cs css ih =>
    intro x c hn h
    cases x with
    | nil => simp [Coded] at h
    | cons v x =>
      cases c with
      | nil => simp [Coded] at h
      | cons i c =>
        obtain ⟨h1, h2⟩ := coded_cons.mp h
        unfold encodeRow
        simp only [encode_place (hn cs (by simp)) h1, ih (fun l hl => hn l (by simp [hl])) h2]

theorem encodeRow_total : ∀ {cats : List (List K)} {x : List K}, x.length = cats.length →
    (∀ j < cats.length, x.getD j 0 ∈ cats.getD j []) → ∃ c, encodeRow cats x = .ok c := by
  intro cats
  induction cats with
  | nil => intro x h _; cases x with
    | nil => exact ⟨[], rfl⟩
    | cons v x => simp at h
  | cons cs css ih =>
    intro x h hm
    cases x with
    | nil => simp at h
    | cons v x =>
      obtain ⟨i, hi, _⟩ := encode_ok (cats := cs) (v := v) (by simpa using hm 0 (by simp))
      obtain ⟨c, hc⟩ := ih (x := x) (by simpa using h) (by
        intro j hj
        simpa using hm (j + 1) (by simp; exact hj))
      exact ⟨i :: c, by unfold encodeRow; simp only [hi, hc]⟩

theorem encodeRow_fail : ∀ {cats : List (List K)} {x : List K}, x.length = cats.length →
    (∃ j < cats.length, x.getD j 0 ∉ cats.getD j []) → encodeRow cats x = .error "ValueError: unknown categories" := by
  intro cats
  induction cats with
  | nil => rintro x _ ⟨j, hj, _⟩; simp at hj
  | cons cs css ih =>
    rintro x h ⟨j, hj, hm⟩
    cases x with
    | nil => simp at h
    | cons v x =>
      unfold encodeRow
      by_cases hv : v ∈ cs
      · obtain ⟨i, hi, _⟩ := encode_ok hv
        simp only [hi]
        have : ∃ j < css.length, x.getD j 0 ∉ css.getD j [] := by
          cases j with
          | zero => simp at hm; exact absurd hv hm
          | succ j => exact ⟨j, by simpa using hj, by simpa using hm⟩
        rw [ih (by simpa using h) this]
      · simp [encode, hv]

theorem coded_inj {cats : List (List K)} (hn : ∀ l ∈ cats, l.Nodup) {x x' : List K} {c c' : List Nat}
    (h : Coded cats x c) (h' : Coded cats x' c') : c = c' ↔ x = x' := by
  constructor
  · intro e
    subst e
    apply List.ext_getElem?
    intro j
    by_cases hj : j < cats.length
    · obtain ⟨v, i, e1, e2, e3⟩ := h.2.2 j hj
      obtain ⟨v', i', e1', e2', e3'⟩ := h'.2.2 j hj
      rw [e2] at e2'
      cases e2'
      rw [e3] at e3'
      cases e3'
      rw [e1, e1']
    · rw [List.getElem?_eq_none (by have := h.1; omega), List.getElem?_eq_none (by have := h'.1; omega)]
  · intro e
    subst e
    have := encodeRow_of_coded hn h
    rw [encodeRow_of_coded hn h'] at this
    injection this with this
    exact this.symm

theorem categories_nodup (k : Nat) (rows : List (Raw K)) : ∀ l ∈ categories k rows, l.Nodup := by
  intro l hl
  obtain ⟨j, _, rfl⟩ := List.mem_map.mp hl
  exact uniques_nodup _

theorem categories_getD {k j : Nat} (hj : j < k) (rows : List (Raw K)) :
    (categories k rows).getD j [] = uniques (rows.map (fun r => r.x.getD j 0)) := by
  unfold categories
  simp [hj]

theorem categories_length (k : Nat) (rows : List (Raw K)) : (categories k rows).length = k := by simp [categories]

/-- rows of the right width can be encoded with their own categories -/
theorem encodeRows_ok (k : Nat) (all : List (Raw K)) : ∀ (rows : List (Raw K)), (∀ r ∈ rows, r ∈ all) →
    (∀ r ∈ rows, r.x.length = k) → ∃ enc, encodeRows (categories k all) rows = .ok enc ∧
      List.Forall₂ (fun (r : Raw K) (e : Row K) => Coded (categories k all) r.x e.x ∧ e.wv = r.wv ∧ e.y = r.y) rows enc := by
  intro rows
  induction rows with
  | nil => intro _ _; exact ⟨[], rfl, List.Forall₂.nil⟩
  | cons r rs ih =>
    intro hsub hw
    obtain ⟨enc, h1, h2⟩ := ih (fun q hq => hsub q (by simp [hq])) (fun q hq => hw q (by simp [hq]))
    obtain ⟨c, hc⟩ := encodeRow_total (cats := categories k all) (x := r.x) (by rw [categories_length]; exact hw r (by simp)) (by
      intro j hj
      rw [categories_length] at hj
      rw [categories_getD hj, uniques_mem]
      exact List.mem_map_of_mem (f := fun r : Raw K => r.x.getD j 0) (hsub r (by simp)))
    refine ⟨⟨c, r.wv, r.y⟩ :: enc, ?_, ?_⟩
    · unfold encodeRows; simp only [hc, h1]
    · exact List.Forall₂.cons ⟨encodeRow_ok hc, rfl, rfl⟩ h2

theorem arms_of_codes {k : Nat} {all : List (Raw K)} {treat control : List K} {t c : List Nat}
    (ht : Coded (categories k all) treat t) (hc : Coded (categories k all) control c) :
    ∀ {rows : List (Raw K)} {enc : List (Row K)},
    List.Forall₂ (fun (r : Raw K) (e : Row K) => Coded (categories k all) r.x e.x ∧ e.wv = r.wv ∧ e.y = r.y) rows enc →
    arms t c enc = armRows treat control rows := by
  intro rows enc h
  induction h with
  | nil => rfl
  | @cons r e rs es h1 _ ih =>
    obtain ⟨a1, a2, a3⟩ := h1
    have i1 := coded_inj (categories_nodup k all) a1 ht
    have i2 := coded_inj (categories_nodup k all) a1 hc
    unfold arms armRows at ih ⊢
    by_cases hh : r.x = treat ∨ r.x = control
    · rw [List.filter_cons_of_pos (by simpa [i1, i2] using hh), List.filter_cons_of_pos (by simpa using hh), List.map_cons,
        List.map_cons, ih, a2, a3]
      congr 2
      simp only [i1]
    · rw [List.filter_cons_of_neg (by simpa [i1, i2] using hh), List.filter_cons_of_neg (by simpa using hh), ih]

/-- the tree grown on given samples of the two arms, with the honest settings of the forest -/
def treeOn (E : TreeEnv K) (eps alpha : K) (share : Option K) (s : List (Sample K)) : Fitted K :=
  match share with
  | none => ⟨(build E.params (honestCMSE eps alpha) (fun a => a.x) (fun a => a.w) E.draw s).1,
      (build E.params (honestCMSE eps alpha) (fun a => a.x) (fun a => a.w) E.draw s).2, s.map (fun a => a.x)⟩
  | some h => ⟨honestValues (build E.params (honestCMSE eps alpha) (fun a => a.x) (fun a => a.w) E.draw (E.halves h s).1).1
        (E.halves h s).2,
      (build E.params (honestCMSE eps alpha) (fun a => a.x) (fun a => a.w) E.draw (E.halves h s).1).2, s.map (fun a => a.x)⟩

theorem fitTree_of_prepared {E : TreeEnv K} {eps alpha : K} {honest : HonestNum K} {share : Option K}
    (hh : Tree.honestNum honest = .ok share) {k : Nat} {treat control : Option (List K)} {rows : List (Raw K)}
    {t c : List Nat} {enc : List (Row K)} (hp : prepared k treat control rows = .ok (t, c, enc)) :
    fitTree E eps alpha honest k treat control rows = .ok (treeOn E eps alpha share (arms t c enc)) := by
  unfold fitTree
  simp only [hp, hh]
  cases share <;> rfl

/-- **C116.** With `treat` and `control` given as values that occur in the tree's sub-sample, the tree is grown on exactly
the rows of the sub-sample with these treatments, whatever codes they get there. -/
theorem C116_explicit_arms (E : TreeEnv K) (eps alpha : K) {honest : HonestNum K} {share : Option K}
    (hh : Tree.honestNum honest = .ok share) (k : Nat) (treat control : List K) (rows : List (Raw K))
    (hw : ∀ r ∈ rows, r.x.length = k) (hwt : treat.length = k) (hwc : control.length = k)
    (ht : ∀ j < k, ∃ r ∈ rows, r.x.getD j 0 = treat.getD j 0) (hc : ∀ j < k, ∃ r ∈ rows, r.x.getD j 0 = control.getD j 0) :
    fitTree E eps alpha honest k (some treat) (some control) rows =
      .ok (treeOn E eps alpha share (armRows treat control rows)) := by
  obtain ⟨enc, h1, h2⟩ := encodeRows_ok k rows rows (fun _ h => h) hw
  have tot : ∀ l : List K, l.length = k → (∀ j < k, ∃ r ∈ rows, r.x.getD j 0 = l.getD j 0) →
      ∃ c, encodeRow (categories k rows) l = .ok c := by
    intro l hl hm
    apply encodeRow_total (by rw [categories_length]; exact hl)
    intro j hj
    rw [categories_length] at hj
    rw [categories_getD hj, uniques_mem]
    obtain ⟨r, hr, e⟩ := hm j hj
    rw [← e]
    exact List.mem_map_of_mem (f := fun r : Raw K => r.x.getD j 0) hr
  obtain ⟨t, et⟩ := tot treat hwt ht
  obtain ⟨c, ec⟩ := tot control hwc hc
  have hp : prepared k (some treat) (some control) rows = .ok (t, c, enc) := by
    unfold prepared treatControl
    simp only [h1, categories_length, hwt, hwc, if_true, et, ec]
  rw [fitTree_of_prepared hh hp, arms_of_codes (encodeRow_ok et) (encodeRow_ok ec) h2]

/-- **C116.** A value of `treat` that does not occur in the sub-sample of some tree is a `ValueError`, although it occurs in
the data. -/
theorem C116_missing_value_refuted (E : TreeEnv K) (eps alpha : K) (honest : HonestNum K) (k : Nat) (treat : List K)
    (control : Option (List K)) (rows : List (Raw K)) (hw : ∀ r ∈ rows, r.x.length = k) (hwt : treat.length = k)
    (ht : ∃ j < k, ∀ r ∈ rows, r.x.getD j 0 ≠ treat.getD j 0) :
    fitTree E eps alpha honest k (some treat) control rows = .error "ValueError: unknown categories" := by
  obtain ⟨enc, h1, _⟩ := encodeRows_ok k rows rows (fun _ h => h) hw
  have hf := encodeRow_fail (cats := categories k rows) (x := treat) (by rw [categories_length]; exact hwt) (by
    obtain ⟨j, hj, hn⟩ := ht
    refine ⟨j, by rw [categories_length]; exact hj, ?_⟩
    rw [categories_getD hj, uniques_mem]
    intro hm
    obtain ⟨r, hr, e⟩ := List.mem_map.mp hm
    exact hn r hr e)
  unfold fitTree prepared treatControl
  simp only [h1, categories_length, hwt, if_true, hf]

theorem first_place {rows : List (Raw K)} {j : Nat} {v : K} (h : IsFirst rows j v) :
    (uniques (rows.map (fun r => r.x.getD j 0)))[0]? = some v := by
  have hmem : v ∈ uniques (rows.map (fun r => r.x.getD j 0)) := by
    rw [uniques_mem]
    obtain ⟨r, hr, e⟩ := h.1
    rw [← e]; exact List.mem_map_of_mem (f := fun r : Raw K => r.x.getD j 0) hr
  have hs := uniques_sorted (rows.map (fun r => r.x.getD j 0))
  cases hu : uniques (rows.map (fun r => r.x.getD j 0)) with
  | nil => rw [hu] at hmem; cases hmem
  | cons a l =>
    rw [hu] at hmem hs
    have ha : a ∈ rows.map (fun r => r.x.getD j 0) := by rw [← uniques_mem, hu]; simp
    obtain ⟨r, hr, e⟩ := List.mem_map.mp ha
    have h1 := h.2 r hr
    rw [e] at h1
    rcases List.mem_cons.mp hmem with rfl | hm
    · rfl
    · exact absurd ((List.pairwise_cons.mp hs).1 v hm) (not_lt.mpr h1)

theorem second_place {rows : List (Raw K)} {j : Nat} {v : K} (h : IsSecond rows j v) :
    (uniques (rows.map (fun r => r.x.getD j 0)))[1]? = some v := by
  obtain ⟨⟨r0, hr0, e0⟩, u, hu1, hu2, hu3⟩ := h
  have hfirst := first_place hu1
  have hmem : v ∈ uniques (rows.map (fun r => r.x.getD j 0)) := by
    rw [uniques_mem, ← e0]; exact List.mem_map_of_mem (f := fun r : Raw K => r.x.getD j 0) hr0
  have hs := uniques_sorted (rows.map (fun r => r.x.getD j 0))
  cases hu : uniques (rows.map (fun r => r.x.getD j 0)) with
  | nil => rw [hu] at hmem; cases hmem
  | cons a l =>
    rw [hu] at hmem hs hfirst
    have ea : a = u := by simpa using hfirst
    subst ea
    have hvl : v ∈ l := by
      rcases List.mem_cons.mp hmem with rfl | hm
      · exact absurd hu2 (lt_irrefl _)
      · exact hm
    cases l with
    | nil => cases hvl
    | cons b l =>
      have hb : b ∈ rows.map (fun r => r.x.getD j 0) := by rw [← uniques_mem, hu]; simp
      obtain ⟨r, hr, e⟩ := List.mem_map.mp hb
      have hlt := (List.pairwise_cons.mp hs).1 b (by simp)
      have h1 : v ≤ b := by
        rcases hu3 r hr with h' | h'
        · rw [e] at h'; exact absurd hlt (by rw [h']; exact lt_irrefl _)
        · rw [e] at h'; exact h'
      rcases List.mem_cons.mp hvl with rfl | hm
      · rfl
      · exact absurd ((List.pairwise_cons.mp (List.pairwise_cons.mp hs).2).1 v hm) (not_lt.mpr h1)

/-- **C116.** Without `treat` and `control` a tree compares the second smallest with the smallest value of every treatment
column *of its own sub-sample*. -/
theorem C116_default_arms (E : TreeEnv K) (eps alpha : K) {honest : HonestNum K} {share : Option K}
    (hh : Tree.honestNum honest = .ok share) (k : Nat) (treat control : List K) (rows : List (Raw K))
    (hw : ∀ r ∈ rows, r.x.length = k) (hwt : treat.length = k) (hwc : control.length = k)
    (ht : ∀ j < k, IsSecond rows j (treat.getD j 0)) (hc : ∀ j < k, IsFirst rows j (control.getD j 0)) :
    fitTree E eps alpha honest k none none rows = .ok (treeOn E eps alpha share (armRows treat control rows)) := by
  obtain ⟨enc, h1, h2⟩ := encodeRows_ok k rows rows (fun _ h => h) hw
  have hp : prepared k none none rows = .ok (List.replicate k 1, List.replicate k 0, enc) := by
    unfold prepared treatControl
    simp only [h1, categories_length, if_true]
    rfl
  have hget : ∀ (l : List K) (j : Nat), j < l.length → l[j]? = some (l.getD j 0) := by
    intro l j hj
    simp [hj]
  have ct : Coded (categories k rows) treat (List.replicate k 1) := by
    refine ⟨by rw [categories_length, hwt], by simp [categories_length], ?_⟩
    intro j hj
    rw [categories_length] at hj
    refine ⟨treat.getD j 0, 1, hget _ _ (by omega), by simp [hj], ?_⟩
    rw [categories_getD hj]
    exact second_place (ht j hj)
  have cc : Coded (categories k rows) control (List.replicate k 0) := by
    refine ⟨by rw [categories_length, hwc], by simp [categories_length], ?_⟩
    intro j hj
    rw [categories_length] at hj
    refine ⟨control.getD j 0, 0, hget _ _ (by omega), by simp [hj], ?_⟩
    rw [categories_getD hj]
    exact first_place (hc j hj)
  rw [fitTree_of_prepared hh hp, arms_of_codes ct cc h2]

theorem fitTrees_spec {E : Nat → TreeEnv K} {eps alpha : K} {honest : HonestNum K} {k : Nat} {treat control : Option (List K)}
    {rows : Fin n → Raw K} : ∀ {ss : List (List (Fin n))} {i : Nat} {ts : List (Fitted K)},
    fitTrees E eps alpha honest k treat control rows i ss = .ok ts → ts.length = ss.length ∧
      ∀ (j : Nat) (s : List (Fin n)), ss[j]? = some s → ∃ t, ts[j]? = some t ∧
        fitTree (E (i + j)) eps alpha honest k treat control (s.map rows) = .ok t := by
  intro ss
  induction ss with
  | nil => intro i ts h; cases h; exact ⟨rfl, by simp⟩
  | cons s ss ih =>
    intro i ts h
    unfold fitTrees at h
    cases h1 : fitTree (E i) eps alpha honest k treat control (s.map rows) with
    | error e => simp only [h1] at h; cases h
    | ok t =>
      simp only [h1] at h
      cases h2 : fitTrees E eps alpha honest k treat control rows (i + 1) ss with
      | error e => simp only [h2] at h; cases h
      | ok ts' =>
        simp only [h2] at h
        cases h
        obtain ⟨l1, l2⟩ := ih h2
        refine ⟨by simp [l1], ?_⟩
        intro j s' hj
        cases j with
        | zero =>
          simp at hj
          subst hj
          exact ⟨t, rfl, by simpa using h1⟩
        | succ j =>
          obtain ⟨t', q1, q2⟩ := l2 j s' (by simpa using hj)
          exact ⟨t', by simpa using q1, by rw [show i + (j + 1) = i + 1 + j by omega]; exact q2⟩

/-- **C116.** A fit that succeeds leaves `n_estimators` trees: those kept by a warm start, unchanged, and then new ones, each
grown on its own sub-sample only. -/
theorem C116_trees (E : Nat → TreeEnv K) (eps alpha : K) (honest : HonestNum K) (S : YL.Forest.Settings) (dflt : Nat → Int)
    (draw : Nat → Nat → List (Fin n)) (k : Nat) (treat control : Option (List K)) (rows : Fin n → Raw K)
    (old : Option (List (Fitted K))) {trees : List (Fitted K)}
    (hf : CTForest.fit E eps alpha honest S dflt draw k treat control rows old = .ok trees) :
    (trees.length : Int) = S.nEstimators ∧ ∃ m, YL.Forest.subSampleNum dflt n S.subSample = .ok m ∧
      ∃ new, trees = (if S.warmStart then old.getD [] else []) ++ new ∧
        ∀ (j : Nat) (t : Fitted K), new[j]? = some t →
          fitTree (E j) eps alpha honest k treat control ((draw j m.toNat).map rows) = .ok t := by
  unfold CTForest.fit at hf
  cases hm : YL.Forest.subSampleNum dflt n S.subSample with
  | error e => simp only [hm] at hf; cases hf
  | ok m =>
    simp only [hm] at hf
    by_cases h1 : S.nEstimators ≤ 0
    · simp only [h1, if_true] at hf; cases hf
    · simp only [h1, if_false] at hf
      generalize hk : (if S.warmStart = true then old.getD [] else []) = kept at hf ⊢
      by_cases h2 : S.nEstimators < (kept.length : Int)
      · simp only [h2, if_true] at hf; cases hf
      · simp only [h2, if_false] at hf
        cases hd : YL.Forest.draws draw m 0 (S.nEstimators - kept.length).toNat with
        | error e => simp only [hd] at hf; cases hf
        | ok ss =>
          simp only [hd] at hf
          cases hft : fitTrees E eps alpha honest k treat control rows 0 ss with
          | error e => simp only [hft] at hf; cases hf
          | ok new =>
            simp only [hft] at hf
            cases hf
            obtain ⟨l1, l2⟩ := draws_spec draw m _ 0 ss hd
            obtain ⟨m1, m2⟩ := fitTrees_spec hft
            refine ⟨by rw [List.length_append, m1, l1]; push_cast; omega, m, rfl, new, rfl, ?_⟩
            intro j t hj
            have hlt : j < ss.length := by rw [← m1]; exact (List.getElem?_eq_some_iff.mp hj).1
            obtain ⟨t', q1, q2⟩ := m2 j _ (List.getElem?_eq_getElem hlt)
            rw [hj] at q1
            cases q1
            rw [l2 j _ (List.getElem?_eq_getElem hlt), Nat.zero_add] at q2
            exact q2

/-- **C116.** With explicit `treat` and `control` that occur in every sub-sample, all trees of the forest compare the same two
groups: each is the tree on the rows of its sub-sample with these two treatments. -/
theorem C116_same_comparison (E : Nat → TreeEnv K) (eps alpha : K) {honest : HonestNum K} {share : Option K}
    (hh : Tree.honestNum honest = .ok share) (S : YL.Forest.Settings) (dflt : Nat → Int)
    (draw : Nat → Nat → List (Fin n)) (k : Nat) (treat control : List K) (rows : Fin n → Raw K)
    (hw : ∀ r, (rows r).x.length = k) (hwt : treat.length = k) (hwc : control.length = k)
    (hin : ∀ (i m j : Nat), j < k → (∃ r ∈ draw i m, (rows r).x.getD j 0 = treat.getD j 0) ∧
      ∃ r ∈ draw i m, (rows r).x.getD j 0 = control.getD j 0)
    {trees : List (Fitted K)}
    (hf : CTForest.fit E eps alpha honest S dflt draw k (some treat) (some control) rows none = .ok trees) :
    ∃ m : Nat, ∀ (j : Nat) (t : Fitted K), trees[j]? = some t →
      t = treeOn (E j) eps alpha share (armRows treat control ((draw j m).map rows)) := by
  obtain ⟨_, m, _, new, e, h⟩ := C116_trees E eps alpha honest S dflt draw k (some treat) (some control) rows none hf
  refine ⟨m.toNat, ?_⟩
  intro j t hj
  have hnew : new[j]? = some t := by
    rw [e] at hj
    simpa using hj
  have h1 := h j t hnew
  rw [C116_explicit_arms (E j) eps alpha hh k treat control _ (by
      intro r hr
      obtain ⟨i, _, rfl⟩ := List.mem_map.mp hr
      exact hw i) hwt hwc (by
      intro c hc
      obtain ⟨r, hr, er⟩ := (hin j m.toNat c hc).1
      exact ⟨rows r, List.mem_map_of_mem hr, er⟩) (by
      intro c hc
      obtain ⟨r, hr, er⟩ := (hin j m.toNat c hc).2
      exact ⟨rows r, List.mem_map_of_mem hr, er⟩)] at h1
  injection h1 with h1
  exact h1.symm

end

/-! ### a concrete forest -/

/-- twelve rows: treatments 0, 1 and 2, two covariate values, every combination twice; the outcome is 0, 10 and 1 -/
def ctRows (i : Fin 12) : Raw ℚ :=
  ⟨[((i.val % 3 : Nat) : ℚ)], fun _ => ((i.val / 6 : Nat) : ℚ), if i.val % 3 = 1 then 10 else if i.val % 3 = 2 then 1 else 0⟩

/-- the same splitter for every tree; the honest half is the second one -/
def ctEnv : TreeEnv ℚ := ⟨stdParams ℚ (Sample ℚ) 2 1 5, fun _ => [0], fun _ l => (l.take (l.length / 2), l.drop (l.length / 2))⟩

/-- the first tree gets the rows with treatments 0 and 1 - and by chance none with 2 -, the second those with 1 and 2 -/
def ctDraw (i _m : Nat) : List (Fin 12) :=
  (List.finRange 12).filter (fun r => if i = 0 then decide (r.val % 3 ≠ 2) else decide (r.val % 3 ≠ 0))

/-- eight of twelve rows per tree -/
def ctSettings : YL.Forest.Settings := ⟨2, false, .count 8, .absent⟩

example : (CTForest.fit (fun _ => ctEnv) (1 / 100000) 10000000000 .none ctSettings (fun n => n) ctDraw 1 none none ctRows
    none).toOption.map (fun l => l.length) = some 2 ∧
    (∀ i, (ctDraw i 8).Nodup) ∧ (∀ r, (ctRows r).x.length = 1) := by
  refine ⟨by decide +kernel, ?_, fun r => rfl⟩
  intro i
  exact (List.nodup_finRange 12).filter _

/-- **C116, refuted for the defaults.** Without `treat` and `control` every tree takes the two smallest treatments of its own
sub-sample: here the first tree compares treatment 1 with 0 and the second compares treatment 2 with 1, and the forest
averages the two. -/
theorem C116_default_refuted :
    fitTree ctEnv (1 / 100000) 10000000000 .none 1 none none ((ctDraw 0 8).map ctRows) =
      .ok (treeOn ctEnv (1 / 100000) 10000000000 none (armRows [1] [0] ((ctDraw 0 8).map ctRows))) ∧
    fitTree ctEnv (1 / 100000) 10000000000 .none 1 none none ((ctDraw 1 8).map ctRows) =
      .ok (treeOn ctEnv (1 / 100000) 10000000000 none (armRows [2] [1] ((ctDraw 1 8).map ctRows))) := by
  have first : ∀ (rows : List (Raw ℚ)) (v : ℚ), ((∃ r ∈ rows, r.x.getD 0 0 = v) ∧ ∀ r ∈ rows, v ≤ r.x.getD 0 0) →
      ∀ j < 1, IsFirst rows j (([v] : List ℚ).getD j 0) := by
    intro rows v h j hj
    obtain rfl : j = 0 := by omega
    exact h
  constructor
  · refine C116_default_arms ctEnv _ _ rfl 1 [1] [0] _ ?_ rfl rfl ?_ ?_
    · intro r hr; obtain ⟨i, _, rfl⟩ := List.mem_map.mp hr; rfl
    · intro j hj
      obtain rfl : j = 0 := by omega
      exact ⟨by decide +kernel, 0, ⟨by decide +kernel, by decide +kernel⟩, by norm_num, by decide +kernel⟩
    · exact first _ 0 ⟨by decide +kernel, by decide +kernel⟩
  · refine C116_default_arms ctEnv _ _ rfl 1 [2] [1] _ ?_ rfl rfl ?_ ?_
    · intro r hr; obtain ⟨i, _, rfl⟩ := List.mem_map.mp hr; rfl
    · intro j hj
      obtain rfl : j = 0 := by omega
      exact ⟨by decide +kernel, 1, ⟨by decide +kernel, by decide +kernel⟩, by norm_num, by decide +kernel⟩
    · exact first _ 1 ⟨by decide +kernel, by decide +kernel⟩

/-- the two trees of this forest, with honest leaves: effects 10 and -9, and the forest reports 1/2 -/
example : (CTForest.fit (fun _ => ctEnv) (1 / 100000) 10000000000 (.real (1 / 2)) ctSettings (fun n => n) ctDraw 1 none none
      ctRows none).toOption.map (fun l => l.map (fun t => predict t.nodes (fun _ => 1))) =
      some [some 10, some (-9)] ∧
    ((CTForest.fit (fun _ => ctEnv) (1 / 100000) 10000000000 (.real (1 / 2)) ctSettings (fun n => n) ctDraw 1 none none
      ctRows none).toOption.map (fun l => CTForest.estimate (fun l => l.reverse) l (some [fun _ => 1]))).map
        Except.toOption = some (some [1 / 2]) := by decide +kernel

/-- with `treat` and `control` the second tree, whose sub-sample has no row with treatment 0, is refused -/
example : (CTForest.fit (fun _ => ctEnv) (1 / 100000) 10000000000 .none ctSettings (fun n => n) ctDraw 1 (some [1]) (some [0])
    ctRows none).toOption.map (fun l => l.length) = none ∧
  (CTForest.fit (fun _ => ctEnv) (1 / 100000) 10000000000 .none ctSettings (fun n => n) (fun _ _ => List.finRange 12) 1
    (some [2]) (some [0]) ctRows none).toOption.map (fun l => l.length) = some 2 := by decide +kernel

end YL.Props
