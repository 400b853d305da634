import Verif.Model.Bound
import Verif.Spec.Bound
import Verif.Props.DoublyRobust
import Mathlib.Algebra.Order.Field.Basic
import Mathlib.Tactic.Linarith
import Mathlib.Tactic.LinearCombination

/-!
# C66-C69: the bounds of `ApproxBound`
-/

set_option linter.unusedSectionVars false

namespace YL.Props

open YL Meta Spec Bound
open YL.Permuted (Arg)

variable {V W K : Type} [LinearOrder V] [DecidableEq W] [Field K] [LinearOrder K] [IsStrictOrderedRing K]

/-- an outcome model that predicts, for every combination of features of its training data, their mean outcome -/
def CellMeans {Q : Type} [DecidableEq Q] (fitY : List (Q × K) → (Q → K)) : Prop :=
  ∀ l q, (∃ y, (q, y) ∈ l) → fitY l q = avg ((l.filter (fun e => decide (e.1 = q))).map (fun e => e.2))

/-- a treatment model whose `predict_proba` returns, for covariates of its training data, the frequencies of the occurring labels -/
def CellFreqs (fitX : List (W × Nat) → W → List K) : Prop :=
  ∀ l w, (∃ k, (w, k) ∈ l) → fitX l w = (uniq (l.map (fun e => e.2))).map (fun k =>
    ((((l.filter (fun e => decide (e.1 = w))).filter (fun e => decide (e.2 = k))).length : K) /
      ((l.filter (fun e => decide (e.1 = w))).length : K)))

/-- what is observed of a subject -/
def observe (u : Subject W (List V) K) : Row V W K := ⟨u.w, u.arm, u.y u.arm⟩

/-- the strata for which `estimate()` returns an answer: one per row of the data, or a single one without covariates -/
def keysOf (cov : Bool) (rows : List (Row V W K)) : List (Option W) := if cov then rows.map (fun r => some r.wv) else [none]

/-- the rows of a stratum -/
def rowsAt (rows : List (Row V W K)) : Option W → List (Row V W K)
  | none => rows
  | some w => rows.filter (fun r => decide (r.wv = w))

/-- the share of an arm -/
def armShare (rows : List (Row V W K)) (v : List V) : K := ((rows.filter (fun r => decide (r.x = v))).length : K) / (rows.length : K)

/-- the mean outcome of an arm -/
def armMean (rows : List (Row V W K)) (v : List V) : K := avg ((rows.filter (fun r => decide (r.x = v))).map (fun r => r.y))

theorem foldl_max_spec (l : List K) (a : K) : (∀ x ∈ a :: l, x ≤ l.foldl max a) ∧ l.foldl max a ∈ a :: l := by
  induction l generalizing a with
  | nil => simp
  | cons b l ih =>
    obtain ⟨h1, h2⟩ := ih (max a b)
    simp only [List.foldl_cons]
    refine ⟨fun x hx => ?_, ?_⟩
    · have hm := h1 (max a b) (by simp)
      rcases List.mem_cons.1 hx with rfl | hx
      · exact le_trans (le_max_left _ _) hm
      · rcases List.mem_cons.1 hx with rfl | hx
        · exact le_trans (le_max_right _ _) hm
        · exact h1 x (by simp [hx])
    · rcases List.mem_cons.1 h2 with h2 | h2
      · rw [h2]
        rcases max_choice a b with h | h <;> simp [h]
      · simp [h2]

theorem foldl_min_spec (l : List K) (a : K) : (∀ x ∈ a :: l, l.foldl min a ≤ x) ∧ l.foldl min a ∈ a :: l := by
  induction l generalizing a with
  | nil => simp
  | cons b l ih =>
    obtain ⟨h1, h2⟩ := ih (min a b)
    simp only [List.foldl_cons]
    refine ⟨fun x hx => ?_, ?_⟩
    · have hm := h1 (min a b) (by simp)
      rcases List.mem_cons.1 hx with rfl | hx
      · exact le_trans hm (min_le_left _ _)
      · rcases List.mem_cons.1 hx with rfl | hx
        · exact le_trans hm (min_le_right _ _)
        · exact h1 x (by simp [hx])
    · rcases List.mem_cons.1 h2 with h2 | h2
      · rw [h2]
        rcases min_choice a b with h | h <;> simp [h]
      · simp [h2]

theorem maxE_ok {l : List K} (h : l ≠ []) : ∃ m, maxE l = .ok m ∧ m ∈ l ∧ ∀ x ∈ l, x ≤ m := by
  cases l with
  | nil => exact absurd rfl h
  | cons a l => exact ⟨_, rfl, (foldl_max_spec l a).2, (foldl_max_spec l a).1⟩

theorem minE_ok {l : List K} (h : l ≠ []) : ∃ m, minE l = .ok m ∧ m ∈ l ∧ ∀ x ∈ l, m ≤ x := by
  cases l with
  | nil => exact absurd rfl h
  | cons a l => exact ⟨_, rfl, (foldl_min_spec l a).2, (foldl_min_spec l a).1⟩

/-- two increasing lists with the same members are equal -/
theorem eq_of_increasing {α : Type} [LinearOrder α] {l m : List α} (hl : l.Pairwise (· < ·)) (hm : m.Pairwise (· < ·))
    (h : ∀ x, x ∈ l ↔ x ∈ m) : l = m := by
  induction l generalizing m with
  | nil => cases m with
    | nil => rfl
    | cons a m => exact absurd ((h a).2 (by simp)) (by simp)
  | cons a l ih =>
    cases m with
    | nil => exact absurd ((h a).1 (by simp)) (by simp)
    | cons b m =>
      rw [List.pairwise_cons] at hl hm
      have hab : a = b := by
        rcases List.mem_cons.1 ((h a).1 (by simp)) with h1 | h1
        · exact h1
        · rcases List.mem_cons.1 ((h b).2 (by simp)) with h2 | h2
          · exact h2.symm
          · exact absurd (lt_trans (hm.1 a h1) (hl.1 b h2)) (lt_irrefl _)
      subst hab
      congr 1
      apply ih hl.2 hm.2
      intro x
      constructor
      · intro hx
        rcases List.mem_cons.1 ((h x).1 (by simp [hx])) with h1 | h1
        · subst h1; exact absurd (hl.1 x hx) (lt_irrefl _)
        · exact h1
      · intro hx
        rcases List.mem_cons.1 ((h x).2 (by simp [hx])) with h1 | h1
        · subst h1; exact absurd (hm.1 x hx) (lt_irrefl _)
        · exact h1

theorem armIdx_inj {d : Nat} {rows : List (Row V W K)} {u v : List V} (hu : u ∈ treatVectors d rows) (hv : v ∈ treatVectors d rows)
    (h : armIdx d rows u = armIdx d rows v) : u = v := by
  have h1 := armIdx_get hu
  rw [h, armIdx_get hv] at h1
  cases h1; rfl

theorem armIdx_lt {d : Nat} {rows : List (Row V W K)} {v : List V} (hv : v ∈ treatVectors d rows) :
    armIdx d rows v < (treatVectors d rows).length := (List.getElem?_eq_some_iff.1 (armIdx_get hv)).1

/-- every combination of observed treatment values occurs in the data (automatic for one treatment) -/
def Complete (d : Nat) (rows : List (Row V W K)) : Prop := ∀ v, Observed d rows v → ∃ r ∈ rows, r.x = v

theorem complete_one {rows : List (Row V W K)} (hd : ∀ r ∈ rows, r.x.length = 1) : Complete 1 rows := by
  rintro v ⟨h1, h2⟩
  obtain ⟨r, hr, h⟩ := h2 0 (by omega)
  refine ⟨r, hr, ?_⟩
  have := hd r hr
  match hx : r.x, v, h1 with
  | [a], [b], _ => rw [hx] at h; simpa using h
  | [], _, _ => rw [hx] at this; simp at this
  | _ :: _ :: _, _, _ => rw [hx] at this; simp at this

theorem uniq_labels {d : Nat} (hd1 : 1 ≤ d) {rows : List (Row V W K)} (hd : ∀ r ∈ rows, r.x.length = d) (hc : Complete d rows) :
    uniq (rows.map (fun r => armIdx d rows r.x)) = List.range (treatVectors d rows).length := by
  apply eq_of_increasing (uniq_sorted _) List.pairwise_lt_range
  intro k
  rw [mem_uniq, List.mem_range, List.mem_map]
  constructor
  · rintro ⟨r, hr, rfl⟩
    exact armIdx_lt ((mem_treatVectors hd1).2 (observed_row hd hr))
  · intro hk
    have hm := List.getElem_mem hk
    obtain ⟨r, hr, hx⟩ := hc _ ((mem_treatVectors hd1).1 hm)
    exact ⟨r, hr, by rw [hx]; exact armIdx_of_get (List.getElem?_eq_getElem hk)⟩

theorem filter_label {d : Nat} (hd1 : 1 ≤ d) {rows l : List (Row V W K)} (hd : ∀ r ∈ rows, r.x.length = d) (hl : ∀ r ∈ l, r ∈ rows)
    {v : List V} (hv : v ∈ treatVectors d rows) :
    l.filter (fun r => decide (armIdx d rows r.x = armIdx d rows v)) = l.filter (fun r => decide (r.x = v)) := by
  apply List.filter_congr
  intro r hr
  have hr' := (mem_treatVectors hd1).2 (observed_row hd (hl r hr))
  by_cases h : r.x = v
  · simp [h]
  · simp only [h, decide_false, decide_eq_false_iff_not]
    exact fun h' => h (armIdx_inj hr' hv h')

section
variable (lit : Nat → V)

/-- the data on which the outcome model is trained -/
def boundTrainY (d : Nat) (cov : Bool) (rows : List (Row V W K)) : List ((Option W × List Nat) × K) :=
  rows.map (fun r => (((if cov then some r.wv else none), oneHot (treatVectors d rows).length (armIdx d rows r.x)), r.y))

theorem zip3_map {α β γ δ : Type} (l : List α) (f : α → β) (g : α → γ) (h : α → δ) :
    ((l.map f).zip (l.map g)).zip (l.map h) = l.map (fun a => ((f a, g a), h a)) := by
  induction l with
  | nil => rfl
  | cons a l ih => simp [ih]

theorem zip2_map {α β γ : Type} (l : List α) (f : α → β) (g : α → γ) :
    (l.map f).zip (l.map g) = l.map (fun a => (f a, g a)) := by
  induction l with
  | nil => rfl
  | cons a l ih => simp [ih]

theorem convert_labels {d : Nat} (hd1 : 1 ≤ d) {rows : List (Row V W K)} (hd : ∀ r ∈ rows, r.x.length = d) :
    (rows.map (fun r => oneHot (treatVectors d rows).length (armIdx d rows r.x))).map convert4onehot =
      rows.map (fun r => armIdx d rows r.x) := by
  rw [List.map_map]
  apply List.map_congr_left
  intro r hr
  exact convert_oneHot (armIdx_lt ((mem_treatVectors hd1).2 (observed_row hd hr)))

/-- what `fit` of a new object computes -/
theorem bound_fit (fitX : List (W × Nat) → W → List K) (fitY : List ((Option W × List Nat) × K) → (Option W × List Nat → K))
    {d : Nat} (hd1 : 1 ≤ d) (cov : Bool) {rows : List (Row V W K)} (hne : 2 ≤ rows.length) (hd : ∀ r ∈ rows, r.x.length = d) :
    ∃ enc, fitEncoder true d rows = .ok enc ∧
      Bound.fit fitX fitY lit d cov ⟨none, none⟩ rows = .ok ⟨enc, cov, (treatVectors d rows).length,
        rows.map (fun r => armIdx d rows r.x), rows.map (fun r => r.y), rows.map (fun r => if cov then some r.wv else none),
        rows.length, (xProb fitX cov none rows (rows.map (fun r => armIdx d rows r.x))).1, fitY (boundTrainY d cov rows),
        (xProb fitX cov none rows (rows.map (fun r => armIdx d rows r.x))).2⟩ := by
  obtain ⟨enc, h1, -⟩ := fitEncoder_ok lit (allCodes := true) hd1 hd
  have hx := encodeRows_eq lit hd1 hd h1
  refine ⟨enc, h1, ?_⟩
  simp only [Bound.fit, useEncoder, h1, hx, convert_labels hd1 hd]
  rw [zip3_map rows (fun r => if cov then some r.wv else none) (fun r => oneHot (treatVectors d rows).length (armIdx d rows r.x)) (fun r => r.y)]
  rw [fitBase_two (by simpa using hne), (transform_position lit hd1 h1).1]
  rfl

theorem keysOf_cov {cov : Bool} (rows : List (Row V W K)) :
    (if cov then rows.map (fun r => if cov then some r.wv else none) else [none]) = keysOf cov rows := by
  cases cov <;> rfl

theorem mem_keysOf_rows {cov : Bool} {rows : List (Row V W K)} {k : Option W} (hne : rows ≠ []) (hk : k ∈ keysOf cov rows) :
    rowsAt rows k ≠ [] := by
  cases cov with
  | false =>
    simp only [keysOf, Bool.false_eq_true, if_false, List.mem_singleton] at hk
    subst hk
    exact hne
  | true =>
    simp only [keysOf, if_true, List.mem_map] at hk
    obtain ⟨r, hr, rfl⟩ := hk
    intro h
    have : r ∈ rowsAt rows (some r.wv) := by simp [rowsAt, hr]
    rw [h] at this
    cases this

/-- the columns of `x_prob` are the shares of the arms -/
theorem xProb_shares {fitX : List (W × Nat) → W → List K} (hX : CellFreqs fitX)
    {d : Nat} (hd1 : 1 ≤ d) (cov : Bool) {rows : List (Row V W K)} (hd : ∀ r ∈ rows, r.x.length = d)
    (hc : Complete d rows) :
    (xProb fitX cov none rows (rows.map (fun r => armIdx d rows r.x))).1 =
      (keysOf cov rows).map (fun k => (List.range (treatVectors d rows).length).map (fun j =>
        (((rowsAt rows k).filter (fun r => decide (armIdx d rows r.x = j))).length : K) / ((rowsAt rows k).length : K))) := by
  have hu := uniq_labels hd1 hd hc
  cases cov with
  | false =>
    simp only [xProb, Bool.false_eq_true, if_false, keysOf, List.map_cons, List.map_nil, freqs, hu, rowsAt, List.length_map]
    congr 1
    apply List.map_congr_left
    intro j _
    congr 2
    rw [List.count_eq_countP, List.countP_map, List.countP_eq_length_filter]
    rfl
  | true =>
    simp only [xProb, if_true, keysOf, List.map_map]
    apply List.map_congr_left
    intro r hr
    simp only [Function.comp]
    rw [zip2_map, hX _ _ ⟨armIdx d rows r.x, List.mem_map.2 ⟨r, hr, rfl⟩⟩, List.map_map]
    have : (fun r : Row V W K => armIdx d rows r.x) = ((fun e : W × Nat => e.2) ∘ fun a : Row V W K => (a.wv, armIdx d rows a.x)) := rfl
    rw [← this, hu]
    apply List.map_congr_left
    intro j _
    simp only [rowsAt, List.filter_map, List.length_map]
    rfl

theorem col_map {α : Type} (l : List α) (f : α → Nat → K) (n t : Nat) (ht : t < n) :
    col t (l.map (fun k => (List.range n).map (f k))) = .ok (l.map (fun k => f k t)) := by
  unfold col
  apply mapE_map
  intro k _
  rw [List.getElem?_map, List.getElem?_range ht]
  rfl

theorem group_labels {d : Nat} (hd1 : 1 ≤ d) {rows : List (Row V W K)} (hd : ∀ r ∈ rows, r.x.length = d) {v : List V}
    (hv : v ∈ treatVectors d rows) :
    Bound.group (armIdx d rows v) (rows.map (fun r => r.y)) ((rows.map (fun r => armIdx d rows r.x)).map (fun l => fun k => l == k)) =
      (rows.filter (fun r => decide (r.x = v))).map (fun r => r.y) := by
  unfold Bound.group
  rw [List.map_map, zip2_map, List.filter_map, List.map_map, ← filter_label hd1 hd (fun r hr => hr) hv]
  rfl

/-- With exact models the numbers from which a new object computes its bounds are the shares and mean outcomes of the arms. -/
theorem bound_prepare {fitX : List (W × Nat) → W → List K} (hX : CellFreqs fitX)
    {fitY : List ((Option W × List Nat) × K) → (Option W × List Nat → K)} (hY : CellMeans fitY)
    {d : Nat} (hd1 : 1 ≤ d) (cov : Bool) {rows : List (Row V W K)} (h2 : 2 ≤ rows.length) (hd : ∀ r ∈ rows, r.x.length = d)
    (hc : Complete d rows) {a b : List V} (ha : ∃ r ∈ rows, r.x = a) (hb : ∃ r ∈ rows, r.x = b)
    {ta tb : Option (Arg V)} (hta : ArgFor a ta) (htb : ArgFor b tb) :
    ∃ s, Bound.fit fitX fitY lit d cov ⟨none, none⟩ rows = .ok s ∧
      ∃ (m : Option W → List V → K) (M L : K),
        (∀ k v, (∃ r ∈ rowsAt rows k, r.x = v) → k ∈ keysOf cov rows → m k v = armMean (rowsAt rows k) v) ∧
        (∀ r ∈ rows, r.x = a ∨ r.x = b → L ≤ r.y ∧ r.y ≤ M) ∧
        (∃ r ∈ rows, (r.x = a ∨ r.x = b) ∧ r.y = M) ∧ (∃ r ∈ rows, (r.x = a ∨ r.x = b) ∧ r.y = L) ∧
        ∀ uU uL, prepare lit s none ta tb uU uL = .ok (uU.getD M, uL.getD L,
          (keysOf cov rows).map (fun k => ⟨armShare (rowsAt rows k) a, armShare (rowsAt rows k) b, m k a, m k b⟩)) := by
  obtain ⟨enc, h1, hfit⟩ := bound_fit lit fitX fitY hd1 cov h2 hd
  have hw := transform_position lit hd1 h1
  have hoa : Observed d rows a := by obtain ⟨r, hr, rfl⟩ := ha; exact observed_row hd hr
  have hob : Observed d rows b := by obtain ⟨r, hr, rfl⟩ := hb; exact observed_row hd hr
  obtain ⟨hpa, hma⟩ := hw.2 a hoa
  obtain ⟨hpb, hmb⟩ := hw.2 b hob
  have hga := group_labels hd1 hd hma
  have hgb := group_labels hd1 hd hmb
  have hne' : ∀ v, (∃ r ∈ rows, r.x = v) → (rows.filter (fun r => decide (r.x = v))).map (fun r => r.y) ≠ [] := by
    rintro v ⟨r, hr, hx⟩ h
    have : r ∈ rows.filter (fun r => decide (r.x = v)) := by simp [hr, hx]
    rw [List.map_eq_nil_iff.1 h] at this
    cases this
  obtain ⟨Ma, hMa, hMa1, hMa2⟩ := maxE_ok (hne' a ha)
  obtain ⟨La, hLa, hLa1, hLa2⟩ := minE_ok (hne' a ha)
  obtain ⟨Mb, hMb, hMb1, hMb2⟩ := maxE_ok (hne' b hb)
  obtain ⟨Lb, hLb, hLb1, hLb2⟩ := minE_ok (hne' b hb)
  have hy : ∀ v, ∀ r ∈ rows, r.x = v → r.y ∈ (rows.filter (fun r => decide (r.x = v))).map (fun r => r.y) :=
    fun v r hr hx => List.mem_map.2 ⟨r, by simp [hr, hx], rfl⟩
  have hy' : ∀ v x, x ∈ (rows.filter (fun r => decide (r.x = v))).map (fun r => r.y) → ∃ r ∈ rows, r.x = v ∧ r.y = x := by
    intro v x hx
    obtain ⟨r, hr, rfl⟩ := List.mem_map.1 hx
    simp only [List.mem_filter, decide_eq_true_eq] at hr
    exact ⟨r, hr.1, hr.2, rfl⟩
  refine ⟨_, hfit, fun k v => fitY (boundTrainY d cov rows) (k, oneHot (treatVectors d rows).length (armIdx d rows v)),
    max Ma Mb, min La Lb, ?_, ?_, ?_, ?_, ?_⟩
  · intro k v ⟨r, hr, hx⟩ hk
    have hrr : r ∈ rows := by
      cases k with
      | none => exact hr
      | some w => exact (List.mem_filter.1 hr).1
    have hv : v ∈ treatVectors d rows := (mem_treatVectors hd1).2 (by rw [← hx]; exact observed_row hd hrr)
    have hkey : ∀ r' ∈ rows, ((if cov then some r'.wv else none) = k ↔ r' ∈ rowsAt rows k) := by
      intro r' hr'
      cases cov with
      | false =>
        simp only [keysOf, Bool.false_eq_true, if_false, List.mem_singleton] at hk
        subst hk
        simp [rowsAt, hr']
      | true =>
        simp only [keysOf, if_true, List.mem_map] at hk
        obtain ⟨r'', _, rfl⟩ := hk
        simp [rowsAt, hr']
    have hsub : ∀ r' ∈ rowsAt rows k, r' ∈ rows := by
      intro r' hr'
      cases k with
      | none => exact hr'
      | some w => exact (List.mem_filter.1 hr').1
    show fitY (boundTrainY d cov rows) (k, oneHot (treatVectors d rows).length (armIdx d rows v)) = _
    rw [hY _ _ ⟨r.y, ?_⟩]
    · unfold armMean boundTrainY
      rw [List.filter_map, List.map_map, ← filter_label hd1 hd hsub hv]
      have : rows.filter ((fun e : (Option W × List Nat) × K => decide (e.1 = (k, oneHot (treatVectors d rows).length (armIdx d rows v)))) ∘
          fun r => (((if cov then some r.wv else none), oneHot (treatVectors d rows).length (armIdx d rows r.x)), r.y)) =
          (rowsAt rows k).filter (fun r => decide (armIdx d rows r.x = armIdx d rows v)) := by
        have h2 : rows.filter (fun r => decide ((if cov then some r.wv else none) = k)) = rowsAt rows k := by
          cases k with
          | none =>
            simp only [rowsAt]
            apply List.filter_eq_self.2
            intro r' hr'
            exact decide_eq_true ((hkey r' hr').2 hr')
          | some w =>
            simp only [rowsAt]
            apply List.filter_congr
            intro r' hr'
            have := hkey r' hr'
            simp only [rowsAt, List.mem_filter, hr', true_and, decide_eq_true_eq] at this
            simp only [this]
        rw [← h2, List.filter_filter]
        apply List.filter_congr
        intro r' hr'
        have hlt := armIdx_lt ((mem_treatVectors hd1).2 (observed_row hd hr'))
        have hlt2 := armIdx_lt hv
        simp only [Function.comp, Prod.mk.injEq]
        by_cases h3 : (if cov = true then some r'.wv else none) = k <;>
          by_cases h4 : armIdx d rows r'.x = armIdx d rows v
        · simp [h3, h4]
        · have : oneHot (treatVectors d rows).length (armIdx d rows r'.x) ≠ oneHot (treatVectors d rows).length (armIdx d rows v) :=
            fun h => h4 (oneHot_inj hlt hlt2 h)
          simp [h4, this]
        · simp [h3, h4]
        · simp [h3, h4]
      rw [this]
      rfl
    · unfold boundTrainY
      refine List.mem_map.2 ⟨r, hrr, ?_⟩
      rw [(hkey r hrr).2 hr, hx]
  · rintro r hr (hx | hx)
    · exact ⟨le_trans (min_le_left _ _) (hLa2 _ (hy a r hr hx)), le_trans (hMa2 _ (hy a r hr hx)) (le_max_left _ _)⟩
    · exact ⟨le_trans (min_le_right _ _) (hLb2 _ (hy b r hr hx)), le_trans (hMb2 _ (hy b r hr hx)) (le_max_right _ _)⟩
  · rcases max_choice Ma Mb with h | h <;> rw [h]
    · obtain ⟨r, h1, h2, h3⟩ := hy' a _ hMa1; exact ⟨r, h1, .inl h2, h3⟩
    · obtain ⟨r, h1, h2, h3⟩ := hy' b _ hMb1; exact ⟨r, h1, .inr h2, h3⟩
  · rcases min_choice La Lb with h | h <;> rw [h]
    · obtain ⟨r, h1, h2, h3⟩ := hy' a _ hLa1; exact ⟨r, h1, .inl h2, h3⟩
    · obtain ⟨r, h1, h2, h3⟩ := hy' b _ hLb1; exact ⟨r, h1, .inr h2, h3⟩
  · intro uU uL
    have hla := armIdx_lt hma
    have hlb := armIdx_lt hmb
    simp only [prepare, getTrCtrl_arg lit hta, getTrCtrl_arg lit htb, hpa, hpb, gather, hga, hgb, hMa, hLa, hMb, hLb, hla, hlb,
      and_self, if_true, keysOf_cov, xProb_shares hX hd1 cov hd hc]
    rw [col_map _ _ _ _ hla, col_map _ _ _ _ hlb]
    simp only [broadcast, List.length_map, if_true]
    rw [zip2_map]
    congr 2
    congr 1
    nth_rewrite 1 [← List.map_id (keysOf cov rows)]
    rw [zip2_map, List.map_map]
    apply List.map_congr_left
    intro k hk
    have hsub : ∀ r' ∈ rowsAt rows k, r' ∈ rows := by
      intro r' hr'
      cases k with
      | none => exact hr'
      | some w => exact (List.mem_filter.1 hr').1
    simp only [Function.comp, id, armShare, ← filter_label hd1 hd hsub hma, ← filter_label hd1 hd hsub hmb]

/-! ### potential outcomes -/

theorem rowsAt_observe (us : List (Subject W (List V) K)) (k : Option W) :
    rowsAt (us.map observe) k = (stratumOf us k).map observe := by
  cases k with
  | none => rfl
  | some w => simp only [rowsAt, stratumOf, List.filter_map]; rfl

theorem sum_le_const {ι : Type} (l : List ι) (f : ι → K) (U : K) (h : ∀ u ∈ l, f u ≤ U) : (l.map f).sum ≤ (l.length : K) * U := by
  induction l with
  | nil => simp
  | cons a l ih =>
    have h1 := h a (by simp)
    have h2 := ih (fun u hu => h u (List.mem_cons_of_mem _ hu))
    simp only [List.map_cons, List.sum_cons, List.length_cons, Nat.cast_add, Nat.cast_one]
    linarith

theorem const_le_sum {ι : Type} (l : List ι) (f : ι → K) (L : K) (h : ∀ u ∈ l, L ≤ f u) : (l.length : K) * L ≤ (l.map f).sum := by
  induction l with
  | nil => simp
  | cons a l ih =>
    have h1 := h a (by simp)
    have h2 := ih (fun u hu => h u (List.mem_cons_of_mem _ hu))
    simp only [List.map_cons, List.sum_cons, List.length_cons, Nat.cast_add, Nat.cast_one]
    linarith

theorem length_split {ι : Type} (p : ι → Bool) (l : List ι) :
    (l.length : K) = ((l.filter p).length : K) + ((l.filter (fun i => !p i)).length : K) := by
  induction l with
  | nil => simp
  | cons a l ih =>
    cases h : p a <;> simp [h, ih] <;> ring

/-- share times mean of an arm, times the number of rows, is the sum of its outcomes -/
theorem share_mean (R : List (Row V W K)) (hR : R ≠ []) (v : List V) (m : K) (hm : (∃ r ∈ R, r.x = v) → m = armMean R v) :
    armShare R v * m * (R.length : K) = ((R.filter (fun r => decide (r.x = v))).map (fun r => r.y)).sum := by
  have hn : (R.length : K) ≠ 0 := by
    rw [Nat.cast_ne_zero]
    exact fun h => hR (List.length_eq_zero_iff.1 h)
  by_cases h : ∃ r ∈ R, r.x = v
  · rw [hm h]
    unfold armShare armMean avg
    have hk : ((R.filter (fun r => decide (r.x = v))).length : K) ≠ 0 := by
      rw [Nat.cast_ne_zero]
      intro h0
      obtain ⟨r, hr, hx⟩ := h
      have : r ∈ R.filter (fun r => decide (r.x = v)) := by simp [hr, hx]
      rw [List.length_eq_zero_iff.1 h0] at this
      cases this
    rw [List.length_map]
    field_simp
  · have : R.filter (fun r => decide (r.x = v)) = [] := by
      rw [List.filter_eq_nil_iff]
      intro r hr hx
      exact h ⟨r, hr, by simpa using hx⟩
    unfold armShare
    rw [this]
    simp

/-- the number of rows of a stratum is positive -/
theorem length_pos_cast {ι : Type} {l : List ι} (h : l ≠ []) : (0 : K) < (l.length : K) := by
  rw [Nat.cast_pos]
  exact List.length_pos_iff.2 h

/-- The observed sum of an arm in a population. -/
theorem observed_sum (S : List (Subject W (List V) K)) (v : List V) :
    (((S.map observe).filter (fun r => decide (r.x = v))).map (fun r => r.y)).sum =
      ((S.filter (fun u => decide (u.arm = v))).map (fun u => u.y v)).sum := by
  rw [List.filter_map, List.map_map]
  congr 1
  apply List.map_congr_left
  intro u hu
  simp only [List.mem_filter, Function.comp, observe, decide_eq_true_eq] at hu
  simp only [Function.comp, observe, of_decide_eq_true hu.2]

theorem one_sub_share (S : List (Subject W (List V) K)) (hS : S ≠ []) (v : List V) :
    (1 - armShare (S.map observe) v) * (S.length : K) = ((S.filter (fun u => !decide (u.arm = v))).length : K) := by
  have hn := (length_pos_cast (K := K) hS).ne'
  have h1 := length_split (K := K) (fun u : Subject W (List V) K => decide (u.arm = v)) S
  have h2 : ((S.map observe).filter (fun r => decide (r.x = v))).length = (S.filter (fun u => decide (u.arm = v))).length := by
    rw [List.filter_map, List.length_map]; rfl
  unfold armShare
  rw [h2, List.length_map, sub_mul, div_mul_cancel₀ _ hn]
  linarith

/-- bounds of a mean potential outcome -/
theorem potential_bounds (S : List (Subject W (List V) K)) (hS : S ≠ []) (v : List V) {m lo hi : K}
    (hm : (∃ r ∈ S.map observe, r.x = v) → m = armMean (S.map observe) v) (hlo : ∀ u ∈ S, lo ≤ u.y v) (hhi : ∀ u ∈ S, u.y v ≤ hi) :
    armShare (S.map observe) v * m + (1 - armShare (S.map observe) v) * lo ≤ avg (S.map (fun u => u.y v)) ∧
      avg (S.map (fun u => u.y v)) ≤ armShare (S.map observe) v * m + (1 - armShare (S.map observe) v) * hi := by
  have hn := length_pos_cast (K := K) hS
  have h1 := share_mean (S.map observe) (by simpa using hS) v m hm
  have h2 := one_sub_share S hS v
  rw [observed_sum, List.length_map] at h1
  have h3 := sum_split (fun u : Subject W (List V) K => decide (u.arm = v)) (fun u => u.y v) S
  have h4 := sum_le_const (S.filter (fun u => !decide (u.arm = v))) (fun u => u.y v) hi (fun u hu => hhi u (List.mem_filter.1 hu).1)
  have h5 := const_le_sum (S.filter (fun u => !decide (u.arm = v))) (fun u => u.y v) lo (fun u hu => hlo u (List.mem_filter.1 hu).1)
  unfold avg
  rw [List.length_map, le_div_iff₀ hn, div_le_iff₀ hn]
  constructor
  · rw [add_mul, h1, h3]
    have : (1 - armShare (S.map observe) v) * lo * (S.length : K) = ((S.filter (fun u => !decide (u.arm = v))).length : K) * lo := by
      rw [← h2]; ring
    rw [this]
    linarith
  · rw [add_mul, h1, h3]
    have : (1 - armShare (S.map observe) v) * hi * (S.length : K) = ((S.filter (fun u => !decide (u.arm = v))).length : K) * hi := by
      rw [← h2]; ring
    rw [this]
    linarith

theorem ate_eq (S : List (Subject W (List V) K)) (a b : List V) :
    ate S a b = avg (S.map (fun u => u.y a)) - avg (S.map (fun u => u.y b)) := by
  unfold ate avg
  rw [sum_map_sub']
  simp only [List.length_map]
  rw [sub_div]

theorem stratum_ne {cov : Bool} {us : List (Subject W (List V) K)} (hne : us ≠ []) {k : Option W} (hk : k ∈ keysOf cov (us.map observe)) :
    stratumOf us k ≠ [] := by
  have := mem_keysOf_rows (rows := us.map observe) (by simpa using hne) hk
  rw [rowsAt_observe] at this
  simpa using this

theorem stratum_sub {us : List (Subject W (List V) K)} {k : Option W} {u : Subject W (List V) K} (h : u ∈ stratumOf us k) : u ∈ us := by
  cases k with
  | none => exact h
  | some w => exact (List.mem_filter.1 h).1

/-- **C66**: for every finite population with potential outcomes between `lo` and `hi`, any number of treatments and arms, with or
without covariates: if the treatment model returns the arm frequencies and the outcome model the arm means of each stratum
and every combination of treatment values occurs, then `fit` followed by `estimate(y_upper=hi, y_lower=lo)` returns one
pair of numbers per row (a single pair without covariates) and the true average effect in the row's stratum lies between them. -/
theorem C66_bounds_valid {fitX : List (W × Nat) → W → List K} (hX : CellFreqs fitX)
    {fitY : List ((Option W × List Nat) × K) → (Option W × List Nat → K)} (hY : CellMeans fitY)
    {d : Nat} (hd1 : 1 ≤ d) (cov : Bool) {us : List (Subject W (List V) K)} (h2 : 2 ≤ us.length) (hd : ∀ u ∈ us, u.arm.length = d)
    (hc : Complete d (us.map observe)) {a b : List V} (ha : ∃ u ∈ us, u.arm = a) (hb : ∃ u ∈ us, u.arm = b)
    {ta tb : Option (Arg V)} (hta : ArgFor a ta) (htb : ArgFor b tb) {lo hi : K} (hB : Bounded us lo hi) :
    ∃ s lower upper, Bound.fit fitX fitY lit d cov ⟨none, none⟩ (us.map observe) = .ok s ∧
      estimate lit s none ta tb (some hi) (some lo) .noAssump = .ok (.pair lower upper) ∧
      lower.length = (keysOf cov (us.map observe)).length ∧ upper.length = (keysOf cov (us.map observe)).length ∧
      ∀ (i : Nat) (k : Option W), (keysOf cov (us.map observe))[i]? = some k →
        ∃ l h, lower[i]? = some l ∧ upper[i]? = some h ∧ l ≤ ate (stratumOf us k) a b ∧ ate (stratumOf us k) a b ≤ h := by
  have hne : us ≠ [] := by obtain ⟨u, hu, _⟩ := ha; rintro rfl; cases hu
  obtain ⟨s, hs, m, M, L, hm, -, -, -, hp⟩ := bound_prepare lit hX hY hd1 cov (rows := us.map observe) (by simpa using h2)
    (by simpa [observe] using hd) hc (a := a) (b := b) (by simpa [observe] using ha) (by simpa [observe] using hb) hta htb
  refine ⟨s, _, _, hs, by simp only [estimate, hp]; rfl, ?_, ?_, ?_⟩
  · simp
  · simp
  · intro i k hk
    have hkm := List.mem_of_getElem? hk
    refine ⟨_, _, by rw [List.getElem?_map, List.getElem?_map, hk]; rfl, by rw [List.getElem?_map, List.getElem?_map, hk]; rfl, ?_⟩
    have hS := stratum_ne hne hkm
    show lowerF _ _ (armShare (rowsAt (us.map observe) k) a) (armShare (rowsAt (us.map observe) k) b) (m k a) (m k b) ≤ _ ∧
      _ ≤ upperF _ _ (armShare (rowsAt (us.map observe) k) a) (armShare (rowsAt (us.map observe) k) b) (m k a) (m k b)
    rw [rowsAt_observe]
    have hma := hm k a
    have hmb := hm k b
    rw [rowsAt_observe] at hma hmb
    have h1 := potential_bounds (stratumOf us k) hS a (fun h => hma h hkm) (fun u hu => (hB u (stratum_sub hu) a).1)
      (fun u hu => (hB u (stratum_sub hu) a).2)
    have h2 := potential_bounds (stratumOf us k) hS b (fun h => hmb h hkm) (fun u hu => (hB u (stratum_sub hu) b).1)
      (fun u hu => (hB u (stratum_sub hu) b).2)
    rw [ate_eq]
    simp only [lowerF, upperF, Option.getD_some]
    constructor <;> linarith [h1.1, h1.2, h2.1, h2.2]

/-- **C66**: the same under the assumption that the treatment never harms (`assump='non-negative'`: zero and the upper bound)
or never helps (`assump='non-positive'`: the lower bound and zero). -/
theorem C66_monotone_valid {fitX : List (W × Nat) → W → List K} (hX : CellFreqs fitX)
    {fitY : List ((Option W × List Nat) × K) → (Option W × List Nat → K)} (hY : CellMeans fitY)
    {d : Nat} (hd1 : 1 ≤ d) (cov : Bool) {us : List (Subject W (List V) K)} (h2 : 2 ≤ us.length) (hd : ∀ u ∈ us, u.arm.length = d)
    (hc : Complete d (us.map observe)) {a b : List V} (ha : ∃ u ∈ us, u.arm = a) (hb : ∃ u ∈ us, u.arm = b)
    {ta tb : Option (Arg V)} (hta : ArgFor a ta) (htb : ArgFor b tb) {lo hi : K} (hB : Bounded us lo hi) (nonneg : Bool)
    (hmono : ∀ u ∈ us, if nonneg then u.y b ≤ u.y a else u.y a ≤ u.y b) :
    ∃ s lower upper, Bound.fit fitX fitY lit d cov ⟨none, none⟩ (us.map observe) = .ok s ∧
      estimate lit s none ta tb (some hi) (some lo) (if nonneg then .nonNegative else .nonPositive) = .ok (.pair lower upper) ∧
      lower.length = (keysOf cov (us.map observe)).length ∧ upper.length = (keysOf cov (us.map observe)).length ∧
      (∀ x ∈ if nonneg then lower else upper, x = 0) ∧
      ∀ (i : Nat) (k : Option W), (keysOf cov (us.map observe))[i]? = some k →
        ∃ l h, lower[i]? = some l ∧ upper[i]? = some h ∧ l ≤ ate (stratumOf us k) a b ∧ ate (stratumOf us k) a b ≤ h := by
  obtain ⟨s, lower, upper, h1, h2, h3, h4, h5⟩ := C66_bounds_valid lit hX hY hd1 cov h2 hd hc ha hb hta htb hB
  have hz : ∀ (i : Nat) (l : List K), i < l.length → (l.map (fun _ => (0 : K)))[i]? = some 0 := by
    intro i l hi
    rw [List.getElem?_map, List.getElem?_eq_getElem hi]; rfl
  have hest : ∀ A : Assump, ∀ r, (∀ yU yL cells, prepare lit s none ta tb (some hi) (some lo) = .ok (yU, yL, cells) →
      lower = cells.map (fun q => lowerF yU yL q.pt q.p0 q.yt q.y0) → upper = cells.map (fun q => upperF yU yL q.pt q.p0 q.yt q.y0) →
      estimate lit s none ta tb (some hi) (some lo) A = .ok r) → estimate lit s none ta tb (some hi) (some lo) A = .ok r := by
    intro A r hr
    have h2' := h2
    unfold estimate at h2'
    cases hp : prepare lit s none ta tb (some hi) (some lo) with
    | error e => rw [hp] at h2'; cases h2'
    | ok q =>
      obtain ⟨yU, yL, cells⟩ := q
      rw [hp] at h2'
      simp only [Except.ok.injEq, Res.pair.injEq] at h2'
      exact hr yU yL cells hp h2'.1.symm h2'.2.symm
  cases nonneg with
  | true =>
    simp only [if_true] at hmono
    refine ⟨s, lower.map (fun _ => 0), upper, h1, ?_, by simpa using h3, h4, by simp, ?_⟩
    · apply hest
      intro yU yL cells hp hl hu
      simp only [estimate, hp, if_true, hl, hu]
    · intro i k hk
      obtain ⟨l, h, hl, hh, h6, h7⟩ := h5 i k hk
      refine ⟨0, h, hz i lower (List.getElem?_eq_some_iff.1 hl).1, hh, ?_, h7⟩
      unfold ate avg
      apply div_nonneg
      · have := const_le_sum (stratumOf us k) (fun u => u.y a - u.y b) 0 (fun u hu => sub_nonneg.2 (hmono u (stratum_sub hu)))
        linarith
      · exact Nat.cast_nonneg _
  | false =>
    simp only [Bool.false_eq_true, if_false] at hmono
    refine ⟨s, lower, lower.map (fun _ => 0), h1, ?_, h3, by simpa using h3, by simp, ?_⟩
    · apply hest
      intro yU yL cells hp hl hu
      simp only [estimate, hp, Bool.false_eq_true, if_false, hl]
    · intro i k hk
      obtain ⟨l, h, hl, hh, h6, h7⟩ := h5 i k hk
      refine ⟨l, 0, hl, hz i lower (List.getElem?_eq_some_iff.1 hl).1, h6, ?_⟩
      unfold ate avg
      apply div_nonpos_of_nonpos_of_nonneg
      · have := sum_le_const (stratumOf us k) (fun u => u.y a - u.y b) 0 (fun u hu => sub_nonpos.2 (hmono u (stratum_sub hu)))
        linarith
      · exact Nat.cast_nonneg _

/-- the population with the same observations in which every unobserved outcome of arm `a` is `x` and every other unobserved
outcome is `z` -/
def extreme (a : List V) (x z : K) (u : Subject W (List V) K) : Subject W (List V) K :=
  ⟨u.w, u.arm, fun v => if v = u.arm then u.y u.arm else if v = a then x else z⟩

theorem observe_extreme (a : List V) (x z : K) (us : List (Subject W (List V) K)) :
    (us.map (extreme a x z)).map observe = us.map observe := by
  rw [List.map_map]
  apply List.map_congr_left
  intro u _
  simp [extreme, observe]

theorem stratum_extreme (a : List V) (x z : K) (us : List (Subject W (List V) K)) (k : Option W) :
    stratumOf (us.map (extreme a x z)) k = (stratumOf us k).map (extreme a x z) := by
  cases k with
  | none => rfl
  | some w => simp only [stratumOf, List.filter_map]; rfl

theorem bounded_extreme {us : List (Subject W (List V) K)} {lo hi : K} (hB : Bounded us lo hi) (a : List V) {x z : K}
    (hx : lo ≤ x ∧ x ≤ hi) (hz : lo ≤ z ∧ z ≤ hi) : Bounded (us.map (extreme a x z)) lo hi := by
  intro u hu v
  obtain ⟨u', hu', rfl⟩ := List.mem_map.1 hu
  simp only [extreme]
  by_cases h1 : v = u'.arm
  · rw [if_pos h1]; exact hB u' hu' _
  · rw [if_neg h1]
    by_cases h2 : v = a
    · rw [if_pos h2]; exact hx
    · rw [if_neg h2]; exact hz

theorem avg_extreme (S : List (Subject W (List V) K)) (hS : S ≠ []) (a v : List V) (x z : K) {m c : K}
    (hm : (∃ r ∈ S.map observe, r.x = v) → m = armMean (S.map observe) v) (hc : c = if v = a then x else z) :
    avg ((S.map (extreme a x z)).map (fun u => u.y v)) = armShare (S.map observe) v * m + (1 - armShare (S.map observe) v) * c := by
  have hn := length_pos_cast (K := K) hS
  have h1 := share_mean (S.map observe) (by simpa using hS) v m hm
  have h2 := one_sub_share S hS v
  rw [observed_sum, List.length_map] at h1
  unfold avg
  rw [List.length_map, List.length_map, div_eq_iff hn.ne', add_mul, h1, List.map_map,
    sum_split (fun u : Subject W (List V) K => decide (u.arm = v))]
  congr 1
  · congr 1
    apply List.map_congr_left
    intro u hu
    simp only [List.mem_filter, decide_eq_true_eq] at hu
    simp [extreme, hu.2]
  · rw [show (1 - armShare (S.map observe) v) * c * (S.length : K) = ((S.filter (fun u => !decide (u.arm = v))).length : K) * c by
      rw [← h2]; ring]
    have hle : ∀ u ∈ S.filter (fun u => !decide (u.arm = v)), ((fun u => u.y v) ∘ extreme a x z) u = c := by
      intro u hu
      simp only [List.mem_filter, Bool.not_eq_true', decide_eq_false_iff_not] at hu
      have : v ≠ u.arm := fun h => hu.2 h.symm
      simp only [Function.comp, extreme, if_neg this, hc]
    apply le_antisymm
    · exact sum_le_const _ _ _ (fun u hu => (hle u hu).le)
    · exact const_le_sum _ _ _ (fun u hu => (hle u hu).ge)

/-- **C66**: the bounds cannot be improved: for different arms there are two populations with the same observations and
outcomes between `lo` and `hi` whose average effects are, in every stratum, exactly the returned lower and upper number. -/
theorem C66_bounds_sharp {fitX : List (W × Nat) → W → List K} (hX : CellFreqs fitX)
    {fitY : List ((Option W × List Nat) × K) → (Option W × List Nat → K)} (hY : CellMeans fitY)
    {d : Nat} (hd1 : 1 ≤ d) (cov : Bool) {us : List (Subject W (List V) K)} (h2 : 2 ≤ us.length) (hd : ∀ u ∈ us, u.arm.length = d)
    (hc : Complete d (us.map observe)) {a b : List V} (hab : a ≠ b) (ha : ∃ u ∈ us, u.arm = a) (hb : ∃ u ∈ us, u.arm = b)
    {ta tb : Option (Arg V)} (hta : ArgFor a ta) (htb : ArgFor b tb) {lo hi : K} (hB : Bounded us lo hi) :
    ∃ s lower upper, Bound.fit fitX fitY lit d cov ⟨none, none⟩ (us.map observe) = .ok s ∧
      estimate lit s none ta tb (some hi) (some lo) .noAssump = .ok (.pair lower upper) ∧
      ∃ usL usU : List (Subject W (List V) K), usL.map observe = us.map observe ∧ usU.map observe = us.map observe ∧
        Bounded usL lo hi ∧ Bounded usU lo hi ∧
        lower = (keysOf cov (us.map observe)).map (fun k => ate (stratumOf usL k) a b) ∧
        upper = (keysOf cov (us.map observe)).map (fun k => ate (stratumOf usU k) a b) := by
  have hne : us ≠ [] := by obtain ⟨u, hu, _⟩ := ha; rintro rfl; cases hu
  have hlh : lo ≤ hi := by
    obtain ⟨u, hu, _⟩ := ha
    exact le_trans (hB u hu a).1 (hB u hu a).2
  obtain ⟨s, hs, m, M, L, hm, -, -, -, hp⟩ := bound_prepare lit hX hY hd1 cov (rows := us.map observe) (by simpa using h2)
    (by simpa [observe] using hd) hc (a := a) (b := b) (by simpa [observe] using ha) (by simpa [observe] using hb) hta htb
  refine ⟨s, _, _, hs, by simp only [estimate, hp]; rfl, us.map (extreme a lo hi), us.map (extreme a hi lo),
    observe_extreme _ _ _ _, observe_extreme _ _ _ _, bounded_extreme hB a ⟨le_refl _, hlh⟩ ⟨hlh, le_refl _⟩,
    bounded_extreme hB a ⟨hlh, le_refl _⟩ ⟨le_refl _, hlh⟩, ?_, ?_⟩ <;>
  · rw [List.map_map]
    apply List.map_congr_left
    intro k hk
    have hS := stratum_ne hne hk
    have hma := hm k a
    have hmb := hm k b
    rw [rowsAt_observe] at hma hmb
    simp only [Function.comp, Option.getD_some]
    rw [stratum_extreme, ate_eq, rowsAt_observe,
      avg_extreme (stratumOf us k) hS a a _ _ (fun h => hma h hk) (if_pos rfl).symm,
      avg_extreme (stratumOf us k) hS a b _ _ (fun h => hmb h hk) (if_neg (Ne.symm hab)).symm]
    simp only [lowerF, upperF]
    ring

/-! ### zero -/

theorem armShare_nonneg (R : List (Row V W K)) (v : List V) : 0 ≤ armShare R v :=
  div_nonneg (Nat.cast_nonneg _) (Nat.cast_nonneg _)

theorem armShare_add_le {R : List (Row V W K)} (hR : R ≠ []) {a b : List V} (hab : a ≠ b) : armShare R a + armShare R b ≤ 1 := by
  have hn := length_pos_cast (K := K) hR
  unfold armShare
  rw [← add_div, div_le_one hn, ← Nat.cast_add, Nat.cast_le]
  have h1 : (R.filter (fun r => decide (r.x = b))).length ≤ (R.filter (fun r => !decide (r.x = a))).length := by
    rw [← List.countP_eq_length_filter, ← List.countP_eq_length_filter]
    apply List.countP_mono_left
    intro r _ h
    simp only [decide_eq_true_eq] at h
    simp [h, Ne.symm hab]
  have h2 : R.length = (R.filter (fun r => decide (r.x = a))).length + (R.filter (fun r => !decide (r.x = a))).length := by
    have := length_split (K := ℚ) (fun r : Row V W K => decide (r.x = a)) R
    exact_mod_cast this
  omega

theorem mean_mem {R : List (Row V W K)} {v : List V} {lo hi : K} (h : ∃ r ∈ R, r.x = v) (hlo : ∀ r ∈ R, r.x = v → lo ≤ r.y ∧ r.y ≤ hi) :
    lo ≤ armMean R v ∧ armMean R v ≤ hi := by
  have hn : (0 : K) < ((R.filter (fun r => decide (r.x = v))).length : K) := by
    apply length_pos_cast
    obtain ⟨r, hr, hx⟩ := h
    intro h0
    have : r ∈ R.filter (fun r => decide (r.x = v)) := by simp [hr, hx]
    rw [h0] at this
    cases this
  have hmem : ∀ r ∈ R.filter (fun r => decide (r.x = v)), lo ≤ r.y ∧ r.y ≤ hi := fun r hr => by
    simp only [List.mem_filter, decide_eq_true_eq] at hr
    exact hlo r hr.1 hr.2
  unfold armMean avg
  rw [List.length_map, le_div_iff₀ hn, div_le_iff₀ hn]
  constructor
  · have := const_le_sum _ (fun r : Row V W K => r.y) lo (fun r hr => (hmem r hr).1); linarith
  · have := sum_le_const _ (fun r : Row V W K => r.y) hi (fun r hr => (hmem r hr).2); linarith

/-- one term of the bounds: a share times a mean that is known to lie between the bounds if the share is positive -/
theorem share_mean_mem {R : List (Row V W K)} {v : List V} {m lo hi : K} (hm : (∃ r ∈ R, r.x = v) → m = armMean R v)
    (hlo : ∀ r ∈ R, r.x = v → lo ≤ r.y ∧ r.y ≤ hi) :
    armShare R v * lo ≤ armShare R v * m ∧ armShare R v * m ≤ armShare R v * hi := by
  by_cases h : ∃ r ∈ R, r.x = v
  · have := mean_mem h hlo
    rw [hm h]
    exact ⟨mul_le_mul_of_nonneg_left this.1 (armShare_nonneg _ _), mul_le_mul_of_nonneg_left this.2 (armShare_nonneg _ _)⟩
  · have h0 : armShare R v = 0 := by
      unfold armShare
      rw [show R.filter (fun r => decide (r.x = v)) = [] from List.filter_eq_nil_iff.2 (fun r hr hx => h ⟨r, hr, by simpa using hx⟩)]
      simp
    rw [h0]
    simp

/-- **C67**: "the result will always contain 0": for any data, with exact models, the interval returned without assumptions
contains zero, both for the default bounds of the outcome and for any given bounds that hold for the outcomes of the two arms;
and all its widths are `(2 - share of a - share of b)` times the range of the outcome. -/
theorem C67_contains_zero {fitX : List (W × Nat) → W → List K} (hX : CellFreqs fitX)
    {fitY : List ((Option W × List Nat) × K) → (Option W × List Nat → K)} (hY : CellMeans fitY)
    {d : Nat} (hd1 : 1 ≤ d) (cov : Bool) {rows : List (Row V W K)} (h2 : 2 ≤ rows.length) (hd : ∀ r ∈ rows, r.x.length = d)
    (hc : Complete d rows) {a b : List V} (ha : ∃ r ∈ rows, r.x = a) (hb : ∃ r ∈ rows, r.x = b)
    {ta tb : Option (Arg V)} (hta : ArgFor a ta) (htb : ArgFor b tb) (uU uL : Option K)
    (hU : ∀ u, uU = some u → ∀ r ∈ rows, r.x = a ∨ r.x = b → r.y ≤ u) (hL : ∀ l, uL = some l → ∀ r ∈ rows, r.x = a ∨ r.x = b → l ≤ r.y) :
    ∃ s lower upper, Bound.fit fitX fitY lit d cov ⟨none, none⟩ rows = .ok s ∧
      estimate lit s none ta tb uU uL .noAssump = .ok (.pair lower upper) ∧
      lower.length = (keysOf cov rows).length ∧ upper.length = (keysOf cov rows).length ∧
      (∀ l ∈ lower, l ≤ 0) ∧ (∀ u ∈ upper, 0 ≤ u) := by
  have hne : rows ≠ [] := by obtain ⟨u, hu, _⟩ := ha; rintro rfl; cases hu
  obtain ⟨s, hs, m, M, L, hm, hr, hM, hL', hp⟩ := bound_prepare lit hX hY hd1 cov h2 hd hc ha hb hta htb
  have hall : ∀ r ∈ rows, r.x = a ∨ r.x = b → uL.getD L ≤ r.y ∧ r.y ≤ uU.getD M := by
    intro r hr1 hr2
    refine ⟨?_, ?_⟩
    · cases uL with
      | none => exact (hr r hr1 hr2).1
      | some l => exact hL l rfl r hr1 hr2
    · cases uU with
      | none => exact (hr r hr1 hr2).2
      | some u => exact hU u rfl r hr1 hr2
  have hlh : uL.getD L ≤ uU.getD M := by
    obtain ⟨r, hr1, hx⟩ := ha
    exact le_trans (hall r hr1 (.inl hx)).1 (hall r hr1 (.inl hx)).2
  have key : ∀ k ∈ keysOf cov rows,
      lowerF (uU.getD M) (uL.getD L) (armShare (rowsAt rows k) a) (armShare (rowsAt rows k) b) (m k a) (m k b) ≤ 0 ∧
      0 ≤ upperF (uU.getD M) (uL.getD L) (armShare (rowsAt rows k) a) (armShare (rowsAt rows k) b) (m k a) (m k b) := by
    intro k hk
    have hsub : ∀ r' ∈ rowsAt rows k, r' ∈ rows := by
      intro r' hr'
      cases k with
      | none => exact hr'
      | some w => exact (List.mem_filter.1 hr').1
    have h1 := share_mean_mem (lo := uL.getD L) (hi := uU.getD M) (fun h => hm k a h hk) (fun r hr hx => hall r (hsub r hr) (.inl hx))
    have h2 := share_mean_mem (lo := uL.getD L) (hi := uU.getD M) (fun h => hm k b h hk) (fun r hr hx => hall r (hsub r hr) (.inr hx))
    have hR := mem_keysOf_rows hne hk
    by_cases hab : a = b
    · subst hab
      have h3 : armShare (rowsAt rows k) a ≤ 1 := by
        unfold armShare
        rw [div_le_one (length_pos_cast hR), Nat.cast_le]
        exact List.length_filter_le _ _
      simp only [lowerF, upperF]
      have : 0 ≤ (1 - armShare (rowsAt rows k) a) * (uU.getD M - uL.getD L) := mul_nonneg (by linarith) (by linarith)
      constructor <;> linarith
    · have h3 := armShare_add_le hR hab
      have : 0 ≤ (1 - armShare (rowsAt rows k) a - armShare (rowsAt rows k) b) * (uU.getD M - uL.getD L) :=
        mul_nonneg (by linarith) (by linarith)
      simp only [lowerF, upperF]
      constructor <;> linarith [h1.1, h1.2, h2.1, h2.2]
  refine ⟨s, _, _, hs, by simp only [estimate, hp]; rfl, by simp, by simp, ?_, ?_⟩
  · intro l hl
    obtain ⟨q, hq, rfl⟩ := List.mem_map.1 hl
    obtain ⟨k, hk, rfl⟩ := List.mem_map.1 hq
    exact (key k hk).1
  · intro l hl
    obtain ⟨q, hq, rfl⟩ := List.mem_map.1 hl
    obtain ⟨k, hk, rfl⟩ := List.mem_map.1 hq
    exact (key k hk).2

/-- **C67**: whatever the models predict, upper minus lower is `(2 - p_treat - p_control) * (y_upper - y_lower)` in every row. -/
theorem C67_width (yU yL pt p0 yt y0 : K) : upperF yU yL pt p0 yt y0 - lowerF yU yL pt p0 yt y0 = (2 - pt - p0) * (yU - yL) := by
  simp only [upperF, lowerF]; ring

/-! ### optimal treatment selection -/

theorem share_mul_length {R : List (Row V W K)} (hR : R ≠ []) (v : List V) :
    armShare R v * (R.length : K) = ((R.filter (fun r => decide (r.x = v))).length : K) := by
  unfold armShare
  rw [div_mul_cancel₀ _ (length_pos_cast hR).ne']

/-- **C68**: if every subject received a best arm, the first array of the first pair returned by `assump='optimal'`
is an upper bound of the true effect, for any number of arms. -/
theorem C68_first_upper_valid_partial {fitX : List (W × Nat) → W → List K} (hX : CellFreqs fitX)
    {fitY : List ((Option W × List Nat) × K) → (Option W × List Nat → K)} (hY : CellMeans fitY)
    {d : Nat} (hd1 : 1 ≤ d) (cov : Bool) {us : List (Subject W (List V) K)} (h2 : 2 ≤ us.length) (hd : ∀ u ∈ us, u.arm.length = d)
    (hc : Complete d (us.map observe)) {a b : List V} (hab : a ≠ b) (ha : ∃ u ∈ us, u.arm = a) (hb : ∃ u ∈ us, u.arm = b)
    {ta tb : Option (Arg V)} (hta : ArgFor a ta) (htb : ArgFor b tb) {lo hi : K} (hB : Bounded us lo hi) (hopt : OptimalSelection us) :
    ∃ s u1 l1 u2 l2, Bound.fit fitX fitY lit d cov ⟨none, none⟩ (us.map observe) = .ok s ∧
      estimate lit s none ta tb (some hi) (some lo) .optimal = .ok (.optimal (u1, l1) (u2, l2)) ∧
      u1.length = (keysOf cov (us.map observe)).length ∧
      ∀ (i : Nat) (k : Option W), (keysOf cov (us.map observe))[i]? = some k →
        ∃ h, u1[i]? = some h ∧ ate (stratumOf us k) a b ≤ h := by
  have hne : us ≠ [] := by obtain ⟨u, hu, _⟩ := ha; rintro rfl; cases hu
  obtain ⟨s, hs, m, M, L, hm, -, -, -, hp⟩ := bound_prepare lit hX hY hd1 cov (rows := us.map observe) (by simpa using h2)
    (by simpa [observe] using hd) hc (a := a) (b := b) (by simpa [observe] using ha) (by simpa [observe] using hb) hta htb
  refine ⟨s, _, _, _, _, hs, by simp only [estimate, hp]; rfl, by simp, ?_⟩
  intro i k hk
  have hkm := List.mem_of_getElem? hk
  refine ⟨_, by rw [List.getElem?_map, List.getElem?_map, hk]; rfl, ?_⟩
  have hS := stratum_ne hne hkm
  show _ ≤ optU1 hi lo (armShare (rowsAt (us.map observe) k) a) (armShare (rowsAt (us.map observe) k) b) (m k a)
  rw [rowsAt_observe]
  have hma := hm k a
  rw [rowsAt_observe] at hma
  generalize hSS : stratumOf us k = S at *
  have hsub : ∀ u ∈ S, u ∈ us := fun u hu => stratum_sub (k := k) (by rw [hSS]; exact hu)
  have hn := length_pos_cast (K := K) hS
  have hS' : S.map observe ≠ [] := by simpa using hS
  have h1 := share_mean (S.map observe) hS' a (m k a) (fun h => hma h hkm)
  rw [observed_sum, List.length_map] at h1
  have h2 := share_mul_length hS' a
  have h3 := share_mul_length hS' b
  rw [List.length_map] at h2 h3
  have h2' : ((S.map observe).filter (fun r => decide (r.x = a))).length = (S.filter (fun u => decide (u.arm = a))).length := by
    rw [List.filter_map, List.length_map]; rfl
  have h3' : ((S.map observe).filter (fun r => decide (r.x = b))).length = (S.filter (fun u => decide (u.arm = b))).length := by
    rw [List.filter_map, List.length_map]; rfl
  rw [h2'] at h2
  rw [h3'] at h3
  unfold ate avg
  rw [List.length_map, div_le_iff₀ hn]
  -- split by arm
  rw [sum_split (fun u : Subject W (List V) K => decide (u.arm = a)) (fun u => u.y a - u.y b) S,
    sum_split (fun u : Subject W (List V) K => decide (u.arm = b)) (fun u => u.y a - u.y b) (S.filter (fun u => !decide (u.arm = a)))]
  have e1 : ((S.filter (fun u => decide (u.arm = a))).map (fun u => u.y a - u.y b)).sum ≤
      ((S.filter (fun u => decide (u.arm = a))).map (fun u => u.y a)).sum - ((S.filter (fun u => decide (u.arm = a))).length : K) * lo := by
    rw [sum_map_sub']
    have := const_le_sum (S.filter (fun u => decide (u.arm = a))) (fun u => u.y b) lo (fun u hu => (hB u (hsub u (List.mem_filter.1 hu).1) b).1)
    linarith
  have e2 : (((S.filter (fun u => !decide (u.arm = a))).filter (fun u => decide (u.arm = b))).map (fun u => u.y a - u.y b)).sum ≤ 0 := by
    have := sum_le_const ((S.filter (fun u => !decide (u.arm = a))).filter (fun u => decide (u.arm = b))) (fun u => u.y a - u.y b) 0 (by
      intro u hu
      simp only [List.mem_filter, decide_eq_true_eq] at hu
      have := hopt u (hsub u hu.1.1) a
      rw [hu.2] at this
      linarith)
    linarith
  have e3 := sum_le_const ((S.filter (fun u => !decide (u.arm = a))).filter (fun u => !decide (u.arm = b))) (fun u => u.y a - u.y b) (hi - lo) (by
      intro u hu
      have hu' := hsub u (List.mem_filter.1 (List.mem_filter.1 hu).1).1
      linarith [(hB u hu' a).2, (hB u hu' b).1])
  have l1 := length_split (K := K) (fun u : Subject W (List V) K => decide (u.arm = a)) S
  have l2 := length_split (K := K) (fun u : Subject W (List V) K => decide (u.arm = b)) (S.filter (fun u => !decide (u.arm = a)))
  have l3 : (S.filter (fun u => !decide (u.arm = a))).filter (fun u => decide (u.arm = b)) = S.filter (fun u => decide (u.arm = b)) := by
    rw [List.filter_filter]
    apply List.filter_congr
    intro u _
    by_cases h : u.arm = b
    · simp [h, Ne.symm hab]
    · simp [h]
  rw [l3] at l2
  rw [l3] at e2 ⊢
  have hfin : optU1 hi lo (armShare (S.map observe) a) (armShare (S.map observe) b) (m k a) * (S.length : K) =
      ((S.filter (fun u => decide (u.arm = a))).map (fun u => u.y a)).sum
        - ((S.length : K) - ((S.filter (fun u => decide (u.arm = b))).length : K)) * lo
        + ((S.length : K) - ((S.filter (fun u => decide (u.arm = a))).length : K) - ((S.filter (fun u => decide (u.arm = b))).length : K)) * hi := by
    rw [← h1, ← h2, ← h3]
    simp only [optU1]
    ring
  rw [hfin]
  have l4 : ((S.length : K) - ((S.filter (fun u => decide (u.arm = a))).length : K) - ((S.filter (fun u => decide (u.arm = b))).length : K)) =
      (((S.filter (fun u => !decide (u.arm = a))).filter (fun u => !decide (u.arm = b))).length : K) := by linarith
  rw [l4]
  have l5 : ((S.length : K) - ((S.filter (fun u => decide (u.arm = b))).length : K)) =
      ((S.filter (fun u => decide (u.arm = a))).length : K) +
        (((S.filter (fun u => !decide (u.arm = a))).filter (fun u => !decide (u.arm = b))).length : K) := by linarith
  rw [l5]
  linarith

/-! ### new data -/

/-- **C69**: without covariates, `estimate(data)` on the training data gives the same result as `estimate()`, for every model,
every arms and every assumption. -/
theorem C69_training_data_no_covariates (fitX : List (W × Nat) → W → List K)
    (fitY : List ((Option W × List Nat) × K) → (Option W × List Nat → K)) {d : Nat} (hd1 : 1 ≤ d) {rows : List (Row V W K)}
    (hne : 2 ≤ rows.length) (hd : ∀ r ∈ rows, r.x.length = d) :
    ∃ s, Bound.fit fitX fitY lit d false ⟨none, none⟩ rows = .ok s ∧
      ∀ ta tb uU uL A, estimate lit s (some rows) ta tb uU uL A = estimate lit s none ta tb uU uL A := by
  obtain ⟨enc, h1, hfit⟩ := bound_fit lit fitX fitY hd1 false hne hd
  refine ⟨_, hfit, fun ta tb uU uL A => ?_⟩
  have hx := encodeRows_eq lit hd1 hd h1
  have hg : ∀ s : Fitted V W K, s.cov = false → s.enc = enc → s.ys = rows.map (fun r => r.y) →
      s.labels = rows.map (fun r => armIdx d rows r.x) → gather lit s (some rows) = gather lit s none := by
    intro s h1 h2 h3 h4
    simp only [gather, h1, h2, h3, h4, hx, Bool.false_eq_true, if_false]
    congr 2
    congr 1
    rw [List.map_map, List.map_map]
    apply List.map_congr_left
    intro r hr
    funext k
    simp only [Function.comp]
    rw [convert_oneHot (armIdx_lt ((mem_treatVectors hd1).2 (observed_row hd hr)))]
  simp only [estimate, prepare]
  rw [hg _ rfl rfl rfl rfl]

/-- **C69**: with covariates this holds if the sorted treatment values are the integers `0, 1, ..., k-1`. -/
theorem C69_training_data_standard_labels_partial (hlit : Function.Injective lit) (fitX : List (W × Nat) → W → List K)
    (fitY : List ((Option W × List Nat) × K) → (Option W × List Nat → K)) {rows : List (Row V W K)}
    (hne : 2 ≤ rows.length) (hd : ∀ r ∈ rows, r.x.length = 1)
    (hstd : uniq (Meta.column rows 0) = (List.range (uniq (Meta.column rows 0)).length).map lit) :
    ∃ s, Bound.fit fitX fitY lit 1 true ⟨none, none⟩ rows = .ok s ∧
      ∀ ta tb uU uL A, estimate lit s (some rows) ta tb uU uL A = estimate lit s none ta tb uU uL A := by
  obtain ⟨enc, h1, hfit⟩ := bound_fit lit fitX fitY (le_refl 1) true hne hd
  refine ⟨_, hfit, fun ta tb uU uL A => ?_⟩
  have hidx : ∀ r ∈ rows, ∃ u, r.x = [u] ∧ u = lit (armIdx 1 rows r.x) := by
    intro r hr
    have hl := hd r hr
    match hx : r.x, hl with
    | [u], _ =>
      refine ⟨u, rfl, ?_⟩
      have hm := armIdx_get ((mem_treatVectors (le_refl 1)).2 (observed_row hd hr))
      rw [hx] at hm
      have htv : treatVectors 1 rows = (List.range (uniq (Meta.column rows 0)).length).map (fun i => [lit i]) := by
        show (uniq (Meta.column rows 0)).map (fun x => [x]) = _
        rw [hstd, List.map_map]
        simp only [List.length_map, List.length_range]
        rfl
      obtain ⟨hi, -⟩ := List.getElem?_eq_some_iff.1 hm
      rw [List.getElem?_eq_getElem hi] at hm
      simp only [htv, List.getElem_map, List.getElem_range, Option.some.injEq, List.cons.injEq, and_true] at hm
      exact hm.symm
  have hg : ∀ s : Fitted V W K, s.cov = true → s.ys = rows.map (fun r => r.y) →
      s.labels = rows.map (fun r => armIdx 1 rows r.x) → s.vs = rows.map (fun r => some r.wv) →
      s.xprob = (xProb fitX true none rows (rows.map (fun r => armIdx 1 rows r.x))).1 →
      s.xmodel = (xProb fitX true none rows (rows.map (fun r => armIdx 1 rows r.x))).2 →
      gather lit s (some rows) = gather lit s none := by
    intro s h1 h3 h4 h5 h6 h7
    have hls : mapE (rawLabel lit) rows = .ok (rows.map (fun r => fun k : Nat => armIdx 1 rows r.x == k)) := by
      nth_rewrite 1 [← List.map_id rows]
      apply mapE_map
      intro r hr
      obtain ⟨u, hu1, hu2⟩ := hidx r hr
      have hraw : rawLabel lit r = .ok (fun k : Nat => decide (u = lit k)) := by simp only [rawLabel, hu1]
      simp only [id]
      rw [hraw]
      congr 1
      funext k
      by_cases hk : armIdx 1 rows r.x = k
      · simp [← hk, ← hu2]
      · have : u ≠ lit k := fun h => hk (hlit (hu2.symm.trans h))
        simp [hk, this]
    simp only [gather, h1, h3, h4, h5, h6, h7, if_true, xProb]
    rw [hls]
    simp only [List.map_map]
    rfl
  simp only [estimate, prepare]
  rw [hg _ rfl rfl rfl rfl rfl rfl]

end

/-! ### exact models exist -/

/-- an outcome model that memorises the cells -/
def memoY {Q : Type} [DecidableEq Q] (l : List (Q × K)) (q : Q) : K := avg ((l.filter (fun e => decide (e.1 = q))).map (fun e => e.2))

/-- a treatment model that memorises the frequencies -/
def memoX (l : List (W × Nat)) (w : W) : List K := (uniq (l.map (fun e => e.2))).map (fun k =>
  (((l.filter (fun e => decide (e.1 = w))).filter (fun e => decide (e.2 = k))).length : K) / ((l.filter (fun e => decide (e.1 = w))).length : K))

theorem memoY_exact {Q : Type} [DecidableEq Q] : CellMeans (memoY (K := K) (Q := Q)) := fun _ _ _ => rfl
theorem memoX_exact : CellFreqs (memoX (K := K) (W := W)) := fun _ _ _ => rfl

/-! ### concrete cases and violations -/

/-- a population of four subjects with a binary treatment and one binary covariate -/
def boundPop : List (Subject Nat (List Nat) ℚ) :=
  [⟨0, [0], fun v => if v = [1] then 3 else 1⟩, ⟨0, [1], fun v => if v = [1] then 4 else 0⟩,
   ⟨1, [1], fun v => if v = [1] then 2 else 2⟩, ⟨1, [0], fun v => if v = [1] then 0 else 4⟩]

example : Bounded boundPop 0 4 := by
  intro u hu v
  simp only [boundPop, List.mem_cons, List.not_mem_nil, or_false] at hu
  rcases hu with rfl | rfl | rfl | rfl <;> by_cases h : v = [1] <;> simp [h] <;> norm_num

example : (Bound.fit memoX memoY id 1 true ⟨none, none⟩ (boundPop.map observe)).toOption.map (fun s =>
    (estimate id s none none none (some 4) (some 0) .noAssump).toOption) =
      some (some (.pair [-1/2, -1/2, -3, -3] [7/2, 7/2, 1, 1])) := by decide +kernel
example : ate (stratumOf boundPop (some 0)) [1] [0] = 3 ∧ ate (stratumOf boundPop (some 1)) [1] [0] = -2 := by decide +kernel
example : Complete 1 (boundPop.map observe) := complete_one (by decide)

/-- a case in which everybody received a best arm -/
def optPop1 : List (Subject Nat (List Nat) ℚ) := [⟨0, [0], fun v => if v = [1] then -10 else 0⟩, ⟨0, [1], fun _ => 0⟩]
def optPop2 : List (Subject Nat (List Nat) ℚ) := [⟨0, [0], fun _ => 0⟩, ⟨0, [1], fun _ => -10⟩]
def optPop3 : List (Subject Nat (List Nat) ℚ) := [⟨0, [0], fun _ => -10⟩, ⟨0, [1], fun _ => 0⟩]

theorem optPops_ok : (OptimalSelection optPop1 ∧ Bounded optPop1 (-10) 0) ∧ (OptimalSelection optPop2 ∧ Bounded optPop2 (-10) 0) ∧
    (OptimalSelection optPop3 ∧ Bounded optPop3 (-10) 0) := by
  refine ⟨⟨?_, ?_⟩, ⟨?_, ?_⟩, ⟨?_, ?_⟩⟩ <;>
  · intro u hu v
    simp only [optPop1, optPop2, optPop3, List.mem_cons, List.not_mem_nil, or_false] at hu
    rcases hu with rfl | rfl <;> by_cases h : v = [1] <;> simp [h]

/-- what a new object without covariates answers for `assump='optimal'`, treat 1, control 0 -/
def optAnswer (us : List (Subject Nat (List Nat) ℚ)) : Option (Res ℚ) :=
  match Bound.fit memoX memoY id 1 false ⟨none, none⟩ (us.map observe) with
  | .ok s => (estimate id s none none none (some 0) (some (-10)) .optimal).toOption
  | .error _ => none

/-- **C68 refuted**: with exact models, correct bounds of the outcome and optimal selection, `assump='optimal'` does not return
a lower and an upper bound: it returns two pairs, each with the upper number first; and the second number of the first pair
exceeds the true effect (-5) in the first population, the first number of the second pair is below the true effect (0) in the
second population, and the second number of the second pair exceeds the true effect (0) in the third. -/
theorem C68_optimal_refuted :
    optAnswer optPop1 = some (.optimal ([5], [-5/2]) ([5/2], [-5/2])) ∧ ate optPop1 [1] [0] = -5 ∧
    optAnswer optPop2 = some (.optimal ([0], [-5]) ([-5], [-10])) ∧ ate optPop2 [1] [0] = 0 ∧
    optAnswer optPop3 = some (.optimal ([5], [5]) ([5], [10])) ∧ ate optPop3 [1] [0] = 0 := by decide +kernel

/-- an outcome model that extrapolates: it predicts the difference of its first two outcomes times the features -/
def wildY (l : List ((Option Nat × List Nat) × ℚ)) (q : Option Nat × List Nat) : ℚ :=
  if q.2 = [0, 1] then (l.map (fun e => e.2)).sum else 0

/-- **C67 refuted** for models that are not exact: nothing keeps predictions between the bounds of the outcome, and the
interval need not contain zero. -/
theorem C67_extrapolation_refuted :
    (Bound.fit memoX wildY id 1 false ⟨none, none⟩ [(⟨0, [0], 3⟩ : Row Nat Nat ℚ), ⟨0, [1], 4⟩]).toOption.map (fun s =>
      (estimate id s none none none none none .none).toOption) = some (some (.pair [3] [4])) := by decide +kernel

/-- **C66 refuted** for several treatments if some combination of their values does not occur: the columns of `x_prob` belong to
the occurring combinations only but are read by the position among all combinations. The call raises `IndexError`, or takes the
share of another arm: in the second case the share of arm `[1, 0]` is 1/4, the code uses 1/2. -/
theorem C66_incomplete_refuted :
    (Bound.fit memoX memoY id 2 false ⟨none, none⟩ [(⟨0, [0, 0], 0⟩ : Row Nat Nat ℚ), ⟨0, [0, 1], 0⟩, ⟨0, [1, 1], 1⟩]).toOption.map
      (fun s => match estimate id s none (some (.many [1, 1])) (some (.many [0, 0])) none none .none with
        | .error e => decide (e = .index)
        | .ok _ => false) = some true ∧
    (Bound.fit memoX memoY id 2 false ⟨none, none⟩
        [(⟨0, [0, 0], 0⟩ : Row Nat Nat ℚ), ⟨0, [1, 0], 1⟩, ⟨0, [1, 1], 1⟩, ⟨0, [1, 1], 1⟩]).toOption.map
      (fun s => (prepare id s none (some (.many [1, 0])) (some (.many [0, 0])) none none).toOption.map (fun r => r.2.2.map (fun q => q.pt))) =
        some (some [1/2]) ∧
    armShare [(⟨0, [0, 0], 0⟩ : Row Nat Nat ℚ), ⟨0, [1, 0], 1⟩, ⟨0, [1, 1], 1⟩, ⟨0, [1, 1], 1⟩] [1, 0] = 1/4 := by decide +kernel

/-- the shares used by `estimate` of an object that was fitted on `rows₀` and then on `rows` -/
def refitShares (cov : Bool) (rows₀ rows : List (Row Nat Nat ℚ)) : Option (List (ℚ × ℚ)) :=
  match Bound.fit memoX memoY id 1 cov ⟨none, none⟩ rows₀ with
  | .error _ => none
  | .ok s₀ => match Bound.fit memoX memoY id 1 cov s₀.obj rows with
    | .error _ => none
    | .ok s => (prepare id s none none none none none).toOption.map (fun r => r.2.2.map (fun q => (q.p0, q.pt)))

/-- **C57 refuted** for `ApproxBound`: `x_prob` of the first `fit` is kept. After a second `fit` on data with shares 3/4 and 1/4
the bounds are computed with the shares 1/2 and 1/2 of the first data; with covariates the probabilities of the first row of
the first data are used for all rows. -/
theorem C57_bound_refuted :
    refitShares false [⟨0, [0], 0⟩, ⟨0, [1], 0⟩] [⟨0, [0], 0⟩, ⟨0, [0], 0⟩, ⟨0, [0], 0⟩, ⟨0, [1], 0⟩] = some [(1/2, 1/2)] ∧
    armShare [(⟨0, [0], 0⟩ : Row Nat Nat ℚ), ⟨0, [0], 0⟩, ⟨0, [0], 0⟩, ⟨0, [1], 0⟩] [1] = 1/4 ∧
    refitShares true [⟨7, [0], 0⟩, ⟨8, [1], 0⟩] [⟨7, [0], 0⟩, ⟨8, [0], 0⟩, ⟨8, [1], 0⟩] = some [(1, 0), (1, 0), (1, 0)] := by
  decide +kernel

/-- **C69 refuted** with covariates: the treatment values of new data are compared with the codes of the arms without being
encoded. With values 1 and 2 `estimate(data)` on the training data fails (no value equals code 0), although `estimate()` works. -/
theorem C69_labels_refuted :
    (Bound.fit memoX memoY id 1 true ⟨none, none⟩ [(⟨0, [1], 0⟩ : Row Nat Nat ℚ), ⟨0, [2], 1⟩]).toOption.map (fun s =>
      ((estimate id s none none none none none .none).toOption,
       (estimate id s (some [(⟨0, [1], 0⟩ : Row Nat Nat ℚ), ⟨0, [2], 1⟩]) none none none none .none).toOption)) =
      some (some (.pair [0, 0] [1, 1]), none) := by decide +kernel

example : (Bound.fit memoX memoY id 1 false ⟨none, none⟩ (boundPop.map observe)).toOption.map (fun s =>
    ((estimate id s none none none none none .nonNegative).toOption, (estimate id s (some (boundPop.map observe)) none none none none .nonPositive).toOption)) =
      some (some (.pair [0] [7/4]), some (.pair [-5/4] [0])) := by decide +kernel

/-- **C67.** An assumption the method does not know is refused, for every fitted object and all other arguments, and `None` and
`"no-assump"` mean the same. -/
theorem C67_unknown_assumption (s : Fitted V W K) (data : Option (List (Row V W K))) (treat control : Option (Arg V))
    (yUpper yLower : Option K) :
    (∃ e, estimate lit s data treat control yUpper yLower .other = .error e) ∧
    estimate lit s data treat control yUpper yLower .none = estimate lit s data treat control yUpper yLower .noAssump := by
  unfold estimate
  cases prepare lit s data treat control yUpper yLower with
  | error e => exact ⟨⟨e, rfl⟩, rfl⟩
  | ok q => exact ⟨⟨_, rfl⟩, rfl⟩

end YL.Props
