import Verif.Model.DoublyRobust
import Verif.Props.MetaLearner
import Verif.Props.CrossFit
import Mathlib.Algebra.CharZero.Defs
import Mathlib.Data.Nat.Cast.Basic
import Mathlib.Data.Rat.Cast.CharZero
import Mathlib.Algebra.BigOperators.Group.List.Lemmas
import Mathlib.Tactic.FieldSimp

/-!
# C42: the doubly robust estimator
-/

set_option linter.unusedSectionVars false

namespace YL.Props

open YL Meta
open YL.Permuted (Arg)

variable {V W Z K : Type} [LinearOrder V]

theorem forall2_getElem {α β : Type} {R : α → β → Prop} {l : List α} {m : List β} (h : List.Forall₂ R l m) {i : Nat} {a : α}
    (ha : l[i]? = some a) : ∃ b, m[i]? = some b ∧ R a b := by
  obtain ⟨hi, rfl⟩ := List.getElem?_eq_some_iff.1 ha
  have hi' : i < m.length := by rw [← h.length_eq]; exact hi
  exact ⟨m[i], List.getElem?_eq_getElem hi', (List.forall₂_iff_get.1 h).2 i hi hi'⟩

/-- the label of a treatment vector: its position among the observed vectors -/
def armIdx (d : Nat) (rows : List (Row V W K)) (v : List V) : Nat := (treatVectors d rows).findIdx (fun u => decide (u = v))

theorem treatVectors_nodup (d : Nat) (rows : List (Row V W K)) : (treatVectors d rows).Nodup := by
  apply cartesian_nodup
  intro c hc
  simp only [List.mem_map] at hc
  obtain ⟨j, _, rfl⟩ := hc
  exact uniq_nodup _

theorem armIdx_get {d : Nat} {rows : List (Row V W K)} {v : List V} (h : v ∈ treatVectors d rows) :
    (treatVectors d rows)[armIdx d rows v]? = some v := by
  have hlt : armIdx d rows v < (treatVectors d rows).length := List.findIdx_lt_length_of_exists ⟨v, h, by simp⟩
  rw [List.getElem?_eq_getElem hlt]
  have := List.findIdx_getElem (xs := treatVectors d rows) (p := fun u => decide (u = v)) (w := hlt)
  simp only [decide_eq_true_eq] at this
  exact congrArg some this

theorem armIdx_of_get {d : Nat} {rows : List (Row V W K)} {v : List V} {i : Nat} (h : (treatVectors d rows)[i]? = some v) :
    armIdx d rows v = i := by
  have hm := List.mem_of_getElem? h
  have h2 := armIdx_get hm
  rw [← h] at h2
  exact (List.getElem?_inj (List.getElem?_eq_some_iff.1 (armIdx_get hm)).1 (treatVectors_nodup d rows)).1 h2

/-- the encoder of `DoublyRobust` and `SLearner` numbers the observed treatment vectors in the order of `treatVectors` -/
theorem transform_position (lit : Nat → V) {d : Nat} (hd1 : 1 ≤ d) {rows : List (Row V W K)} {enc : Encoder V}
    (h : fitEncoder true d rows = .ok enc) :
    width enc = (treatVectors d rows).length ∧
      ∀ v, Observed d rows v → transform lit enc v = .ok (armIdx d rows v) ∧ v ∈ treatVectors d rows := by
  have hmem : ∀ v, Observed d rows v → v ∈ treatVectors d rows := fun v hv => (mem_treatVectors hd1).2 hv
  unfold fitEncoder at h
  simp only [if_true] at h
  by_cases h1 : d ≤ 1
  · have : d = 1 := by omega
    subst this
    rw [if_pos (le_refl 1)] at h
    cases h
    refine ⟨by simp [width, treatVectors, cartesian], fun v hv => ⟨?_, hmem v hv⟩⟩
    match v, hv with
    | [u], hv =>
      have hm := armIdx_get (hmem _ hv)
      simp only [List.range_one, List.map_cons, List.map_nil, transform]
      apply position_of_get (uniq_nodup _)
      simp only [treatVectors, List.range_one, List.map_cons, List.map_nil, cartesian, List.getElem?_map] at hm
      cases hu : (uniq (Meta.column rows 0))[armIdx 1 rows [u]]? with
      | none => rw [hu] at hm; cases hm
      | some z => rw [hu] at hm; simp at hm; rw [hm]
    | [], hv => simp [Observed] at hv
    | _ :: _ :: _, hv => simp [Observed] at hv
  · rw [if_neg h1] at h
    cases h
    have hn : ∀ c ∈ (List.range d).map (fun j => uniq (Meta.column rows j)), c.Nodup := by
      intro c hc
      simp only [List.mem_map] at hc
      obtain ⟨j, _, rfl⟩ := hc
      exact uniq_nodup _
    have hco := cartesian_ordinals hn
    refine ⟨by simp only [width, List.length_range, treatVectors]; exact hco.length_eq.symm, fun v hv => ⟨?_, hmem v hv⟩⟩
    have hm := armIdx_get (hmem v hv)
    obtain ⟨is, his, hrel⟩ := forall2_getElem hco hm
    have hcode : code ((List.range d).map (fun j => uniq (Meta.column rows j))) v = .ok (armIdx d rows v) :=
      code_ok.2 ⟨_, hrel, his⟩
    match v, hv with
    | a1 :: a2 :: a, _ =>
      simp only [transform, hcode]
      apply position_of_get List.nodup_range
      rw [List.getElem?_range (List.getElem?_eq_some_iff.1 his).1]
    | [u], hv => have := hv.1; simp at this; omega
    | [], hv => have := hv.1; simp at this; omega

theorem mapE_map {α β γ : Type} (f : β → Except Err γ) (g : α → β) (h : α → γ) {l : List α} (hf : ∀ a ∈ l, f (g a) = .ok (h a)) :
    mapE f (l.map g) = .ok (l.map h) := by
  induction l with
  | nil => rfl
  | cons a l ih =>
    simp only [List.map_cons, mapE, hf a (by simp), ih (fun a ha => hf a (List.mem_cons_of_mem _ ha))]

section fields
variable [Field K] (lit : Nat → V)

/-- The training data of the treatment model. -/
def trainX (d : Nat) (rows : List (Row V W K)) : List (W × Nat) := rows.map (fun r => (r.wv, armIdx d rows r.x))

/-- The training data of the outcome model. -/
def trainY (d : Nat) (rows : List (Row V W K)) : List ((W × List Nat) × K) :=
  rows.map (fun r => ((r.wv, oneHot (treatVectors d rows).length (armIdx d rows r.x)), r.y))

theorem oneHot_getElem {n i j : Nat} (hj : j < n) : (oneHot n i)[j]? = some (if j = i then 1 else 0) := by
  unfold oneHot
  rw [List.getElem?_map, List.getElem?_range hj]
  rfl

theorem zip_map_eq {α β : Type} (l : List α) (f : α → β) : l.zip (l.map f) = l.map (fun a => (a, f a)) := by
  induction l with
  | nil => rfl
  | cons a l ih => simp [ih]

theorem encodeRows_eq {d : Nat} (hd1 : 1 ≤ d) {rows : List (Row V W K)} (hd : ∀ r ∈ rows, r.x.length = d) {enc : Encoder V}
    (h : fitEncoder true d rows = .ok enc) :
    encodeRows lit enc rows = .ok (rows.map (fun r => oneHot (treatVectors d rows).length (armIdx d rows r.x))) := by
  obtain ⟨hw, ht⟩ := transform_position lit hd1 h
  unfold encodeRows
  have hm : mapE (fun r : Row V W K => transform lit enc r.x) rows = .ok (rows.map (fun r => armIdx d rows r.x)) := by
    have := mapE_map (fun r : Row V W K => transform lit enc r.x) id (fun r => armIdx d rows r.x) (l := rows)
      (fun r hr => (ht r.x (observed_row hd hr)).1)
    simpa using this
  rw [hm]
  simp [hw, Function.comp_def]

/-- **C42**: what `DoublyRobust` computes without folds and covariates: for every row the difference of two scores, where
the score of an arm is the outcome prediction plus, if the row is in that arm, the residual divided by the predicted
propensity plus `eps`. The outcome prediction is the same for both arms: it is taken at an all-zero treatment encoding. -/
theorem C42_scores (eps : K) (fitX : List (W × Nat) → W → List K) (fitY : List ((W × List Nat) × K) → (W × List Nat → K))
    (fitV : List (Z × K) → Z → K) {d cf : Nat} (hcf : cf ≤ 1) (hd1 : 1 ≤ d) {rows : List (Row V W K)} (hne : rows ≠ [])
    (hd : ∀ r ∈ rows, r.x.length = d) (hX : ∀ w, (fitX (trainX d rows) w).length = (treatVectors d rows).length)
    {a b : List V} (ha : Observed d rows a) (hb : Observed d rows b) {ta tb : Option (Arg V)} (hta : ArgFor a ta) (htb : ArgFor b tb)
    (e : List V → W → K) (he : ∀ w v, v = a ∨ v = b → (fitX (trainX d rows) w)[armIdx d rows v]? = some (e v w)) :
    ∃ s, DR.fit eps fitX fitY fitV none cf lit d none rows ta tb = .ok s ∧
      DR.estimateTrain s = .ok (rows.map (fun r =>
        let m := fitY (trainY d rows) (r.wv, List.replicate (treatVectors d rows).length 0)
        (m + if r.x = a then (r.y - m) / (e a r.wv + eps) else 0) - (m + if r.x = b then (r.y - m) / (e b r.wv + eps) else 0))) := by
  obtain ⟨enc, h1, -, -, -, -, -⟩ := fitEncoder_ok lit (allCodes := true) hd1 hd
  obtain ⟨hw, ht⟩ := transform_position lit hd1 h1
  have henc := encodeRows_eq lit hd1 hd h1
  set N := (treatVectors d rows).length with hN
  have hlt : ∀ v, Observed d rows v → armIdx d rows v < N := fun v hv => (List.getElem?_eq_some_iff.1 (armIdx_get (ht v hv).2)).1
  have hz : rows.zip (rows.map (fun r => oneHot N (armIdx d rows r.x))) = rows.map (fun r => (r, oneHot N (armIdx d rows r.x))) := zip_map_eq _ _
  have hzX : (rows.zip (rows.map (fun r => oneHot N (armIdx d rows r.x)))).map (fun p => (p.1.wv, convert4onehot p.2)) = trainX d rows := by
    rw [hz, List.map_map]
    unfold trainX
    apply List.map_congr_left
    intro r hr
    simp only [Function.comp_apply]
    rw [convert_oneHot (hlt r.x (observed_row hd hr))]
  have hzY : (rows.zip (rows.map (fun r => oneHot N (armIdx d rows r.x)))).map (fun p => ((p.1.wv, p.2), p.1.y)) = trainY d rows := by
    rw [hz, List.map_map]
    rfl
  let xh : List (List K) := rows.map (fun r => fitX (trainX d rows) r.wv)
  let mm : W → K := fun w => fitY (trainY d rows) (w, List.replicate N 0)
  let yh : List (List K) := rows.map (fun r => (List.range N).map (fun _ => mm r.wv))
  have hfs : DR.firstStage fitX fitY cf (width enc) rows (rows.map (fun r => oneHot N (armIdx d rows r.x))) = .ok (xh, yh) := by
    unfold DR.firstStage
    rw [hzX, hzY, C43_no_folds _ hcf, C43_no_folds _ hcf, hw]
    simp only
    have c1 : DR.collect N ((trainX d rows).map (fun d_1 => some (fitX (trainX d rows) d_1.1))) = .ok xh := by
      unfold DR.collect trainX
      rw [List.map_map]
      apply mapE_map
      intro r _
      have := hX r.wv
      unfold trainX at this
      simp only [Function.comp_apply, this, if_true]
      rfl
    have c2 : DR.collect N ((trainY d rows).map (fun d_1 => some (DR.yPredict (fitY (trainY d rows)) N d_1.1))) = .ok yh := by
      unfold DR.collect
      have : (trainY d rows).map (fun d_1 => some (DR.yPredict (fitY (trainY d rows)) N d_1.1)) =
          rows.map (fun r => some ((List.range N).map (fun _ => mm r.wv))) := by
        generalize hty : fitY (trainY d rows) = fy
        simp only [mm, hty]
        unfold trainY
        rw [List.map_map]
        rfl
      rw [this]
      apply mapE_map
      intro r _
      simp
    rw [c1, c2]
  have hsc : DR.scores eps rows (rows.map (fun r => oneHot N (armIdx d rows r.x))) xh yh =
      rows.map (fun r => DR.scoreRow eps r.y ((List.range N).map (fun _ => mm r.wv)) (fitX (trainX d rows) r.wv) (oneHot N (armIdx d rows r.x))) := by
    unfold DR.scores
    simp only [xh, yh]
    rw [hz, List.zip_map', List.zip_map', List.map_map]
    rfl
  have hget : ∀ r ∈ rows, ∀ v, (v = a ∨ v = b) → Observed d rows v →
      (DR.scoreRow eps r.y ((List.range N).map (fun _ => mm r.wv)) (fitX (trainX d rows) r.wv) (oneHot N (armIdx d rows r.x)))[armIdx d rows v]? =
        some (mm r.wv + if r.x = v then (r.y - mm r.wv) / (e v r.wv + eps) else 0) := by
    intro r hr v hv hov
    unfold DR.scoreRow
    rw [List.getElem?_zipWith, List.zip, List.getElem?_zipWith, List.getElem?_map, List.getElem?_range (hlt v hov), he r.wv v hv,
      oneHot_getElem (hlt v hov)]
    simp only [Option.map_some]
    unfold DR.yPrime
    by_cases hx : r.x = v
    · subst hx
      simp
    · have : armIdx d rows v ≠ armIdx d rows r.x := by
        intro h
        have h1 := armIdx_get (ht v hov).2
        have h2 := armIdx_get (ht r.x (observed_row hd hr)).2
        rw [h] at h1
        rw [h1] at h2
        cases h2
        exact hx rfl
      simp [this, hx]
  have hsub : mapE (DR.subControl (armIdx d rows b)) (DR.scores eps rows (rows.map (fun r => oneHot N (armIdx d rows r.x))) xh yh) =
      .ok (rows.map (fun r => (DR.scoreRow eps r.y ((List.range N).map (fun _ => mm r.wv)) (fitX (trainX d rows) r.wv) (oneHot N (armIdx d rows r.x))).map
        (fun y => y - (mm r.wv + if r.x = b then (r.y - mm r.wv) / (e b r.wv + eps) else 0)))) := by
    rw [hsc]
    apply mapE_map
    intro r hr
    unfold DR.subControl
    rw [hget r hr b (Or.inr rfl) hb]
  refine ⟨⟨enc, armIdx d rows a, armIdx d rows b, width enc, rows.map (fun r => (DR.scoreRow eps r.y ((List.range N).map (fun _ => mm r.wv))
    (fitX (trainX d rows) r.wv) (oneHot N (armIdx d rows r.x))).map
        (fun y => y - (mm r.wv + if r.x = b then (r.y - mm r.wv) / (e b r.wv + eps) else 0))), none⟩, ?_, ?_⟩
  · unfold DR.fit
    simp only [useEncoder, h1, henc, hfs, getTrCtrl_arg lit hta, getTrCtrl_arg lit htb, (ht a ha).1, (ht b hb).1]
    rw [hsub]
    rfl
  · unfold DR.estimateTrain
    simp only
    apply mapE_map
    intro r hr
    rw [List.getElem?_map, hget r hr a (Or.inl rfl) ha]
    rfl

/-! ### averages over strata -/

theorem sum_split {ι : Type} (p : ι → Bool) (f : ι → K) (l : List ι) :
    (l.map f).sum = ((l.filter p).map f).sum + ((l.filter (fun a => !p a)).map f).sum := by
  induction l with
  | nil => simp
  | cons a l ih =>
    simp only [List.map_cons, List.sum_cons, List.filter_cons, ih]
    cases p a
    · simp only [Bool.false_eq_true, if_false, Bool.not_false, if_true, List.map_cons, List.sum_cons]; ring
    · simp only [if_true, Bool.not_true, Bool.false_eq_true, if_false, List.map_cons, List.sum_cons]; ring

theorem sum_map_sub' {ι : Type} (f g : ι → K) (l : List ι) : (l.map (fun r => f r - g r)).sum = (l.map f).sum - (l.map g).sum := by
  induction l with
  | nil => simp
  | cons a l ih => simp only [List.map_cons, List.sum_cons, ih]; ring

/-- equal sums in every stratum give equal total sums -/
theorem sum_by_key [DecidableEq W] {ι : Type} (key : ι → W) (f g : ι → K) (l : List ι)
    (h : ∀ a ∈ l, ((l.filter (fun b => decide (key b = key a))).map f).sum = ((l.filter (fun b => decide (key b = key a))).map g).sum) :
    (l.map f).sum = (l.map g).sum := by
  induction hn : l.length using Nat.strong_induction_on generalizing l with
  | _ n ih =>
    cases l with
    | nil => rfl
    | cons r t =>
      rw [sum_split (fun b => decide (key b = key r)) f, sum_split (fun b => decide (key b = key r)) g, h r (by simp)]
      congr 1
      apply ih ((r :: t).filter (fun a => !decide (key a = key r))).length _ _ _ rfl
      · rw [← hn]
        simp only [List.filter_cons, decide_true, Bool.not_true, Bool.false_eq_true, if_false, List.length_cons]
        exact Nat.lt_succ_of_le (List.length_filter_le _ _)
      · intro a ha
        have ha' := List.mem_filter.1 ha
        have hne : key a ≠ key r := by simpa using ha'.2
        have hf : ((r :: t).filter (fun a => !decide (key a = key r))).filter (fun b => decide (key b = key a)) =
            (r :: t).filter (fun b => decide (key b = key a)) := by
          rw [List.filter_filter]
          apply List.filter_congr
          intro b _
          by_cases hb : key b = key a
          · simp [hb, hne]
          · simp [hb]
        rw [hf]
        exact h a ha'.1

/-- the rows with given covariates -/
def stratum [DecidableEq W] (rows : List (Row V W K)) (w : W) : List (Row V W K) := rows.filter (fun r => decide (r.wv = w))

/-- the rows with given covariates and treatment vector -/
def cell [DecidableEq W] (rows : List (Row V W K)) (w : W) (v : List V) : List (Row V W K) :=
  (stratum rows w).filter (fun r => decide (r.x = v))

/-- the mean outcome of the rows with given covariates and treatment vector -/
def cellMean [DecidableEq W] (rows : List (Row V W K)) (w : W) (v : List V) : K :=
  ((cell rows w v).map (·.y)).sum / ((cell rows w v).length : K)

/-- the share of a treatment vector among the rows with given covariates: the exact propensity -/
def share [DecidableEq W] (rows : List (Row V W K)) (w : W) (v : List V) : K :=
  ((cell rows w v).length : K) / ((stratum rows w).length : K)

theorem stratum_sum (L : List (Row V W K)) (m q : K) (v : List V) :
    (L.map (fun r => m + if r.x = v then (r.y - m) / q else 0)).sum =
      (L.length : K) * m + (((L.filter (fun r => decide (r.x = v))).map (·.y)).sum - ((L.filter (fun r => decide (r.x = v))).length : K) * m) / q := by
  induction L with
  | nil => simp
  | cons r L ih =>
    simp only [List.map_cons, List.sum_cons, ih, List.filter_cons, List.length_cons, Nat.cast_add, Nat.cast_one]
    by_cases h : r.x = v
    · simp only [h, decide_true, if_true, List.map_cons, List.sum_cons, List.length_cons, Nat.cast_add, Nat.cast_one]
      ring
    · simp only [h, decide_false, Bool.false_eq_true, if_false]
      ring

theorem score_total [DecidableEq W] [CharZero K] {rows : List (Row V W K)} {v : List V} (m q : W → K)
    (hov : ∀ r ∈ rows, ∃ r' ∈ rows, r'.wv = r.wv ∧ r'.x = v) :
    (rows.map (fun r => m r.wv + if r.x = v then (r.y - m r.wv) / q r.wv else 0)).sum =
      (rows.map (fun r => m r.wv + share rows r.wv v / q r.wv * (cellMean rows r.wv v - m r.wv))).sum := by
  apply sum_by_key (fun r : Row V W K => r.wv)
  intro r hr
  have e1 : ∀ (F : W → Row V W K → K), ((rows.filter (fun b => decide (b.wv = r.wv))).map (fun r' => F r'.wv r')).sum =
      ((stratum rows r.wv).map (fun r' => F r.wv r')).sum := by
    intro F
    unfold stratum
    congr 1
    apply List.map_congr_left
    intro b hb
    rw [show b.wv = r.wv by simpa using (List.mem_filter.1 hb).2]
  rw [e1 (fun w r' => m w + if r'.x = v then (r'.y - m w) / q w else 0),
    e1 (fun w r' => m w + share rows w v / q w * (cellMean rows w v - m w)), stratum_sum]
  have hS : ((stratum rows r.wv).length : K) ≠ 0 := by
    have : 0 < (stratum rows r.wv).length := List.length_pos_of_mem (a := r) (by simp [stratum, hr])
    exact Nat.cast_ne_zero.2 (by omega)
  have hC : ((cell rows r.wv v).length : K) ≠ 0 := by
    obtain ⟨r', hr', hw, hx⟩ := hov r hr
    have : 0 < (cell rows r.wv v).length := List.length_pos_of_mem (a := r') (by simp [cell, stratum, hr', hw, hx])
    exact Nat.cast_ne_zero.2 (by omega)
  rw [List.map_const', List.sum_replicate, nsmul_eq_mul]
  unfold share cellMean
  show _ * m r.wv + (((cell rows r.wv v).map (·.y)).sum - ((cell rows r.wv v).length : K) * m r.wv) / q r.wv = _
  field_simp

/-- **C42**: if the predicted propensities (plus the constant added by the code) are the exact shares of the arms in the
strata, then the average effect is the stratified difference of arm means, whatever the outcome model. -/
theorem C42_propensity [DecidableEq W] [CharZero K] (eps : K) (fitX : List (W × Nat) → W → List K)
    (fitY : List ((W × List Nat) × K) → (W × List Nat → K))
    (fitV : List (Z × K) → Z → K) {d cf : Nat} (hcf : cf ≤ 1) (hd1 : 1 ≤ d) {rows : List (Row V W K)} (hne : rows ≠ [])
    (hd : ∀ r ∈ rows, r.x.length = d) (hX : ∀ w, (fitX (trainX d rows) w).length = (treatVectors d rows).length)
    {a b : List V} (ha : Observed d rows a) (hb : Observed d rows b)
    (hov : ∀ v, v = a ∨ v = b → ∀ r ∈ rows, ∃ r' ∈ rows, r'.wv = r.wv ∧ r'.x = v)
    (e : List V → W → K) (he : ∀ w v, v = a ∨ v = b → (fitX (trainX d rows) w)[armIdx d rows v]? = some (e v w))
    (hexact : ∀ v, v = a ∨ v = b → ∀ r ∈ rows, e v r.wv + eps = share rows r.wv v) :
    ∃ s effs, DR.fit eps fitX fitY fitV none cf lit d none rows (some (.many a)) (some (.many b)) = .ok s ∧
      DR.estimateTrain s = .ok effs ∧
      effs.sum = (rows.map (fun r => cellMean rows r.wv a - cellMean rows r.wv b)).sum := by
  obtain ⟨s, h1, h2⟩ := C42_scores lit eps fitX fitY fitV hcf hd1 hne hd hX ha hb (Or.inl rfl) (Or.inl rfl) e he
  refine ⟨s, _, h1, h2, ?_⟩
  have key : ∀ v, v = a ∨ v = b → (rows.map (fun r => fitY (trainY d rows) (r.wv, List.replicate (treatVectors d rows).length 0) +
      if r.x = v then (r.y - fitY (trainY d rows) (r.wv, List.replicate (treatVectors d rows).length 0)) / (e v r.wv + eps) else 0)).sum =
      (rows.map (fun r => cellMean rows r.wv v)).sum := by
    intro v hv
    rw [score_total (fun w => fitY (trainY d rows) (w, List.replicate (treatVectors d rows).length 0)) (fun w => e v w + eps) (hov v hv)]
    congr 1
    apply List.map_congr_left
    intro r hr
    have hS : ((stratum rows r.wv).length : K) ≠ 0 := by
      have : 0 < (stratum rows r.wv).length := List.length_pos_of_mem (a := r) (by simp [stratum, hr])
      exact Nat.cast_ne_zero.2 (by omega)
    have hC : ((cell rows r.wv v).length : K) ≠ 0 := by
      obtain ⟨r', hr', hw, hx⟩ := hov v hv r hr
      have : 0 < (cell rows r.wv v).length := List.length_pos_of_mem (a := r') (by simp [cell, stratum, hr', hw, hx])
      exact Nat.cast_ne_zero.2 (by omega)
    have hq : share rows r.wv v ≠ 0 := div_ne_zero hC hS
    simp only [hexact v hv r hr, div_self hq]
    ring
  simp only
  rw [sum_map_sub', sum_map_sub', key a (Or.inl rfl), key b (Or.inr rfl)]

/-- **C42**: with potential outcomes `Y` such that the outcome of a row is that of its own arm, and such that in every
stratum the rows of an arm have the same mean potential outcome as all rows (unconfoundedness), exact propensities make
the average effect equal to the true average of `Y a - Y b` over all rows, whatever the outcome model. -/
theorem C42_unbiased [DecidableEq W] [CharZero K] (eps : K) (fitX : List (W × Nat) → W → List K)
    (fitY : List ((W × List Nat) × K) → (W × List Nat → K))
    (fitV : List (Z × K) → Z → K) {d cf : Nat} (hcf : cf ≤ 1) (hd1 : 1 ≤ d) {rows : List (Row V W K)} (hne : rows ≠ [])
    (hd : ∀ r ∈ rows, r.x.length = d) (hX : ∀ w, (fitX (trainX d rows) w).length = (treatVectors d rows).length)
    {a b : List V} (ha : Observed d rows a) (hb : Observed d rows b)
    (hov : ∀ v, v = a ∨ v = b → ∀ r ∈ rows, ∃ r' ∈ rows, r'.wv = r.wv ∧ r'.x = v)
    (e : List V → W → K) (he : ∀ w v, v = a ∨ v = b → (fitX (trainX d rows) w)[armIdx d rows v]? = some (e v w))
    (hexact : ∀ v, v = a ∨ v = b → ∀ r ∈ rows, e v r.wv + eps = share rows r.wv v)
    (Y : List V → Row V W K → K) (hcons : ∀ r ∈ rows, r.y = Y r.x r)
    (hunc : ∀ v, v = a ∨ v = b → ∀ r ∈ rows,
      ((cell rows r.wv v).map (Y v)).sum / ((cell rows r.wv v).length : K) =
        ((stratum rows r.wv).map (Y v)).sum / ((stratum rows r.wv).length : K)) :
    ∃ s effs, DR.fit eps fitX fitY fitV none cf lit d none rows (some (.many a)) (some (.many b)) = .ok s ∧
      DR.estimateTrain s = .ok effs ∧ effs.sum = (rows.map (fun r => Y a r - Y b r)).sum := by
  obtain ⟨s, effs, h1, h2, h3⟩ := C42_propensity lit eps fitX fitY fitV hcf hd1 hne hd hX ha hb hov e he hexact
  refine ⟨s, effs, h1, h2, ?_⟩
  have key : ∀ v, v = a ∨ v = b → (rows.map (fun r => cellMean rows r.wv v)).sum = (rows.map (fun r => Y v r)).sum := by
    intro v hv
    apply sum_by_key (fun r : Row V W K => r.wv)
    intro r hr
    have hS : ((stratum rows r.wv).length : K) ≠ 0 := by
      have : 0 < (stratum rows r.wv).length := List.length_pos_of_mem (a := r) (by simp [stratum, hr])
      exact Nat.cast_ne_zero.2 (by omega)
    have e1 : (rows.filter (fun b => decide (b.wv = r.wv))).map (fun r' => cellMean rows r'.wv v) =
        (stratum rows r.wv).map (fun _ => cellMean rows r.wv v) := by
      unfold stratum
      apply List.map_congr_left
      intro b hb
      rw [show b.wv = r.wv by simpa using (List.mem_filter.1 hb).2]
    rw [e1, List.map_const', List.sum_replicate, nsmul_eq_mul]
    have e2 : cellMean rows r.wv v = ((cell rows r.wv v).map (Y v)).sum / ((cell rows r.wv v).length : K) := by
      unfold cellMean
      congr 2
      apply List.map_congr_left
      intro b hb
      have hb' := List.mem_filter.1 hb
      rw [hcons b (List.mem_filter.1 hb'.1).1, show b.x = v by simpa using hb'.2]
    rw [e2, hunc v hv r hr]
    show _ = ((stratum rows r.wv).map (Y v)).sum
    field_simp
  rw [h3, sum_map_sub', sum_map_sub', key a (Or.inl rfl), key b (Or.inr rfl)]

/-- **C42**: the bias when the predicted propensities themselves are exact: in each stratum the mean of an arm is shrunk
towards the prediction of the outcome model by the factor `eps / (share + eps)`. -/
theorem C42_bias [DecidableEq W] [CharZero K] (eps : K) (fitX : List (W × Nat) → W → List K)
    (fitY : List ((W × List Nat) × K) → (W × List Nat → K))
    (fitV : List (Z × K) → Z → K) {d cf : Nat} (hcf : cf ≤ 1) (hd1 : 1 ≤ d) {rows : List (Row V W K)} (hne : rows ≠ [])
    (hd : ∀ r ∈ rows, r.x.length = d) (hX : ∀ w, (fitX (trainX d rows) w).length = (treatVectors d rows).length)
    {a b : List V} (ha : Observed d rows a) (hb : Observed d rows b)
    (hov : ∀ v, v = a ∨ v = b → ∀ r ∈ rows, ∃ r' ∈ rows, r'.wv = r.wv ∧ r'.x = v)
    (hexact : ∀ v, v = a ∨ v = b → ∀ w, (fitX (trainX d rows) w)[armIdx d rows v]? = some (share rows w v))
    (hpos : ∀ v, v = a ∨ v = b → ∀ r ∈ rows, share rows r.wv v + eps ≠ 0) :
    ∃ s effs, DR.fit eps fitX fitY fitV none cf lit d none rows (some (.many a)) (some (.many b)) = .ok s ∧
      DR.estimateTrain s = .ok effs ∧
      effs.sum = (rows.map (fun r =>
        (cellMean rows r.wv a - eps / (share rows r.wv a + eps) *
          (cellMean rows r.wv a - fitY (trainY d rows) (r.wv, List.replicate (treatVectors d rows).length 0))) -
        (cellMean rows r.wv b - eps / (share rows r.wv b + eps) *
          (cellMean rows r.wv b - fitY (trainY d rows) (r.wv, List.replicate (treatVectors d rows).length 0))))).sum := by
  obtain ⟨s, h1, h2⟩ := C42_scores lit eps fitX fitY fitV hcf hd1 hne hd hX ha hb (Or.inl rfl) (Or.inl rfl)
    (fun v w => share rows w v) (fun w v hv => hexact v hv w)
  refine ⟨s, _, h1, h2, ?_⟩
  have key : ∀ v, v = a ∨ v = b → (rows.map (fun r => fitY (trainY d rows) (r.wv, List.replicate (treatVectors d rows).length 0) +
      if r.x = v then (r.y - fitY (trainY d rows) (r.wv, List.replicate (treatVectors d rows).length 0)) / (share rows r.wv v + eps) else 0)).sum =
      (rows.map (fun r => cellMean rows r.wv v - eps / (share rows r.wv v + eps) *
        (cellMean rows r.wv v - fitY (trainY d rows) (r.wv, List.replicate (treatVectors d rows).length 0)))).sum := by
    intro v hv
    rw [score_total (fun w => fitY (trainY d rows) (w, List.replicate (treatVectors d rows).length 0)) (fun w => share rows w v + eps) (hov v hv)]
    congr 1
    apply List.map_congr_left
    intro r hr
    have := hpos v hv r hr
    field_simp
    ring
  simp only
  rw [sum_map_sub', sum_map_sub', key a (Or.inl rfl), key b (Or.inr rfl)]

/-- **C42, the score of the third step**: given outcome predictions `m` for an arm that are exact (the mean of the arm in
every stratum), the sum of the scores of that arm is the sum of the exact means, for any propensities. -/
theorem C42_outcome_score [DecidableEq W] [CharZero K] (eps : K) {rows : List (Row V W K)} {v : List V} (e : W → K)
    (hov : ∀ r ∈ rows, ∃ r' ∈ rows, r'.wv = r.wv ∧ r'.x = v) :
    (rows.map (fun r => DR.yPrime eps (cellMean rows r.wv v) r.y (e r.wv) (if r.x = v then 1 else 0))).sum =
      (rows.map (fun r => cellMean rows r.wv v)).sum := by
  have := score_total (rows := rows) (v := v) (fun w => cellMean rows w v) (fun w => e w + eps) hov
  simp only [sub_self, mul_zero, add_zero] at this
  rw [← this]
  congr 1
  apply List.map_congr_left
  intro r _
  unfold DR.yPrime
  by_cases h : r.x = v <;> simp [h]

/-- **C42, negative finding**: the outcome model contributes nothing to a contrast: the predictions for all arms are
equal, for every model and every row. -/
theorem C42_wrapper_ignores_arm (f : W × List Nat → K) (xd : Nat) (wvx : W × List Nat) {i j : Nat} {p q : K}
    (hi : (DR.yPredict f xd wvx)[i]? = some p) (hj : (DR.yPredict f xd wvx)[j]? = some q) : p = q := by
  unfold DR.yPredict at hi hj
  rw [List.getElem?_map] at hi hj
  cases h1 : (List.range xd)[i]? with
  | none => rw [h1] at hi; cases hi
  | some _ => cases h2 : (List.range xd)[j]? with
    | none => rw [h2] at hj; cases hj
    | some _ =>
      rw [h1] at hi
      rw [h2] at hj
      cases hi
      cases hj
      rfl

end fields

/-! ### examples -/

/-- exact outcome model: the mean of the training rows with the same features, 0 if there are none -/
def exactY (l : List ((Nat × List Nat) × Rat)) (p : Nat × List Nat) : Rat :=
  ((l.filter (fun q => q.1 = p)).map (·.2)).sum / ((l.filter (fun q => q.1 = p)).length : Rat)

/-- exact propensities, corrected by the constant of the code -/
def exactX (l : List (Nat × Nat)) (w : Nat) : List Rat :=
  [0, 1].map (fun v => (((l.filter (fun q => q = (w, v))).length : Rat) / ((l.filter (fun q => q.1 = w)).length : Rat)) - 1 / 100000)

/-- two strata; arm 1 has effect 2 in the first and 10 in the second -/
def drRows : List (Row Nat Nat Rat) :=
  [⟨0, [7], 1⟩, ⟨0, [8], 3⟩, ⟨0, [7], 1⟩, ⟨1, [7], 5⟩, ⟨1, [8], 15⟩]

/-- **C42, the outcome branch is refuted**: with an outcome model that predicts every cell mean exactly and wrong (constant)
propensities the average effect is wrong: the true stratified sum of effects is 26, the estimate is another number. -/
theorem C42_outcome_refuted :
    (∀ r ∈ drRows, exactY (trainY 1 drRows) (r.wv, oneHot 2 (armIdx 1 drRows r.x)) = cellMean drRows r.wv r.x) ∧
    (drRows.map (fun r => cellMean drRows r.wv [8] - cellMean drRows r.wv [7])).sum = 26 ∧
    ((DR.fit (Z := Nat) (1 / 100000) (fun _ _ => [1 / 2, 1 / 2]) exactY (fun _ _ => 0) none 1 id 1 none drRows (some (.one 8)) (some (.one 7))).toOption.bind
      (fun s => (DR.estimateTrain s).toOption.map List.sum)) ≠ some 26 := by
  decide +kernel

example : ((DR.fit (Z := Nat) (1 / 100000) exactX exactY (fun _ _ => 0) none 1 id 1 none drRows (some (.one 8)) (some (.one 7))).toOption.bind
      (fun s => (DR.estimateTrain s).toOption.map List.sum)) = some 26 := by
  decide +kernel

/-- the hypotheses of `C42_propensity` are met by this data and propensity model -/
example : (∀ r ∈ drRows, ∀ v ∈ [[7], [8]], (∃ r' ∈ drRows, r'.wv = r.wv ∧ r'.x = v) ∧
    (exactX (trainX 1 drRows) r.wv)[armIdx 1 drRows v]? = some (share drRows r.wv v - 1 / 100000)) ∧
    (∀ r ∈ drRows, (exactX (trainX 1 drRows) r.wv).length = (treatVectors 1 drRows).length) := by
  decide +kernel

end YL.Props
