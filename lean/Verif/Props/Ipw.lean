import Verif.Model.Ipw
import Verif.Props.EndToEnd

/-!
# C143: inverse probability weighting
-/

set_option linter.unusedSectionVars false

namespace YL.Props

open YL Meta Spec

variable {W K : Type} [Field K] [LinearOrder K] [IsStrictOrderedRing K] [DecidableEq W]

/-- the treatment column holds zeros and ones only -/
def Binary (rows : List (Row K W K)) : Prop := ∀ r ∈ rows, r.x = [0] ∨ r.x = [1]

/-- the fitted model gives the second class its frequency among the rows with the same adjustment values -/
def ExactPropensity (fitP : List (W × K) → W → List K) (rows : List (Row K W K)) : Prop :=
  ∀ r ∈ rows, (fitP (rows.map (fun r => (r.wv, r.x.headD 0))) r.wv)[1]? = some (share rows r.wv [1])

theorem binary_sums {L : List (Row K W K)} (hb : Binary L) (e p : K) :
    (L.map (fun r => Ipw.score e p (r.x.headD 0) r.y)).sum =
      (((L.filter (fun r => decide (r.x = [1]))).map (·.y)).sum + L.length * e) / (p + e) -
        (((L.filter (fun r => decide (r.x = [0]))).map (·.y)).sum + L.length * e) / (1 - p + e) := by
  induction L with
  | nil => simp
  | cons r L ih =>
    have ih := ih (fun r' h => hb r' (List.mem_cons_of_mem _ h))
    simp only [List.map_cons, List.sum_cons, ih, List.filter_cons, List.length_cons, Nat.cast_add, Nat.cast_one]
    rcases hb r (List.mem_cons_self) with h | h
    · have : ¬ ([0] : List K) = [1] := by simp
      simp only [h, this, decide_false, decide_true, if_true, Bool.false_eq_true, if_false, List.map_cons, List.sum_cons, List.headD_cons, Ipw.score]
      ring
    · have : ¬ ([1] : List K) = [0] := by simp
      simp only [h, this, decide_false, decide_true, if_true, Bool.false_eq_true, if_false, List.map_cons, List.sum_cons, List.headD_cons, Ipw.score]
      ring

theorem binary_length {L : List (Row K W K)} (hb : Binary L) :
    (L.filter (fun r => decide (r.x = [1]))).length + (L.filter (fun r => decide (r.x = [0]))).length = L.length := by
  induction L with
  | nil => rfl
  | cons r L ih =>
    have ih := ih (fun r' h => hb r' (List.mem_cons_of_mem _ h))
    simp only [List.filter_cons]
    rcases hb r (List.mem_cons_self) with h | h <;> simp [h] <;> omega

/-- the mean outcome of an arm in a stratum times its share: the sum of outcomes per row of the stratum, also if the arm is empty -/
theorem cell_sum (rows : List (Row K W K)) {r : Row K W K} (hr : r ∈ rows) (v : List K) :
    ((cell rows r.wv v).map (·.y)).sum = ((stratum rows r.wv).length : K) * (share rows r.wv v * cellMean rows r.wv v) := by
  have hS : ((stratum rows r.wv).length : K) ≠ 0 := by
    have : 0 < (stratum rows r.wv).length := List.length_pos_of_mem (a := r) (by simp [stratum, hr])
    exact Nat.cast_ne_zero.2 (by omega)
  unfold share cellMean
  by_cases h : cell rows r.wv v = []
  · simp [h]
  · have : ((cell rows r.wv v).length : K) ≠ 0 := by
      rw [Nat.cast_ne_zero]
      exact fun h' => h (List.length_eq_zero_iff.1 h')
    field_simp

/-- **C143**: for a binary treatment and exact propensities the results of `_prepare4est` sum up to the sum over the rows of
`(p m1 + eps)/(p + eps) - ((1-p) m0 + eps)/(1 - p + eps)`, where `p` is the share of treated among the rows with the same adjustment values
and `m1`, `m0` are the mean outcomes of their arms (0 for an empty arm). -/
theorem C143_exact (eps : K) {fitP : List (W × K) → W → List K} {rows : List (Row K W K)} (hb : Binary rows) (hP : ExactPropensity fitP rows) :
    ∃ res, Ipw.prepare eps fitP rows = .ok res ∧ res.length = rows.length ∧
      res.sum = (rows.map (fun r =>
        (share rows r.wv [1] * cellMean rows r.wv [1] + eps) / (share rows r.wv [1] + eps) -
        ((1 - share rows r.wv [1]) * cellMean rows r.wv [0] + eps) / (1 - share rows r.wv [1] + eps))).sum := by
  refine ⟨rows.map (fun r => Ipw.score eps (share rows r.wv [1]) (r.x.headD 0) r.y), ?_, by simp, ?_⟩
  · unfold Ipw.prepare
    rw [mapE_ok]
    rw [List.forall₂_map_right_iff, List.forall₂_same]
    intro r hr
    simp only [Ipw.propensity, hP r hr]
  · apply sum_by_key (fun r : Row K W K => r.wv)
    intro r hr
    have e1 : ∀ (F : W → Row K W K → K), ((rows.filter (fun b => decide (b.wv = r.wv))).map (fun r' => F r'.wv r')).sum =
        ((stratum rows r.wv).map (fun r' => F r.wv r')).sum := by
      intro F
      unfold stratum
      congr 1
      apply List.map_congr_left
      intro b hb
      rw [show b.wv = r.wv by simpa using (List.mem_filter.1 hb).2]
    rw [e1 (fun w r' => Ipw.score eps (share rows w [1]) (r'.x.headD 0) r'.y),
      e1 (fun w _ => (share rows w [1] * cellMean rows w [1] + eps) / (share rows w [1] + eps) -
        ((1 - share rows w [1]) * cellMean rows w [0] + eps) / (1 - share rows w [1] + eps))]
    have hbs : Binary (stratum rows r.wv) := fun r' h => hb r' (List.mem_filter.1 h).1
    rw [binary_sums hbs, List.map_const', List.sum_replicate, nsmul_eq_mul]
    have hS : ((stratum rows r.wv).length : K) ≠ 0 := by
      have : 0 < (stratum rows r.wv).length := List.length_pos_of_mem (a := r) (by simp [stratum, hr])
      exact Nat.cast_ne_zero.2 (by omega)
    have h0 : 1 - share rows r.wv [1] = share rows r.wv [0] := by
      have := binary_length hbs
      have h2 : ((cell rows r.wv [1]).length : K) + ((cell rows r.wv [0]).length : K) = ((stratum rows r.wv).length : K) := by
        exact_mod_cast this
      unfold share
      field_simp
      linear_combination -h2
    have s1 := cell_sum rows hr [1]
    have s0 := cell_sum rows hr [0]
    unfold cell at s1 s0
    rw [s1, s0, h0]
    ring

/-- **C143**: with `eps = 0` and both arms in every stratum, the results sum up to the sum of the differences of the arm means. -/
theorem C143_consistent {fitP : List (W × K) → W → List K} {rows : List (Row K W K)} (hb : Binary rows) (hP : ExactPropensity fitP rows)
    (hov : ∀ r ∈ rows, 0 < share rows r.wv [1] ∧ share rows r.wv [1] < 1) :
    ∃ res, Ipw.prepare 0 fitP rows = .ok res ∧ res.sum = (rows.map (fun r => cellMean rows r.wv [1] - cellMean rows r.wv [0])).sum := by
  obtain ⟨res, h1, -, h2⟩ := C143_exact 0 hb hP
  refine ⟨res, h1, ?_⟩
  rw [h2]
  congr 1
  apply List.map_congr_left
  intro r hr
  obtain ⟨p0, p1⟩ := hov r hr
  have q : 1 - share rows r.wv [1] ≠ 0 := by linarith
  simp only [add_zero]
  rw [mul_div_cancel_left₀ _ p0.ne', mul_div_cancel_left₀ _ q]

/-- the exact bias of one stratum caused by `eps` -/
theorem C143_bias (eps p m1 m0 : K) (he : 0 < eps) (hp : 0 ≤ p) (hp1 : p ≤ 1) :
    (p * m1 + eps) / (p + eps) - ((1 - p) * m0 + eps) / (1 - p + eps) =
      (m1 - m0) + eps * ((1 - m1) / (p + eps) - (1 - m0) / (1 - p + eps)) := by
  have h1 : p + eps ≠ 0 := by linarith
  have h2 : 1 - p + eps ≠ 0 := by linarith
  field_simp
  ring

/-- the mean of numbers between 0 and 1 is between 0 and 1 -/
theorem cellMean_unit {rows : List (Row K W K)} (hy : ∀ r ∈ rows, 0 ≤ r.y ∧ r.y ≤ 1) (w : W) (v : List K) :
    0 ≤ cellMean rows w v ∧ cellMean rows w v ≤ 1 := by
  have key : ∀ l : List (Row K W K), (∀ r ∈ l, 0 ≤ r.y ∧ r.y ≤ 1) → 0 ≤ (l.map (·.y)).sum ∧ (l.map (·.y)).sum ≤ l.length := by
    intro l h
    induction l with
    | nil => simp
    | cons r l ih =>
      obtain ⟨h1, h2⟩ := ih (fun r' hr' => h r' (List.mem_cons_of_mem _ hr'))
      obtain ⟨h3, h4⟩ := h r List.mem_cons_self
      simp only [List.map_cons, List.sum_cons, List.length_cons, Nat.cast_add, Nat.cast_one]
      exact ⟨by linarith, by linarith⟩
  obtain ⟨h1, h2⟩ := key (cell rows w v) (fun r hr => hy r (List.mem_filter.1 (List.mem_filter.1 hr).1).1)
  unfold cellMean
  exact ⟨div_nonneg h1 (Nat.cast_nonneg _), div_le_one_of_le₀ h2 (Nat.cast_nonneg _)⟩

/-- **C143**: for outcomes between 0 and 1 and propensities at least `q` away from 0 and 1, the average differs from the stratified effect by at
most `eps / q` in every stratum, hence on average. -/
theorem C143_error_bound (eps q : K) (he : 0 < eps) (hq : 0 < q) {fitP : List (W × K) → W → List K} {rows : List (Row K W K)}
    (hb : Binary rows) (hP : ExactPropensity fitP rows) (hov : ∀ r ∈ rows, q ≤ share rows r.wv [1] ∧ q ≤ 1 - share rows r.wv [1])
    (hy : ∀ r ∈ rows, 0 ≤ r.y ∧ r.y ≤ 1) :
    ∃ res, Ipw.prepare eps fitP rows = .ok res ∧
      |res.sum - (rows.map (fun r => cellMean rows r.wv [1] - cellMean rows r.wv [0])).sum| ≤ rows.length * (eps / q) := by
  obtain ⟨res, h1, -, h2⟩ := C143_exact eps hb hP
  refine ⟨res, h1, ?_⟩
  rw [h2]
  have key : ∀ r ∈ rows, |((share rows r.wv [1] * cellMean rows r.wv [1] + eps) / (share rows r.wv [1] + eps) -
        ((1 - share rows r.wv [1]) * cellMean rows r.wv [0] + eps) / (1 - share rows r.wv [1] + eps)) -
      (cellMean rows r.wv [1] - cellMean rows r.wv [0])| ≤ eps / q := by
    intro r hr
    obtain ⟨p0, p1⟩ := hov r hr
    obtain ⟨a0, a1⟩ := cellMean_unit hy r.wv [1]
    obtain ⟨b0, b1⟩ := cellMean_unit hy r.wv [0]
    rw [C143_bias eps _ _ _ he (by linarith) (by linarith)]
    generalize share rows r.wv [1] = p at *
    generalize cellMean rows r.wv [1] = m1 at *
    generalize cellMean rows r.wv [0] = m0 at *
    have hp : 0 < p + eps := by linarith
    have hp' : 0 < 1 - p + eps := by linarith
    have t : ∀ s m : K, q ≤ s → 0 ≤ m → m ≤ 1 → 0 ≤ (1 - m) / (s + eps) ∧ (1 - m) / (s + eps) ≤ 1 / q := by
      intro s m hs hm0 hm1
      refine ⟨div_nonneg (by linarith) (by linarith), ?_⟩
      rw [div_le_div_iff₀ (by linarith) hq]
      nlinarith
    obtain ⟨t1, t2⟩ := t p m1 p0 a0 a1
    obtain ⟨t3, t4⟩ := t (1 - p) m0 p1 b0 b1
    have : |(1 - m1) / (p + eps) - (1 - m0) / (1 - p + eps)| ≤ 1 / q := by
      rw [abs_le]; constructor <;> linarith
    rw [show m1 - m0 + eps * ((1 - m1) / (p + eps) - (1 - m0) / (1 - p + eps)) - (m1 - m0) =
      eps * ((1 - m1) / (p + eps) - (1 - m0) / (1 - p + eps)) by ring, abs_mul, abs_of_pos he]
    calc eps * _ ≤ eps * (1 / q) := mul_le_mul_of_nonneg_left this he.le
      _ = eps / q := by ring
  have tri : ∀ (l : List (Row K W K)) (f g : Row K W K → K) (b : K), (∀ r ∈ l, |f r - g r| ≤ b) →
      |(l.map f).sum - (l.map g).sum| ≤ l.length * b := by
    intro l f g b h
    induction l with
    | nil => simp
    | cons r l ih =>
      have h1 := h r List.mem_cons_self
      have h2 := ih (fun r' hr' => h r' (List.mem_cons_of_mem _ hr'))
      simp only [List.map_cons, List.sum_cons, List.length_cons, Nat.cast_add, Nat.cast_one]
      have := abs_add_le (f r - g r) ((l.map f).sum - (l.map g).sum)
      rw [show f r + (l.map f).sum - (g r + (l.map g).sum) = f r - g r + ((l.map f).sum - (l.map g).sum) by ring]
      linarith
  exact tri rows _ _ _ key

/-! ### The causal effect -/

section causal
variable {α B : Type} [DecidableEq α] [LinearOrder B] [Fintype B]
variable {V : Finset α} {E : α → α → Prop} {M : BayesNet (K := K) V E (fun _ => B)}

/-- the same rows with the treatment values as numbers -/
def numbered (enc : B → K) (rows : List (Row B W K)) : List (Row K W K) := rows.map (fun r => ⟨r.wv, r.x.map enc, r.y⟩)

theorem stratum_numbered (enc : B → K) (rows : List (Row B W K)) (w : W) :
    stratum (numbered enc rows) w = numbered enc (stratum rows w) := by
  unfold stratum numbered
  rw [List.filter_map]
  rfl

theorem cell_numbered {enc : B → K} (hinj : Function.Injective enc) (rows : List (Row B W K)) (w : W) (a : List B) :
    cell (numbered enc rows) w (a.map enc) = numbered enc (cell rows w a) := by
  unfold cell
  rw [stratum_numbered]
  unfold numbered
  rw [List.filter_map]
  congr 1
  apply List.filter_congr
  intro r _
  simp only [Function.comp_apply]
  rw [decide_eq_decide]
  exact hinj.list_map.eq_iff

theorem cellMean_numbered {enc : B → K} (hinj : Function.Injective enc) (rows : List (Row B W K)) (w : W) (a : List B) :
    cellMean (numbered enc rows) w (a.map enc) = cellMean rows w a := by
  unfold cellMean
  rw [cell_numbered hinj]
  unfold numbered
  rw [List.map_map, List.length_map]
  rfl

/-- **C143**: fitted on a population, with a back-door set as adjustment set, exact propensities that stay `q` away from 0 and 1, a binary treatment `x`
and outcomes between 0 and 1, the mean of the results differs from the average causal effect of `x = 1` against `x = 0` by at most `eps / q`. -/
theorem C143_causal (hac : Acyclic E) (hV : ∀ i, ∀ j ∈ V, E i j → i ∈ V) {O : Finset α} (hO : O ⊆ V) {L : List (α → B)} (hL : L ≠ [])
    (hpop : IsPopulation M O L) {x y : α} {S : List α} (hX : x ∈ O) (hS : S.toFinset ⊆ O) (hyO : y ∈ O)
    (hb : BackDoor E {a | a ∈ [x]} {a | a ∈ [y]} {a | a ∈ S}) (num enc : B → K) (hinj : Function.Injective enc) {v v' : α → B}
    (h1 : enc (v x) = 1) (h0 : enc (v' x) = 0) (hbin : ∀ u ∈ L, u x = v x ∨ u x = v' x) (hnum : ∀ b, 0 ≤ num b ∧ num b ≤ 1)
    (hov : M.Overlap {x} S.toFinset v) (hov' : M.Overlap {x} S.toFinset v')
    {fitP : List (List B × K) → List B → List K} (hP : ExactPropensity fitP (numbered enc (dataOf [x] S y num L)))
    (eps q : K) (he : 0 < eps) (hq : 0 < q)
    (hpos : ∀ u ∈ L, q ≤ share (dataOf [x] S y num L) (S.map u) [v x] ∧ q ≤ 1 - share (dataOf [x] S y num L) (S.map u) [v x]) :
    ∃ res, Ipw.prepare eps fitP (numbered enc (dataOf [x] S y num L)) = .ok res ∧
      |res.sum / (L.length : K) - (M.meanDo {x} y num v - M.meanDo {x} y num v')| ≤ eps / q := by
  have hn : (0 : K) < (L.length : K) := by
    rw [Nat.cast_pos]
    exact List.length_pos_of_ne_nil hL
  set rows := dataOf [x] S y num L with hrows
  have hmem : ∀ r ∈ numbered enc rows, ∃ u ∈ L, r = ⟨S.map u, [enc (u x)], num (u y)⟩ := by
    intro r hr
    obtain ⟨r', hr', rfl⟩ := List.mem_map.1 hr
    obtain ⟨u, hu, rfl⟩ := List.mem_map.1 hr'
    exact ⟨u, hu, rfl⟩
  have c1 : ∀ w, cellMean (numbered enc rows) w [1] = cellMean rows w ([x].map v) := by
    intro w
    rw [← cellMean_numbered hinj rows w ([x].map v)]
    simp [h1]
  have c0 : ∀ w, cellMean (numbered enc rows) w [0] = cellMean rows w ([x].map v') := by
    intro w
    rw [← cellMean_numbered hinj rows w ([x].map v')]
    simp [h0]
  have s1 : ∀ w, share (numbered enc rows) w [1] = share rows w [v x] := by
    intro w
    unfold share
    rw [← h1, show cell (numbered enc rows) w [enc (v x)] = _ from cell_numbered hinj rows w [v x], stratum_numbered]
    unfold numbered
    rw [List.length_map, List.length_map]
  obtain ⟨res, e1, e2⟩ := C143_error_bound eps q he hq (rows := numbered enc rows) (fitP := fitP)
    (by
      intro r hr
      obtain ⟨u, hu, rfl⟩ := hmem r hr
      rcases hbin u hu with h | h
      · exact Or.inr (by simp [h, h1])
      · exact Or.inl (by simp [h, h0]))
    hP
    (by
      intro r hr
      obtain ⟨u, hu, rfl⟩ := hmem r hr
      rw [s1]
      exact hpos u hu)
    (by
      intro r hr
      obtain ⟨u, hu, rfl⟩ := hmem r hr
      exact hnum _)
  refine ⟨res, e1, ?_⟩
  have hX' : [x].toFinset ⊆ O := by simpa using hX
  have hov1 : M.Overlap [x].toFinset S.toFinset v := by simpa using hov
  have hov0 : M.Overlap [x].toFinset S.toFinset v' := by simpa using hov'
  have t1 := sum_cellMean_do hac hV hO hL hpop hX' hS hyO hb num v hov1
  have t0 := sum_cellMean_do hac hV hO hL hpop hX' hS hyO hb num v' hov0
  have hsum : ((numbered enc rows).map (fun r => cellMean (numbered enc rows) r.wv [1] - cellMean (numbered enc rows) r.wv [0])).sum =
      (L.length : K) * (M.meanDo {x} y num v - M.meanDo {x} y num v') := by
    have hs : ∀ (l : List (Row B (List B) K)) (f g : Row B (List B) K → K), (l.map (fun u => f u - g u)).sum = (l.map f).sum - (l.map g).sum := by
      intro l f g
      induction l with
      | nil => simp
      | cons u l ih => simp [ih]; ring
    have : (numbered enc rows).map (fun r => cellMean (numbered enc rows) r.wv [1] - cellMean (numbered enc rows) r.wv [0]) =
        rows.map (fun r => cellMean rows r.wv ([x].map v) - cellMean rows r.wv ([x].map v')) := by
      conv_lhs => rw [show numbered enc rows = rows.map (fun r => ⟨r.wv, r.x.map enc, r.y⟩) from rfl, List.map_map]
      apply List.map_congr_left
      intro r _
      exact congrArg₂ (· - ·) (c1 r.wv) (c0 r.wv)
    rw [this, hs, t1, t0]
    simp only [List.toFinset_cons, List.toFinset_nil, insert_empty_eq]
    ring
  rw [hsum] at e2
  have hlen : (numbered enc rows).length = L.length := by simp [numbered, hrows, dataOf]
  rw [hlen] at e2
  rw [show res.sum / (L.length : K) - (M.meanDo {x} y num v - M.meanDo {x} y num v') =
    (res.sum - (L.length : K) * (M.meanDo {x} y num v - M.meanDo {x} y num v')) / (L.length : K) by field_simp, abs_div, abs_of_pos hn, div_le_iff₀ hn]
  linarith

theorem exists_lower_bound {T : Type} (l : List T) (f : T → K) (h : ∀ t ∈ l, 0 < f t) : ∃ q, 0 < q ∧ ∀ t ∈ l, q ≤ f t := by
  induction l with
  | nil => exact ⟨1, one_pos, by simp⟩
  | cons t l ih =>
    obtain ⟨q, h1, h2⟩ := ih (fun t' ht' => h t' (List.mem_cons_of_mem _ ht'))
    refine ⟨min q (f t), lt_min h1 (h t List.mem_cons_self), fun t' ht' => ?_⟩
    rcases List.mem_cons.1 ht' with rfl | ht'
    · exact min_le_right _ _
    · exact (min_le_left _ _).trans (h2 t' ht')

/-- **C143**: overlap of the model is enough for such a `q`: the error is at most a constant times `eps`. -/
theorem C143_causal_overlap (hac : Acyclic E) (hV : ∀ i, ∀ j ∈ V, E i j → i ∈ V) {O : Finset α} (hO : O ⊆ V) {L : List (α → B)} (hL : L ≠ [])
    (hpop : IsPopulation M O L) {x y : α} {S : List α} (hX : x ∈ O) (hS : S.toFinset ⊆ O) (hyO : y ∈ O)
    (hb : BackDoor E {a | a ∈ [x]} {a | a ∈ [y]} {a | a ∈ S}) (num enc : B → K) (hinj : Function.Injective enc) {v v' : α → B}
    (h1 : enc (v x) = 1) (h0 : enc (v' x) = 0) (hbin : ∀ u ∈ L, u x = v x ∨ u x = v' x) (hnum : ∀ b, 0 ≤ num b ∧ num b ≤ 1)
    (hov : M.Overlap {x} S.toFinset v) (hov' : M.Overlap {x} S.toFinset v')
    {fitP : List (List B × K) → List B → List K} (hP : ExactPropensity fitP (numbered enc (dataOf [x] S y num L))) :
    ∃ C, ∀ eps, 0 < eps → ∃ res, Ipw.prepare eps fitP (numbered enc (dataOf [x] S y num L)) = .ok res ∧
      |res.sum / (L.length : K) - (M.meanDo {x} y num v - M.meanDo {x} y num v')| ≤ C * eps := by
  have hdisj : ∀ a ∈ S, a ∉ [x] := fun a ha ha' => (hb.1 a ha).2 a ha' .refl
  have hX' : [x].toFinset ⊆ O := by simpa using hX
  have hov1 : M.Overlap [x].toFinset S.toFinset v := by simpa using hov
  have hov0 : M.Overlap [x].toFinset S.toFinset v' := by simpa using hov'
  have hpos : ∀ u ∈ L, 0 < min (share (dataOf [x] S y num L) (S.map u) [v x]) (1 - share (dataOf [x] S y num L) (S.map u) [v x]) := by
    intro u hu
    obtain ⟨r1, m1, w1, x1⟩ := dataOf_cell (y := y) (num := num) (overlap_sample hac hV hO hpop hX' hS hdisj hov1 hu).2
    obtain ⟨r0, m0, w0, x0⟩ := dataOf_cell (y := y) (num := num) (overlap_sample hac hV hO hpop hX' hS hdisj hov0 hu).2
    have k1 : r1 ∈ cell (dataOf [x] S y num L) (S.map u) [v x] := by simp [cell, stratum, m1, w1, x1]
    have k2 : r0 ∈ stratum (dataOf [x] S y num L) (S.map u) := by simp [stratum, m0, w0]
    have hne : v' x ≠ v x := by
      intro h
      rw [h, h1] at h0
      exact one_ne_zero h0
    have k3 : (cell (dataOf [x] S y num L) (S.map u) [v x]).length < (stratum (dataOf [x] S y num L) (S.map u)).length := by
      unfold cell
      apply List.length_filter_lt_length_iff_exists.2
      exact ⟨r0, k2, by simp [x0, hne]⟩
    have k4 := List.length_pos_of_mem k1
    have hs : (0 : K) < ((stratum (dataOf [x] S y num L) (S.map u)).length : K) := by
      rw [Nat.cast_pos]; omega
    unfold share
    refine lt_min (div_pos (Nat.cast_pos.2 k4) hs) ?_
    rw [sub_pos, div_lt_one hs]
    exact_mod_cast k3
  obtain ⟨q, hq, hle⟩ := exists_lower_bound L _ hpos
  refine ⟨1 / q, fun eps he => ?_⟩
  obtain ⟨res, e1, e2⟩ := C143_causal hac hV hO hL hpop hX hS hyO hb num enc hinj h1 h0 hbin hnum hov hov' hP eps q he hq
    (fun u hu => ⟨(hle u hu).trans (min_le_left _ _), (hle u hu).trans (min_le_right _ _)⟩)
  exact ⟨res, e1, e2.trans (le_of_eq (by ring))⟩

/-- the classifier that predicts the frequencies of the two classes, for any features: exact propensities exist -/
theorem exactPropensity_exists (rows : List (Row K W K)) : ∃ fitP : List (W × K) → W → List K, ExactPropensity fitP rows :=
  ⟨fun _ w => [1 - share rows w [1], share rows w [1]], fun _ _ => rfl⟩

end causal

/-! ### Where it fails -/

/-- the frequencies of the classes 0 and 1 among the training rows with the same features: an exact propensity model -/
def freqModel (data : List (Bool × ℚ)) (w : Bool) : List ℚ :=
  let s := data.filter (fun p => decide (p.1 = w))
  [((s.filter (fun p => decide (p.2 = 0))).length : ℚ) / (s.length : ℚ), ((s.filter (fun p => decide (p.2 = 1))).length : ℚ) / (s.length : ℚ)]

theorem freqModel_exact {rows : List (Row ℚ Bool ℚ)} (hb : Binary rows) : ExactPropensity freqModel rows := by
  intro r _
  unfold freqModel share
  simp only [List.getElem?_cons_succ, List.getElem?_cons_zero, Option.some.injEq]
  have e1 : (rows.map (fun r => (r.wv, r.x.headD 0))).filter (fun p => decide (p.1 = r.wv)) = (stratum rows r.wv).map (fun r => (r.wv, r.x.headD 0)) := by
    unfold stratum
    rw [List.filter_map]
    rfl
  rw [e1, List.filter_map, List.length_map, List.length_map]
  congr 3
  unfold cell
  apply List.filter_congr
  intro r' hr'
  rcases hb r' (List.mem_filter.1 hr').1 with h | h <;> simp [h]

/-- non-vacuity of C143: two strata with different treatment frequencies, an outcome that is the treatment in one stratum and constant in the other -/
def ipwRows : List (Row ℚ Bool ℚ) :=
  [⟨false, [0], 0⟩, ⟨false, [1], 1⟩, ⟨true, [0], 1⟩, ⟨true, [1], 1⟩, ⟨true, [1], 1⟩, ⟨true, [1], 1⟩]

/-- the hypotheses of `C143_exact`, `C143_consistent` and `C143_error_bound` hold of `ipwRows`, and the average is 1/3 without `eps` -/
example : Binary ipwRows ∧ ExactPropensity freqModel ipwRows ∧
    (∀ r ∈ ipwRows, 1 / 4 ≤ share ipwRows r.wv [1] ∧ 1 / 4 ≤ 1 - share ipwRows r.wv [1]) ∧ (∀ r ∈ ipwRows, 0 ≤ r.y ∧ r.y ≤ 1) ∧
    (Ipw.prepare 0 freqModel ipwRows).toOption.map (fun l => l.sum / 6) = some (1 / 3) := by
  have hb : Binary ipwRows := by unfold Binary; decide +kernel
  exact ⟨hb, freqModel_exact hb, by decide +kernel, by decide +kernel, by decide +kernel⟩

/-- **C143, refuted without overlap**: in a stratum without treated rows the code does not fail, it takes the mean treated outcome to be 1
(`eps / eps`), whatever `eps` and the outcomes are. -/
theorem C143_no_overlap_refuted (eps : K) (he : eps ≠ 0) (m0 : K) :
    (0 * 0 + eps) / (0 + eps) - ((1 - 0) * m0 + eps) / (1 - 0 + eps) = 1 - (m0 + eps) / (1 + eps) := by
  simp [he]

/-- a population in which nobody is treated and every outcome is 10: the code reports an effect of about -9 (exactly `1 - (10 + eps)/(1 + eps)`) -/
theorem C143_no_overlap_witness : (Ipw.prepare (1 / 10000000) (fun _ _ => [1, 0]) [(⟨true, [0], 10⟩ : Row ℚ Bool ℚ), ⟨true, [0], 10⟩]).toOption =
    some [1 - (10 + 1 / 10000000) / (1 + 1 / 10000000), 1 - (10 + 1 / 10000000) / (1 + 1 / 10000000)] := by decide +kernel

/-- **C143, refuted for other labels**: the same experiment (treated rows have outcome 1, the others 0, half of the rows are treated) with the treatment
written as 1 and 2 instead of 0 and 1 does not give the effect 1 -/
theorem C143_labels_refuted :
    (Ipw.prepare 0 (fun _ _ => [1 / 2, 1 / 2]) [(⟨true, [0], 0⟩ : Row ℚ Bool ℚ), ⟨true, [1], 1⟩]).toOption.map (fun l => l.sum / 2) = some 1 ∧
    (Ipw.prepare 0 (fun _ _ => [1 / 2, 1 / 2]) [(⟨true, [1], 0⟩ : Row ℚ Bool ℚ), ⟨true, [2], 1⟩]).toOption.map (fun l => l.sum / 2) = some 3 := by
  constructor <;> decide +kernel

/-- **C143**: an `IndexError` for every non-empty data set if the classifier has seen one class only -/
theorem C143_one_class (eps : K) {fitP : List (W × K) → W → List K} {rows : List (Row K W K)} (hne : rows ≠ [])
    (h1 : ∀ w, (fitP (rows.map (fun r => (r.wv, r.x.headD 0))) w).length = 1) : Ipw.prepare eps fitP rows = .error .index := by
  obtain ⟨r, l, rfl⟩ := List.exists_cons_of_ne_nil hne
  have : (fitP ((r :: l).map (fun r => (r.wv, r.x.headD 0))) r.wv)[1]? = none := by
    rw [List.getElem?_eq_none]
    rw [h1]
  unfold Ipw.prepare
  rw [mapE]
  simp only [Ipw.propensity, this]

/-- **C143, refuted**: the model cannot be chosen by name, not even the name the class documents; `None` and a model object work -/
theorem C143_name_refuted {P : Type} (logistic m : P) (s : String) :
    Ipw.ipwInit logistic (.name s) = .error .attr ∧ Ipw.psInit logistic (.name "LogisticR") = .ok logistic ∧
      Ipw.ipwInit logistic .none = .ok logistic ∧ Ipw.ipwInit logistic (.model m) = .ok m := by
  refine ⟨rfl, ?_, rfl, rfl⟩
  simp [Ipw.psInit]

/-- non-vacuity of `C143_causal`: the graph `z → x`, `z → y`, `x → y` with fair coins has a population with overlap; `z` is a back-door set -/
example : ∃ (V : Finset (Fin 3)) (E : Fin 3 → Fin 3 → Prop) (M : BayesNet (K := ℚ) V E (fun _ => Bool)) (L : List (Fin 3 → Bool)), L ≠ [] ∧
    Acyclic E ∧ (∀ i, ∀ j ∈ V, E i j → i ∈ V) ∧ IsPopulation M Finset.univ L ∧ BackDoor E {a | a ∈ [(1 : Fin 3)]} {a | a ∈ [(2 : Fin 3)]} {a | a ∈ [(0 : Fin 3)]} ∧
    ∀ v, M.Overlap {1} [0].toFinset v := by
  have hac : Acyclic (fun i j : Fin 3 => i < j) := by
    intro i h
    have : ∀ i j : Fin 3, Reach1 (fun i j : Fin 3 => i < j) i j → i < j := by
      intro i j h
      induction h with
      | single h => exact h
      | tail _ h ih => exact ih.trans h
    exact lt_irrefl _ (this i i h)
  have hpos : BayesNet.Positive (fairCoins (Finset.univ : Finset (Fin 3)) (fun i j : Fin 3 => i < j)) := fun _ _ _ => by norm_num [fairCoins]
  obtain ⟨L, h1, h2, -⟩ := C142_population_exists (fairCoins (Finset.univ : Finset (Fin 3)) (fun i j : Fin 3 => i < j)) hac (fun i _ _ _ => Finset.mem_univ i)
    (Finset.Subset.refl _) (fun _ => false)
  refine ⟨_, _, _, L, h1, hac, fun i _ _ _ => Finset.mem_univ i, h2, ?_, fun v u _ _ => (hpos.P_pos _ _).ne'⟩
  refine ⟨?_, ?_⟩
  · intro a ha
    simp only [List.mem_singleton, Set.mem_setOf_eq] at ha
    subst ha
    refine ⟨by simp, ?_⟩
    intro x hx hr
    simp only [List.mem_singleton, Set.mem_setOf_eq] at hx
    subst hx
    rcases Relation.ReflTransGen.cases_tail hr with h | ⟨c, _, h⟩
    · exact absurd h (by decide)
    · exact absurd h (Fin.not_lt_zero c)
  · intro p _ hp x hx y hy hx1 hy2
    simp only [List.mem_singleton, Set.mem_setOf_eq] at hx1 hy2
    subst hx1; subst hy2
    rcases p with _ | ⟨a, _ | ⟨b, rest⟩⟩
    · cases hx
    · simp at hx hy
      rw [hx] at hy
      exact absurd hy (by decide)
    · simp only [List.head?_cons, Option.mem_def, Option.some.injEq] at hx
      subst hx
      have hadj : Adj (CutOut (fun i j : Fin 3 => i < j) {a | a ∈ [(1 : Fin 3)]}) 1 b := by
        cases rest with
        | nil => exact hp
        | cons c rest => exact hp.1
      have hb0 : b = 0 := by
        rcases hadj with h | h
        · exact absurd (by simp) h.2
        · have := h.1
          omega
      subst hb0
      rcases rest with _ | ⟨c, rest⟩
      · simp at hy
      · rcases hp.2.1 with h | h
        · exact absurd h.1.1 (by decide)
        · exact h.2 (by simp)

end YL.Props
