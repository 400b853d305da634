import Verif.Model.RLoss
import Verif.Props.DoubleML
import Mathlib.Algebra.Order.Field.Basic
import Mathlib.Algebra.Order.BigOperators.Group.List
import Mathlib.Tactic.Linarith

/-!
# C105: the scorer `RLoss`
-/

set_option linter.unusedSectionVars false

namespace YL.Props

open YL Meta
open YL.RLoss (Scorer TestEstimator)

deriving instance DecidableEq for Meta.Encoder

variable {V W K N T : Type} [LinearOrder V] [Field K]

/-- the mean of the squares of a quantity over the rows of a table (the specification of a quadratic loss) -/
def meanSq {ι : Type} (l : List ι) (f : ι → K) : K := (l.map (fun r => f r * f r)).sum / (l.length : K)

/-- the table handed to the scored estimator: the covariates of each row under the names `ns`, followed by the adjustments, if
there are any, under the names `as` -/
def scoreTable {ι : Type} (l : List ι) (cov : ι → List K) (adjust : Option (ι → List K)) (ns as : List N) : List (List (N × K)) :=
  l.map (fun r => ns.zip (cov r) ++ (match adjust with
    | none => []
    | some f => as.zip (f r)))

theorem mapE_named {ι : Type} (l : List ι) (ns : List N) (f : ι → List K) (h : ∀ r ∈ l, (f r).length = ns.length) :
    mapE (RLoss.named ns) (l.map f) = .ok (l.map (fun r => ns.zip (f r))) := by
  induction l with
  | nil => rfl
  | cons a l ih =>
    have h1 : RLoss.named ns (f a) = .ok (ns.zip (f a)) := if_neg (by rw [h a (by simp)]; omega)
    have h2 := ih (fun r hr => h r (by simp [hr]))
    simp only [List.map_cons, mapE, h1, h2]

theorem testData_ok {ι : Type} (l : List ι) (cov : ι → List K) (adjust : Option (ι → List K)) (ns as : List N) (s : Scorer K)
    (hs : s.vs = l.map cov) (hw : s.ws = adjust.map (fun f => l.map f)) (hn : ∀ r ∈ l, (cov r).length = ns.length)
    (ha : ∀ f, adjust = some f → ∀ r ∈ l, (f r).length = as.length) :
    RLoss.testData s (some ns) (some as) = .ok (scoreTable l cov adjust ns as) := by
  unfold RLoss.testData
  simp only [hs, mapE_named l ns cov hn, hw]
  cases adjust with
  | none => simp [scoreTable]
  | some f =>
    simp only [Option.map_some, mapE_named l as f (ha f rfl)]
    rw [List.zipWith_map, List.zipWith_self]
    rfl

theorem predicted_ok {ι : Type} (l : List ι) (η x : ι → List K) (h : ∀ r ∈ l, (η r).length = (x r).length) :
    RLoss.predicted (l.map η) (l.map x) = .ok (l.map (fun r => DML.dot (η r) (x r))) := by
  have e : (l.map η).zip (l.map x) = l.map (fun r => (η r, x r)) := List.zip_map' ..
  have hc : (l.map η).length = (l.map x).length ∧ ((l.map η).zip (l.map x)).all (fun p => decide (p.1.length = p.2.length)) := by
    refine ⟨by simp, ?_⟩
    rw [e, List.all_map, List.all_eq_true]
    intro r hr
    simp [h r hr]
  unfold RLoss.predicted
  rw [if_pos hc, e, List.map_map]
  rfl

theorem meanSquare_eq {ι : Type} (l : List ι) (y p : ι → K) : RLoss.meanSquare (l.map y) (l.map p) = meanSq l (fun r => y r - p r) := by
  unfold RLoss.meanSquare meanSq
  rw [List.zipWith_map, List.zipWith_self, List.length_map]

theorem meanSq_congr {ι : Type} {l : List ι} {f g : ι → K} (h : ∀ r ∈ l, f r = g r) : meanSq l f = meanSq l g := by
  unfold meanSq
  congr 2
  exact List.map_congr_left (fun r hr => by rw [h r hr])

theorem dot_diff {τ a b : List K} (h : a.length = b.length) : DML.dot τ (List.zipWith (· - ·) a b) = DML.dot τ a - DML.dot τ b := dot_sub h

theorem dot_diff_left {a b τ : List K} (h : a.length = b.length) :
    DML.dot (List.zipWith (· - ·) a b) τ = DML.dot a τ - DML.dot b τ := by
  rw [dot_comm, dot_sub h, dot_comm τ a, dot_comm τ b]

/-- **C105**, continuous treatments. The outcome of every row is the sum of its treatment columns times the true effects
`τ`, plus a function of the confounders, plus noise `e`; the scorer's first stage predicts the conditional treatment `pr` and
the matching conditional outcome. Then `fit` succeeds and `score` of any estimator that has the scorer's covariates and
adjustments in the same order, and whose estimated effects are `η`, is the mean squared difference between the noise and the
error of the estimated effects times the treatment residual. -/
theorem C105_score_continuous {fitX : List (W × List K) → W → List K} {fitY : List (W × K) → W → K} (cov : W → List K)
    (adjust : Option (W → List K)) {cf xd : Nat} {rows : List (W × List K × K)} (hx : ∀ r ∈ rows, r.2.1.length = xd)
    (τ pr : W → List K) (g : W → K) (e : W × List K × K → K) (hτ : ∀ r ∈ rows, (τ r.1).length = xd) (hpr : ∀ r ∈ rows, (pr r.1).length = xd)
    (hy : ∀ r ∈ rows, r.2.2 = DML.dot (τ r.1) r.2.1 + g r.1 + e r)
    (hfx : CF.crossFit fitX cf (rows.map (fun r => (r.1, r.2.1))) = .ok (rows.map (fun r => some (pr r.1))))
    (hfy : CF.crossFit fitY cf (rows.map (fun r => (r.1, r.2.2))) = .ok (rows.map (fun r => some (DML.dot (τ r.1) (pr r.1) + g r.1)))) :
    ∃ s : Scorer K, RLoss.fitCont fitX fitY cov adjust cf xd rows = .ok s ∧
      ∀ (E : TestEstimator K N T) (ns as : List N) (treat control : Option T) (η : W → List K),
        E.covariate = some ns → E.adjustment = some as → (∀ r ∈ rows, (cov r.1).length = ns.length) →
        (∀ f, adjust = some f → ∀ r ∈ rows, (f r.1).length = as.length) →
        E.estimate (scoreTable rows (fun r => cov r.1) (adjust.map (fun f r => f r.1)) ns as) treat control = .ok (rows.map (fun r => η r.1)) →
        (∀ r ∈ rows, (η r.1).length = xd) →
        RLoss.score s E treat control =
          .ok (meanSq rows (fun r => e r - DML.dot (List.zipWith (· - ·) (η r.1) (τ r.1)) (List.zipWith (· - ·) r.2.1 (pr r.1)))) := by
  let yh : W × List K × K → K := fun r => DML.dot (τ r.1) (pr r.1) + g r.1
  refine ⟨RLoss.residuals false (rows.map (fun r => cov r.1)) (adjust.map (fun f => rows.map (fun r => f r.1))) (rows.map (·.2.1))
    (rows.map (fun r => pr r.1)) (rows.map (·.2.2)) (rows.map yh), ?_, ?_⟩
  · unfold RLoss.fitCont
    simp only [hfx, hfy]
    rw [collectX_map rows (fun r => pr r.1) hpr, collectY_map rows yh]
  · intro E ns as treat control η hE hA hn ha hest hη
    have ht := testData_ok rows (fun r => cov r.1) (adjust.map (fun f r => f r.1)) ns as
      (RLoss.residuals false (rows.map (fun r => cov r.1)) (adjust.map (fun f => rows.map (fun r => f r.1))) (rows.map (·.2.1))
        (rows.map (fun r => pr r.1)) (rows.map (·.2.2)) (rows.map yh)) rfl (by cases adjust <;> rfl) hn (by
          intro f hf r hr
          cases adjust with
          | none => simp at hf
          | some f' =>
            simp only [Option.map_some, Option.some.injEq] at hf
            subst hf
            exact ha f' rfl r hr)
    unfold RLoss.score
    rw [hE, hA, ht]
    simp only [hest]
    simp only [RLoss.residuals, Bool.false_eq_true, if_false]
    have ex : List.zipWith (List.zipWith (· - ·)) (rows.map (fun r : W × List K × K => r.2.1)) (rows.map (fun r => pr r.1)) =
        rows.map (fun r => List.zipWith (fun a b : K => a - b) r.2.1 (pr r.1)) := by rw [List.zipWith_map, List.zipWith_self]
    have ey : List.zipWith (fun a b : K => a - b) (rows.map (fun r => r.2.2)) (rows.map yh) = rows.map (fun r => r.2.2 - yh r) := by
      rw [List.zipWith_map, List.zipWith_self]
    rw [ex, ey, predicted_ok rows (fun r => η r.1) _ (by intro r hr; rw [List.length_zipWith, hη r hr, hx r hr, hpr r hr, min_self])]
    simp only
    rw [meanSquare_eq]
    congr 1
    apply meanSq_congr
    intro r hr
    rw [dot_diff_left (by rw [hη r hr, hτ r hr]), dot_diff (τ := τ r.1) (by rw [hx r hr, hpr r hr]), hy r hr]
    simp only [yh]
    ring

/-- **C105**, discrete treatments. Every row received one of two arms `a`, `b`; its outcome is the outcome function of its arm
plus noise; the first stage predicts the propensities `prob` and the matching conditional outcome. Then `fit` succeeds, and the
score of any estimator with the scorer's covariates and adjustments, which numbers the arm `a` as the scorer does and whose
estimated effects of `a` against `b` are `η`, is the mean squared difference between the noise and the error of the effects
times the residual of being treated with `a`. -/
theorem C105_score_discrete (lit : Nat → V) {fitX : List (W × Nat) → W → List K} {fitY : List (W × K) → W → K} (cov : W → List K)
    (adjust : Option (W → List K)) {cf d : Nat} (hd1 : 1 ≤ d) {rows : List (Row V W K)} (hd : ∀ r ∈ rows, r.x.length = d)
    {a b : List V} (ha : Observed d rows a) (hab : a ≠ b) (hrows : ∀ r ∈ rows, r.x = a ∨ r.x = b)
    (θ prob : List V → W → K) (e : Row V W K → K) (hp : ∀ r ∈ rows, prob a r.wv + prob b r.wv = 1) (hy : ∀ r ∈ rows, r.y = θ r.x r.wv + e r)
    (hfx : CF.crossFit fitX cf (trainX d rows) = .ok (rows.map (fun r => some ((treatVectors d rows).map (fun u => prob u r.wv)))))
    (hfy : CF.crossFit fitY cf (rows.map (fun r => (r.wv, r.y))) =
      .ok (rows.map (fun r => some (prob a r.wv * θ a r.wv + prob b r.wv * θ b r.wv)))) :
    ∃ (enc : Encoder V) (s : Scorer K), RLoss.fitDisc fitX fitY cov adjust cf lit d rows = .ok (enc, s) ∧
      ∃ k, transform lit enc a = .ok k ∧ ∀ (E : TestEstimator K N T) (ns as : List N) (treat control : Option T) (η : W → K),
        E.covariate = some ns → E.adjustment = some as → (∀ r ∈ rows, (cov r.wv).length = ns.length) →
        (∀ f, adjust = some f → ∀ r ∈ rows, (f r.wv).length = as.length) → E.treatAttr treat = some k →
        E.estimate (scoreTable rows (fun r => cov r.wv) (adjust.map (fun f r => f r.wv)) ns as) treat control = .ok (rows.map (fun r => [η r.wv])) →
        RLoss.score s E treat control =
          .ok (meanSq rows (fun r => e r - (η r.wv - (θ a r.wv - θ b r.wv)) * ((if r.x = a then 1 else 0) - prob a r.wv))) := by
  obtain ⟨enc, h1, -, -, -, -, -⟩ := fitEncoder_ok lit (allCodes := true) hd1 hd
  obtain ⟨hw, ht⟩ := transform_position lit hd1 h1
  have henc := encodeRows_eq lit hd1 hd h1
  set M := (treatVectors d rows).length with hM
  have hlt : ∀ v, Observed d rows v → armIdx d rows v < M := fun v hv => (List.getElem?_eq_some_iff.1 (armIdx_get (ht v hv).2)).1
  have hzX : (rows.zip (rows.map (fun r => oneHot M (armIdx d rows r.x)))).map (fun p => (p.1.wv, convert4onehot p.2)) = trainX d rows := by
    rw [zip_map_eq, List.map_map]
    unfold trainX
    apply List.map_congr_left
    intro r hr
    simp only [Function.comp_apply]
    rw [convert_oneHot (hlt r.x (observed_row hd hr))]
  let P : Row V W K → List K := fun r => (treatVectors d rows).map (fun u => prob u r.wv)
  let yh : Row V W K → K := fun r => prob a r.wv * θ a r.wv + prob b r.wv * θ b r.wv
  let X : Row V W K → List K := fun r => (oneHot M (armIdx d rows r.x)).map (fun n : Nat => (n : K))
  let s := RLoss.residuals true (rows.map (fun r => cov r.wv)) (adjust.map (fun f => rows.map (fun r => f r.wv))) (rows.map X) (rows.map P)
    (rows.map (·.y)) (rows.map yh)
  refine ⟨enc, s, ?_, armIdx d rows a, (ht a ha).1, ?_⟩
  · unfold RLoss.fitDisc
    simp only [useEncoder, h1, henc, hzX, hfx, hfy]
    rw [hw, collectX_map rows P (fun r _ => by simp [P, hM]), collectY_map rows yh]
    simp only [s, X, List.map_map]
    rfl
  · intro E ns as treat control η hE hA hn hadj htr hest
    have htd := testData_ok rows (fun r => cov r.wv) (adjust.map (fun f r => f r.wv)) ns as s rfl (by cases adjust <;> rfl) hn (by
      intro f hf r hr
      cases adjust with
      | none => simp at hf
      | some f' =>
        simp only [Option.map_some, Option.some.injEq] at hf
        subst hf
        exact hadj f' rfl r hr)
    unfold RLoss.score
    rw [hE, hA, htd]
    simp only [hest, htr]
    simp only [s, RLoss.residuals, if_true]
    have ex : List.zipWith (List.zipWith (· - ·)) (rows.map X) (rows.map P) = rows.map (fun r => List.zipWith (fun a b : K => a - b) (X r) (P r)) := by
      rw [List.zipWith_map, List.zipWith_self]
    have ey : List.zipWith (fun a b : K => a - b) (rows.map (fun r => r.y)) (rows.map yh) = rows.map (fun r => r.y - yh r) := by
      rw [List.zipWith_map, List.zipWith_self]
    have hk := hlt a ha
    have hcol : RLoss.columnOf (rows.map (fun r => List.zipWith (fun a b : K => a - b) (X r) (P r))) (armIdx d rows a) =
        .ok (rows.map (fun r => [(if r.x = a then (1 : K) else 0) - prob a r.wv])) := by
      unfold RLoss.columnOf
      apply mapE_map
      intro r hr
      have hx : (X r)[armIdx d rows a]? = some (if r.x = a then (1 : K) else 0) := by
        simp only [X]
        rw [List.getElem?_map, oneHot_getElem hk]
        by_cases h : r.x = a
        · simp [h]
        · have : armIdx d rows a ≠ armIdx d rows r.x := by
            intro h'
            have e1 := armIdx_get (ht a ha).2
            rw [h', armIdx_get (ht r.x (observed_row hd hr)).2] at e1
            exact h (Option.some.inj e1)
          simp [h, this]
      have hq : (P r)[armIdx d rows a]? = some (prob a r.wv) := by
        simp only [P]
        rw [List.getElem?_map, armIdx_get (ht a ha).2]
        rfl
      rw [List.getElem?_zipWith, hx, hq]
    rw [ex, ey, hcol]
    simp only
    rw [predicted_ok rows (fun r => [η r.wv]) (fun r => [(if r.x = a then (1 : K) else 0) - prob a r.wv]) (fun r _ => rfl)]
    simp only
    rw [meanSquare_eq]
    congr 1
    apply meanSq_congr
    intro r hr
    have hb : prob b r.wv = 1 - prob a r.wv := by rw [← hp r hr]; ring
    rw [hy r hr]
    simp only [yh, DML.dot, List.zipWith_cons_cons, List.zipWith_nil_right, List.sum_cons, List.sum_nil, hb]
    rcases hrows r hr with h | h
    · simp only [h, if_true]
      ring
    · simp only [h, if_neg (Ne.symm hab)]
      ring

section Ordered
variable {K : Type} [Field K] [LinearOrder K] [IsStrictOrderedRing K]

theorem meanSq_nonneg {ι : Type} (l : List ι) (f : ι → K) : 0 ≤ meanSq l f := by
  unfold meanSq
  apply div_nonneg
  · apply List.sum_nonneg
    intro x hx
    obtain ⟨r, -, rfl⟩ := List.mem_map.1 hx
    exact mul_self_nonneg _
  · exact Nat.cast_nonneg _

theorem meanSq_zero {ι : Type} (l : List ι) (f : ι → K) : meanSq l f = 0 ↔ ∀ r ∈ l, f r = 0 := by
  unfold meanSq
  cases l with
  | nil => simp
  | cons a l =>
    have hpos : (0 : K) < ((a :: l).length : K) := by exact_mod_cast Nat.succ_pos _
    rw [div_eq_zero_iff, or_iff_left (ne_of_gt hpos)]
    generalize a :: l = l
    induction l with
    | nil => simp
    | cons b l ih =>
      have h0 : 0 ≤ (l.map (fun r => f r * f r)).sum := by
        apply List.sum_nonneg
        intro x hx
        obtain ⟨r, -, rfl⟩ := List.mem_map.1 hx
        exact mul_self_nonneg _
      simp only [List.map_cons, List.sum_cons, List.mem_cons, forall_eq_or_imp, ← ih]
      constructor
      · intro h
        have h1 := mul_self_nonneg (f b)
        exact ⟨mul_self_eq_zero.1 (by linarith), by linarith⟩
      · rintro ⟨h1, h2⟩
        rw [h1, h2]
        ring

theorem meanSq_le {ι : Type} {l : List ι} {f g : ι → K} (h : ∀ r ∈ l, |f r| ≤ |g r|) : meanSq l f ≤ meanSq l g := by
  unfold meanSq
  apply div_le_div_of_nonneg_right _ (Nat.cast_nonneg _)
  apply List.sum_le_sum
  intro r hr
  rw [← abs_mul_abs_self (f r), ← abs_mul_abs_self (g r)]
  exact mul_self_le_mul_self (abs_nonneg _) (h r hr)

/-- **C105**: no score is negative -/
theorem C105_nonneg (s : Scorer K) (E : TestEstimator K N T) (treat control : Option T) (z : K)
    (h : RLoss.score s E treat control = .ok z) : 0 ≤ z := by
  have hms : ∀ y p : List K, 0 ≤ RLoss.meanSquare y p := by
    intro y p
    unfold RLoss.meanSquare
    apply div_nonneg _ (Nat.cast_nonneg _)
    apply List.sum_nonneg
    intro x hx
    rw [List.mem_iff_getElem] at hx
    obtain ⟨i, hi, rfl⟩ := hx
    rw [List.getElem_zipWith]
    exact mul_self_nonneg _
  unfold RLoss.score at h
  repeat' split at h
  all_goals first
    | (cases h; exact hms _ _)
    | cases h

/-- **C105**: without noise the true effect scores zero; an estimator scores zero exactly when it agrees with the true effect
on every row whose treatment residual is not zero; and an estimator that is nowhere further from the true effect than another
one scores no worse. Continuous treatment with one column. -/
theorem C105_ranking_continuous {fitX : List (W × List K) → W → List K} {fitY : List (W × K) → W → K} (cov : W → List K)
    {cf : Nat} {rows : List (W × List K × K)} (x : W × List K × K → K) (hx : ∀ r ∈ rows, r.2.1 = [x r])
    (τ pr g : W → K) (hy : ∀ r ∈ rows, r.2.2 = τ r.1 * x r + g r.1)
    (hfx : CF.crossFit fitX cf (rows.map (fun r => (r.1, r.2.1))) = .ok (rows.map (fun r => some [pr r.1])))
    (hfy : CF.crossFit fitY cf (rows.map (fun r => (r.1, r.2.2))) = .ok (rows.map (fun r => some (τ r.1 * pr r.1 + g r.1)))) :
    ∃ s : Scorer K, RLoss.fitCont fitX fitY cov none cf 1 rows = .ok s ∧
      ∀ (ns : List N), (∀ r ∈ rows, (cov r.1).length = ns.length) → ∃ loss : (W → K) → K,
        (∀ (E : TestEstimator K N T) (treat control : Option T) (η : W → K), E.covariate = some ns → E.adjustment = some [] →
          E.estimate (rows.map (fun r => ns.zip (cov r.1))) treat control = .ok (rows.map (fun r => [η r.1])) →
          RLoss.score s E treat control = .ok (loss η)) ∧
        loss τ = 0 ∧
        (∀ η, loss η = 0 ↔ ∀ r ∈ rows, x r ≠ pr r.1 → η r.1 = τ r.1) ∧
        (∀ η η', (∀ r ∈ rows, |η r.1 - τ r.1| ≤ |η' r.1 - τ r.1|) → loss η ≤ loss η') := by
  obtain ⟨s, hs, hsc⟩ := C105_score_continuous (N := N) (T := T) cov none (xd := 1) (rows := rows) (fun r hr => by rw [hx r hr]; rfl)
    (fun w => [τ w]) (fun w => [pr w]) g (fun _ => 0) (fun _ _ => rfl) (fun _ _ => rfl)
    (fun r hr => by rw [hx r hr, hy r hr]; simp [DML.dot]) hfx (by rw [hfy]; simp [DML.dot])
  refine ⟨s, hs, fun ns hn => ⟨fun η => meanSq rows (fun r => (η r.1 - τ r.1) * (x r - pr r.1)), ?_, ?_, ?_, ?_⟩⟩
  · intro E treat control η hE hA hest
    rw [hsc E ns [] treat control (fun w => [η w]) hE hA hn (fun f hf => by cases hf) (by rw [← hest]; simp [scoreTable]) (fun _ _ => rfl)]
    congr 1
    unfold meanSq
    congr 2
    apply List.map_congr_left
    intro r hr
    simp [hx r hr, DML.dot]
  · show meanSq rows _ = 0
    rw [meanSq_zero]
    intro r _
    ring
  · intro η
    show meanSq rows _ = 0 ↔ _
    rw [meanSq_zero]
    constructor
    · intro h r hr hne
      rcases mul_eq_zero.1 (h r hr) with h | h
      · exact sub_eq_zero.1 h
      · exact absurd (sub_eq_zero.1 h) hne
    · intro h r hr
      by_cases hne : x r = pr r.1
      · rw [hne]; ring
      · rw [h r hr hne]; ring
  · intro η η' h
    apply meanSq_le
    intro r hr
    rw [abs_mul, abs_mul]
    exact mul_le_mul_of_nonneg_right (h r hr) (abs_nonneg _)

/-- **C105**, the same for a discrete treatment of which the data contain two arms -/
theorem C105_ranking_discrete (lit : Nat → V) {fitX : List (W × Nat) → W → List K} {fitY : List (W × K) → W → K} (cov : W → List K)
    {cf d : Nat} (hd1 : 1 ≤ d) {rows : List (Row V W K)} (hd : ∀ r ∈ rows, r.x.length = d)
    {a b : List V} (ha : Observed d rows a) (hab : a ≠ b) (hrows : ∀ r ∈ rows, r.x = a ∨ r.x = b)
    (θ prob : List V → W → K) (hp : ∀ r ∈ rows, prob a r.wv + prob b r.wv = 1) (hy : ∀ r ∈ rows, r.y = θ r.x r.wv)
    (hin : ∀ r ∈ rows, 0 < prob a r.wv ∧ prob a r.wv < 1)
    (hfx : CF.crossFit fitX cf (trainX d rows) = .ok (rows.map (fun r => some ((treatVectors d rows).map (fun u => prob u r.wv)))))
    (hfy : CF.crossFit fitY cf (rows.map (fun r => (r.wv, r.y))) =
      .ok (rows.map (fun r => some (prob a r.wv * θ a r.wv + prob b r.wv * θ b r.wv)))) :
    ∃ (enc : Encoder V) (s : Scorer K), RLoss.fitDisc fitX fitY cov none cf lit d rows = .ok (enc, s) ∧
      ∃ k, transform lit enc a = .ok k ∧ ∀ (ns : List N), (∀ r ∈ rows, (cov r.wv).length = ns.length) → ∃ loss : (W → K) → K,
        (∀ (E : TestEstimator K N T) (treat control : Option T) (η : W → K), E.covariate = some ns → E.adjustment = some [] →
          E.treatAttr treat = some k →
          E.estimate (rows.map (fun r => ns.zip (cov r.wv))) treat control = .ok (rows.map (fun r => [η r.wv])) →
          RLoss.score s E treat control = .ok (loss η)) ∧
        loss (fun w => θ a w - θ b w) = 0 ∧
        (∀ η, loss η = 0 ↔ ∀ r ∈ rows, η r.wv = θ a r.wv - θ b r.wv) ∧
        (∀ η η', (∀ r ∈ rows, |η r.wv - (θ a r.wv - θ b r.wv)| ≤ |η' r.wv - (θ a r.wv - θ b r.wv)|) → loss η ≤ loss η') := by
  obtain ⟨enc, s, hs, k, hk, hsc⟩ := C105_score_discrete (N := N) (T := T) lit cov none hd1 hd ha hab hrows θ prob (fun _ => 0) hp
    (fun r hr => by rw [hy r hr]; ring) hfx hfy
  refine ⟨enc, s, hs, k, hk, fun ns hn =>
    ⟨fun η => meanSq rows (fun r => (η r.wv - (θ a r.wv - θ b r.wv)) * ((if r.x = a then 1 else 0) - prob a r.wv)), ?_, ?_, ?_, ?_⟩⟩
  · intro E treat control η hE hA htr hest
    rw [hsc E ns [] treat control η hE hA hn (fun f hf => by cases hf) htr (by rw [← hest]; simp [scoreTable])]
    congr 1
    unfold meanSq
    congr 2
    apply List.map_congr_left
    intro r _
    ring
  · show meanSq rows _ = 0
    rw [meanSq_zero]
    intro r _
    ring
  · intro η
    show meanSq rows _ = 0 ↔ _
    rw [meanSq_zero]
    constructor
    · intro h r hr
      rcases mul_eq_zero.1 (h r hr) with h | h
      · exact sub_eq_zero.1 h
      · exfalso
        obtain ⟨h1, h2⟩ := hin r hr
        by_cases hx : r.x = a
        · rw [if_pos hx] at h; linarith
        · rw [if_neg hx] at h; linarith
    · intro h r hr
      rw [h r hr]; ring
  · intro η η' h
    apply meanSq_le
    intro r hr
    rw [abs_mul, abs_mul]
    exact mul_le_mul_of_nonneg_right (h r hr) (abs_nonneg _)

/-- **C105**: with noise that is uncorrelated in the data with the effect errors times the treatment residuals, the score is the
noise variance, which no estimator can change, plus the mean square of these errors; so the true effect still scores best. -/
theorem C105_noise {ι : Type} (l : List ι) (e δ : ι → K) (h : (l.map (fun r => e r * δ r)).sum = 0) :
    meanSq l (fun r => e r - δ r) = meanSq l e + meanSq l δ ∧ meanSq l e ≤ meanSq l (fun r => e r - δ r) := by
  have key : meanSq l (fun r => e r - δ r) = meanSq l e + meanSq l δ := by
    unfold meanSq
    rw [← add_div]
    congr 1
    have : ∀ l : List ι, (l.map (fun r => (e r - δ r) * (e r - δ r))).sum =
        (l.map (fun r => e r * e r)).sum + (l.map (fun r => δ r * δ r)).sum - 2 * (l.map (fun r => e r * δ r)).sum := by
      intro l
      induction l with
      | nil => simp
      | cons a l ih => simp only [List.map_cons, List.sum_cons, ih]; ring
    rw [this, h]
    ring
  exact ⟨key, by rw [key]; linarith [meanSq_nonneg l δ]⟩

end Ordered

/-- **C105 (limit)**: an estimator without covariates cannot be scored. -/
theorem C105_needs_covariates (s : Scorer K) (E : TestEstimator K N T) (h : E.covariate = none) (treat control : Option T) :
    RLoss.score s E treat control = .error .type := by
  unfold RLoss.score RLoss.testData
  simp only [h]

/-- C105, covariates are matched by position: an estimator with fewer covariates than the scorer is shown the scorer's
first ones under its own names; one with more is refused with `IndexError`. -/
theorem C105_covariate_count (s : Scorer K) (ns : List N) (as : Option (List N)) (hw : s.ws = none) :
    ((∀ v ∈ s.vs, ns.length ≤ v.length) → RLoss.testData s (some ns) as = .ok (s.vs.map (fun v => ns.zip v))) ∧
    ((∃ v ∈ s.vs, v.length < ns.length) → RLoss.testData s (some ns) as = .error .index) := by
  have key : ∀ l : List (List K), ((∀ v ∈ l, ns.length ≤ v.length) → mapE (RLoss.named ns) l = .ok (l.map (fun v => ns.zip v))) ∧
      ((∃ v ∈ l, v.length < ns.length) → mapE (RLoss.named ns) l = .error .index) := by
    intro l
    induction l with
    | nil => exact ⟨fun _ => rfl, fun h => by simp at h⟩
    | cons a l ih =>
      constructor
      · intro h
        have h1 : RLoss.named ns a = .ok (ns.zip a) := if_neg (not_lt.2 (h a (by simp)))
        simp only [mapE, h1, ih.1 (fun v hv => h v (by simp [hv])), List.map_cons]
      · rintro ⟨v, hv, hlt⟩
        by_cases ha : a.length < ns.length
        · have h1 : RLoss.named ns a = .error .index := if_pos ha
          simp only [mapE, h1]
        · have h1 : RLoss.named ns a = .ok (ns.zip a) := if_neg ha
          have hv' : v ∈ l := by
            rcases List.mem_cons.1 hv with rfl | hv
            · exact absurd hlt ha
            · exact hv
          simp only [mapE, h1, ih.2 ⟨v, hv', hlt⟩]
  unfold RLoss.testData
  exact ⟨fun h => by simp only [(key s.vs).1 h, hw], fun h => by simp only [(key s.vs).2 h]⟩

/-- three arms `0`, `1`, `2` with outcomes `0`, `1`, `3`, assigned with equal probabilities -/
def rlRows : List (Row Nat Unit Rat) := [⟨(), [0], 0⟩, ⟨(), [1], 1⟩, ⟨(), [2], 3⟩]

/-- an estimator that answers with the constant effect `η` of arm `1` against arm `0` -/
def rlConst (η : Rat) : TestEstimator Rat String Unit :=
  ⟨some ["v"], some [], fun t _ _ => .ok (t.map (fun _ => [η])), fun _ => some 1⟩

/-- **C105 (refuted)** for three arms: only the residual of the treated arm enters the score, so with exact nuisance models and
noise-free data the true effect `1` of arm `1` against arm `0` scores worse than the wrong answer `-1/2`. -/
theorem C105_three_arms_refuted : ∃ (enc : Encoder Nat) (s : Scorer Rat),
    RLoss.fitDisc (fun _ _ => [1 / 3, 1 / 3, 1 / 3]) (fun _ _ => 4 / 3) (fun _ => [0]) none 1 id 1 rlRows = .ok (enc, s) ∧
      RLoss.score s (rlConst 1) none none = .ok 2 ∧ RLoss.score s (rlConst (-1 / 2)) none none = .ok (3 / 2) :=
  ⟨⟨[[0, 1, 2]], none⟩, ⟨true, [[2 / 3, -1 / 3, -1 / 3], [-1 / 3, 2 / 3, -1 / 3], [-1 / 3, -1 / 3, 2 / 3]], [-4 / 3, -1 / 3, 5 / 3],
    [[0], [0], [0]], none⟩, by decide +kernel, by decide +kernel, by decide +kernel⟩

/-- an estimator of a continuous treatment whose effect of one unit is `η`, asked with the values `treat` and `control` -/
def rlLinear (η : Rat) : TestEstimator Rat String Rat :=
  ⟨some ["v"], some [], fun t treat control => .ok (t.map (fun _ => [η * (treat.getD 1 - control.getD 0)])), fun _ => none⟩

/-- **C105 (refuted)** for a continuous treatment and a contrast other than one unit: the effect is that of the contrast but the
residual is not scaled, so an estimator with the true slope `3` scores `9` for the contrast of `2` against `0` and one with half
the slope scores `0`. -/
theorem C105_contrast_refuted : ∃ s : Scorer Rat,
    RLoss.fitCont (W := Nat) (fun _ _ => [1]) (fun _ w => 3 + 10 * (w : Rat)) (fun _ => [0]) none 1 1
        [(0, [0], 0), (0, [2], 6), (1, [0], 10), (1, [2], 16)] = .ok s ∧
      RLoss.score s (rlLinear 3) none none = .ok 0 ∧ RLoss.score s (rlLinear 3) (some 2) (some 0) = .ok 9 ∧
      RLoss.score s (rlLinear (3 / 2)) (some 2) (some 0) = .ok 0 :=
  ⟨⟨false, [[-1], [1], [-1], [1]], [-3, 3, -3, 3], [[0], [0], [0], [0]], none⟩, by decide +kernel, by decide +kernel, by decide +kernel,
    by decide +kernel⟩

/-- an estimator fitted with the covariates `names` whose estimated effect is the value of the covariate `"a"` -/
def rlNamed (names : List String) : TestEstimator Rat String Unit :=
  ⟨some names, some [], fun t _ _ => .ok (t.map (fun r => [(r.lookup "a").getD 0])), fun _ => none⟩

/-- **C105 (refuted)** for an estimator that lists the same covariates in another order: the columns of the scorer are handed on
by position, under the estimator's names, so the estimator with the true effect (the value of `a`) no longer scores zero. -/
theorem C105_order_refuted : ∃ s : Scorer Rat,
    RLoss.fitCont (W := List Rat) (fun _ _ => [1]) (fun _ w => w.headD 0) (fun w => w) none 1 1
        [([2, 5], [0], 0), ([2, 5], [2], 4), ([3, 7], [0], 0), ([3, 7], [2], 6)] = .ok s ∧
      RLoss.score s (rlNamed ["a", "b"]) none none = .ok 0 ∧ RLoss.score s (rlNamed ["b", "a"]) none none = .ok (25 / 2) :=
  ⟨⟨false, [[-1], [1], [-1], [1]], [-2, 2, -3, 3], [[2, 5], [2, 5], [3, 7], [3, 7]], none⟩, by decide +kernel, by decide +kernel,
    by decide +kernel⟩

/-- the hypotheses of `C105_ranking_continuous` hold for the data of `C105_contrast_refuted` -/
example : ∃ s : Scorer Rat, RLoss.fitCont (W := Nat) (fun _ _ => [1]) (fun _ w => 3 + 10 * (w : Rat)) (fun _ => [0]) none 1 1
        [(0, [0], 0), (0, [2], 6), (1, [0], 10), (1, [2], 16)] = .ok s ∧ RLoss.score s (rlLinear 3) none none = .ok 0 := by
  obtain ⟨s, hs, h⟩ := C105_ranking_continuous (N := String) (T := Rat) (W := Nat) (fitX := fun _ _ => [1]) (fitY := fun _ w => 3 + 10 * (w : Rat))
    (fun _ => [0]) (cf := 1) (rows := [(0, [0], 0), (0, [2], 6), (1, [0], 10), (1, [2], 16)]) (fun r => r.2.1.headD 0) (by decide +kernel)
    (fun _ => 3) (fun _ => 1) (fun w => 10 * (w : Rat)) (by decide +kernel) (by decide +kernel) (by decide +kernel)
  obtain ⟨loss, h1, h2, -, -⟩ := h ["v"] (by decide)
  refine ⟨s, hs, ?_⟩
  rw [h1 (rlLinear 3) none none (fun _ => 3) rfl rfl (by decide +kernel), h2]

/-- the hypotheses of `C105_ranking_discrete` hold for a concrete case with two arms -/
example : ∃ (enc : Encoder Nat) (s : Scorer Rat),
    RLoss.fitDisc (fun _ _ => [1 / 2, 1 / 2]) (fun _ _ => 1 / 2) (fun _ : Unit => [0]) none 1 id 1 [⟨(), [5], 0⟩, ⟨(), [6], 1⟩] = .ok (enc, s) ∧
      RLoss.score s (rlConst 1) none none = .ok 0 := by
  obtain ⟨enc, s, hs, k, hk, h⟩ := C105_ranking_discrete (V := Nat) (N := String) (T := Unit) (W := Unit) (K := Rat) id (fitX := fun _ _ => [1 / 2, 1 / 2])
    (fitY := fun _ _ => 1 / 2) (fun _ => [0]) (cf := 1) (d := 1) (by decide) (rows := [⟨(), [5], 0⟩, ⟨(), [6], 1⟩]) (by decide) (a := [6]) (b := [5])
    (by unfold Observed; decide) (by decide) (by decide) (fun v _ => if v = [6] then 1 else 0) (fun _ _ => 1 / 2) (by decide +kernel)
    (by decide +kernel) (by decide +kernel) (by decide +kernel) (by decide +kernel)
  have hk1 : k = 1 := by
    have e : RLoss.fitDisc (fun _ _ => [1 / 2, 1 / 2]) (fun _ _ => (1 / 2 : Rat)) (fun _ : Unit => [0]) none 1 id 1 [⟨(), [5], 0⟩, ⟨(), [6], 1⟩] =
        .ok ((⟨[[5, 6]], none⟩ : Encoder Nat), ⟨true, [[1 / 2, -1 / 2], [-1 / 2, 1 / 2]], [-1 / 2, 1 / 2], [[0], [0]], none⟩) := by decide +kernel
    rw [e] at hs
    cases hs
    have : transform id (⟨[[5, 6]], none⟩ : Encoder Nat) [6] = .ok 1 := by decide
    rw [this] at hk
    exact (Except.ok.inj hk).symm
  subst hk1
  obtain ⟨loss, h1, -, h3, -⟩ := h ["v"] (by decide)
  refine ⟨enc, s, hs, ?_⟩
  rw [h1 (rlConst 1) none none (fun _ => 1) rfl rfl rfl (by decide +kernel), (h3 (fun _ => 1)).2 (by intro r _; norm_num)]

end YL.Props
