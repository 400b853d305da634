import Verif.Model.CausalForest
import Verif.Props.Forest

/-!
# C117: `CausalForest`
-/

set_option linter.unusedSectionVars false

namespace YL.Spec
variable {K : Type} [Field K] {d : Nat}

/-- the levels other than the control, in their order -/
def otherLevels (c : Fin (d + 1)) : List (Fin (d + 1)) := (List.finRange (d + 1)).filter (fun k => decide (k ≠ c))

end YL.Spec

namespace YL.Props
open YL.Tree YL.Forest YL.CForest YL.Spec

section
variable {K : Type} [Field K] [LinearOrder K] [IsStrictOrderedRing K] {d n : Nat}

theorem otherLevels_eq (c : Fin (d + 1)) : otherLevels c = (List.finRange d).map c.succAbove := by
  have hperm : (otherLevels c).Perm ((List.finRange d).map c.succAbove) := by
    unfold otherLevels
    rw [List.perm_ext_iff_of_nodup ((List.nodup_finRange _).filter _)
      ((List.nodup_finRange _).map c.succAbove_right_injective)]
    intro k
    simp only [List.mem_filter, List.mem_finRange, true_and, decide_eq_true_eq, List.mem_map]
    constructor
    · intro h
      obtain ⟨j, hj⟩ := Fin.exists_succAbove_eq h
      exact ⟨j, hj⟩
    · rintro ⟨j, rfl⟩
      exact Fin.succAbove_ne c j
  refine List.Perm.eq_of_pairwise (le := (· ≤ ·)) (fun a b _ _ h1 h2 => le_antisymm h1 h2) ?_ ?_ hperm
  · exact ((List.pairwise_le_finRange (d + 1))).filter _
  · rw [List.pairwise_map]
    exact (List.pairwise_le_finRange d).imp (fun h => (Fin.strictMono_succAbove c).monotone h)

theorem controlColumn_ok {control : Option (Except String Nat)} {c : Fin (d + 1)}
    (h : controlColumn d control = .ok c) : (control = none ∧ c = 0) ∨ control = some (.ok c.val) := by
  unfold controlColumn at h
  cases control with
  | none => left; cases h; exact ⟨rfl, rfl⟩
  | some r =>
    right
    cases r with
    | error e => cases h
    | ok k =>
      by_cases hk : k < d + 1
      · simp only [hk, dif_pos] at h; cases h; rfl
      · simp only [hk] at h; cases h

/-- **C117.** The forest of a discrete treatment is fitted to: the transformed covariates, the residual of the outcome, and
the residuals of the indicators of all levels but the control, in the order of the levels; the control is the given level,
or the first one. -/
theorem C117_second_stage {E : Nat → GrfEnv K d} {g : GrfSettings K} {S : Settings} {dflt : Nat → Int}
    {draw : Nat → Nat → List (Fin n)} {transformer : (Nat → K) → Nat → K} {control : Option (Except String Nat)}
    {x xh : Fin n → Fin (d + 1) → K} {y yh : Fin n → K} {v : Fin n → Nat → K} {old : Option (List (Grown K n))}
    {f : Fitted K d n} (hf : CForest.fit E g S dflt draw transformer control x xh y yh v old = .ok f) :
    ∃ c : Fin (d + 1), ((control = none ∧ c = 0) ∨ control = some (.ok c.val)) ∧ ∀ i,
      (f.rows i).v = transformer (v i) ∧ (f.rows i).y = y i - yh i ∧
      List.ofFn (f.rows i).x = (otherLevels c).map (fun k => x i k - xh i k) := by
  unfold CForest.fit at hf
  cases hc : controlColumn d control with
  | error e => simp only [hc] at hf; cases hf
  | ok c =>
    simp only [hc] at hf
    obtain ⟨_, hr, _⟩ := C93_trees E g S dflt draw none (stageTwo transformer c x xh y yh v) 1 old hf
    refine ⟨c, controlColumn_ok hc, ?_⟩
    intro i
    rw [hr]
    refine ⟨rfl, rfl, ?_⟩
    rw [otherLevels_eq, List.map_map, List.ofFn_eq_map]
    rfl

/-- **C117.** Leaving out the control loses nothing: indicators and predicted probabilities of a row both sum to 1, so the
residual left out is minus the sum of the others. -/
theorem C117_nothing_lost (c : Fin (d + 1)) (x xh : Fin n → Fin (d + 1) → K) (i : Fin n) (hx : ∑ k, x i k = 1)
    (hxh : ∑ k, xh i k = 1) : CForest.residual x xh i c = - ∑ j, deleteColumn c (CForest.residual x xh i) j := by
  have h : ∑ k, CForest.residual x xh i k = 0 := by
    unfold CForest.residual
    rw [Finset.sum_sub_distrib, hx, hxh, sub_self]
  rw [Fin.sum_univ_succAbove _ c] at h
  exact eq_neg_of_add_eq_zero_left h

theorem contrast_outcome (c : Fin (d + 1)) (x xh : Fin n → Fin (d + 1) → K) (y yh : Fin n → K) (tau : Fin (d + 1) → K)
    (hx : ∀ i, ∑ k, x i k = 1) (hxh : ∀ i, ∑ k, xh i k = 1) (hy : ∀ i, y i - yh i = ∑ k, tau k * (x i k - xh i k)) (i : Fin n) :
    y i - yh i = 0 + ∑ j, (tau (c.succAbove j) - tau c) * deleteColumn c (CForest.residual x xh i) j := by
  rw [hy i, Fin.sum_univ_succAbove _ c, zero_add]
  have h0 := C117_nothing_lost c x xh i (hx i) (hxh i)
  unfold CForest.residual at h0
  rw [h0]
  simp only [sub_mul, Finset.sum_sub_distrib, ← Finset.mul_sum, deleteColumn, CForest.residual]
  ring

/-- **C117.** What the columns of the estimate stand for: if the outcome residual is the treatment residual times level
effects `tau`, then for all weights of the training rows the local regression the forest sets up is solved by the contrasts
`tau k - tau control` of the other levels, in their order. -/
theorem C117_contrasts (c : Fin (d + 1)) (transformer : (Nat → K) → Nat → K) (x xh : Fin n → Fin (d + 1) → K) (y yh : Fin n → K)
    (v : Fin n → Nat → K) (tau : Fin (d + 1) → K) (hx : ∀ i, ∑ k, x i k = 1) (hxh : ∀ i, ∑ k, xh i k = 1)
    (hy : ∀ i, y i - yh i = ∑ k, tau k * (x i k - xh i k)) {a : Fin n → K} (ha : ∑ i, a i = 1) :
    localCov a (fun i => (stageTwo transformer c x xh y yh v i).x) (fun i => (stageTwo transformer c x xh y yh v i).y) =
      (gradient 0 a (fun i => (stageTwo transformer c x xh y yh v i).x)).mulVec (fun j => tau (c.succAbove j) - tau c) ∧
    List.ofFn (fun j => tau (c.succAbove j) - tau c) = (otherLevels c).map (fun k => tau k - tau c) := by
  constructor
  · have e : (fun i => (stageTwo transformer c x xh y yh v i).y) = fun i => (0 : K) +
        ∑ j, (tau (c.succAbove j) - tau c) * (stageTwo transformer c x xh y yh v i).x j := by
      funext i
      exact contrast_outcome c x xh y yh tau hx hxh hy i
    rw [e]
    exact C92_linear_outcome ha _ 0 _
  · rw [otherLevels_eq, List.map_map, List.ofFn_eq_map]
    rfl

/-- **C117.** With exact nuisance models the estimate for a query all of whose weight lies evenly on `m` training rows is
`1 - 1/m` times the ridge solution for the contrasts: the forest shrinks the true effects. -/
theorem C117_shrinks_refuted (inv : Matrix (Fin d) (Fin d) K → Matrix (Fin d) (Fin d) K) (eps : K) (c : Fin (d + 1))
    (transformer : (Nat → K) → Nat → K) (x xh : Fin n → Fin (d + 1) → K) (y yh : Fin n → K) (v : Fin n → Nat → K)
    (tau : Fin (d + 1) → K) (hx : ∀ i, ∑ k, x i k = 1) (hxh : ∀ i, ∑ k, xh i k = 1)
    (hy : ∀ i, y i - yh i = ∑ k, tau k * (x i k - xh i k)) {R : Finset (Fin n)} (hR : R.Nonempty) :
    let a : Fin n → K := fun i => if i ∈ R then 1 / (R.card : K) else 0
    let X := fun i => (stageTwo transformer c x xh y yh v i).x
    effectOf inv eps a X (fun i => (stageTwo transformer c x xh y yh v i).y) = fun k => (1 - 1 / (R.card : K)) *
      ((inv (gradient eps a X)).mulVec ((gradient 0 a X).mulVec (fun j => tau (c.succAbove j) - tau c))) k := by
  intro a X
  have ha : ∑ i, a i = 1 := by
    have hc : (R.card : K) ≠ 0 := by exact_mod_cast (Finset.card_pos.mpr hR).ne'
    simp only [a, Finset.sum_ite_mem, Finset.univ_inter, Finset.sum_const, nsmul_eq_mul]
    field_simp
  have h1 := C92_attenuated_refuted inv eps hR X (fun i => (stageTwo transformer c x xh y yh v i).y)
  have h2 := (C117_contrasts c transformer x xh y yh v tau hx hxh hy ha).1
  simp only at h1
  rw [h1, h2]

/-- **C117.** For continuous treatments all residuals are kept. -/
theorem C117_continuous {E : Nat → GrfEnv K d} {g : GrfSettings K} {S : Settings} {dflt : Nat → Int}
    {draw : Nat → Nat → List (Fin n)} {transformer : (Nat → K) → Nat → K} {x xh : Fin n → Fin d → K} {y yh : Fin n → K}
    {v : Fin n → Nat → K} {old : Option (List (Grown K n))} {f : Fitted K d n}
    (hf : fitContinuous E g S dflt draw transformer x xh y yh v old = .ok f) (i : Fin n) :
    (f.rows i).v = transformer (v i) ∧ (f.rows i).y = y i - yh i ∧ ∀ k, (f.rows i).x k = x i k - xh i k := by
  obtain ⟨_, hr, _⟩ := C93_trees E g S dflt draw none _ 1 old hf
  rw [hr]
  exact ⟨rfl, rfl, fun _ => rfl⟩

/-- **C117, refuted for covariate transformers.** `estimate()` uses the transformed covariates of the training rows,
`estimate(data)` the covariates of the data as they are: for the training rows themselves the two are the estimates of
different points. -/
theorem C117_transformer_refuted {E : Nat → GrfEnv K d} {g : GrfSettings K} {S : Settings} {dflt : Nat → Int}
    {draw : Nat → Nat → List (Fin n)} {transformer : (Nat → K) → Nat → K} {control : Option (Except String Nat)}
    {x xh : Fin n → Fin (d + 1) → K} {y yh : Fin n → K} {v : Fin n → Nat → K} {old : Option (List (Grown K n))}
    {f : Fitted K d n} (hf : CForest.fit E g S dflt draw transformer control x xh y yh v old = .ok f)
    (inv : Matrix (Fin d) (Fin d) K → Matrix (Fin d) (Fin d) K) (eps : K) {batch : Nat} (hb : 0 < batch) (hn : 0 < n) :
    CForest.estimate inv eps batch f none =
      CForest.estimate inv eps batch f (some ((List.finRange n).map (fun i => transformer (v i)))) ∧
    CForest.estimate inv eps batch f (some ((List.finRange n).map v)) = .ok ((List.finRange n).map (fun i =>
      effectOf inv eps (alpha f.trees (v i)) (fun i => (f.rows i).x) (fun i => (f.rows i).y))) := by
  obtain ⟨c, _, hrow⟩ := C117_second_stage hf
  have hout : f.outputs ≤ 1 := by
    unfold CForest.fit at hf
    cases hc : controlColumn d control with
    | error e => simp only [hc] at hf; cases hf
    | ok c =>
      simp only [hc] at hf
      unfold fitForest at hf
      cases h1 : subSampleNum dflt n S.subSample with
      | error e => simp only [h1] at hf; cases hf
      | ok m =>
        simp only [h1] at hf
        cases h2 : honestNum m.toNat S.honest with
        | error e => simp only [h2] at hf; cases hf
        | ok h =>
          simp only [h2] at hf
          by_cases h3 : S.nEstimators ≤ 0
          · simp only [h3, if_true] at hf; cases hf
          · simp only [h3, if_false] at hf
            by_cases h4 : S.nEstimators < ((kept S old).length : Int)
            · simp only [h4, if_true] at hf; cases hf
            · simp only [h4, if_false] at hf
              cases h5 : draws draw m 0 (S.nEstimators - (kept S old).length).toNat with
              | error e => simp only [h5] at hf; cases hf
              | ok ss => simp only [h5] at hf; cases hf; exact le_refl _
  constructor
  · unfold CForest.estimate
    rw [C93_default]
    congr 2
    apply List.map_congr_left
    intro i _
    exact (hrow i).1
  · unfold CForest.estimate
    rw [C93_rowwise inv eps hb f hout _ (by
      intro h
      have := congrArg List.length h
      simp at this
      omega), List.map_map]
    rfl

end

/-! ### a concrete forest -/

/-- four rows, levels 0 and 1, probabilities 1/2, level effects 0 and 4 for the small covariates, 0 and -4 for the large -/
def cfX (i : Fin 4) (k : Fin 2) : ℚ := if i.val % 2 = k.val then 1 else 0

/-- the outcome residual is the effect times the treatment residual -/
def cfY (i : Fin 4) : ℚ := (if i.val < 2 then 4 else -4) * (cfX i 1 - 1 / 2)

/-- one tree on all rows, the covariate transformer changes the sign -/
def cfFit (control : Option (Except String Nat)) (transformer : (Nat → ℚ) → Nat → ℚ) : Except String (Fitted ℚ 1 4) :=
  CForest.fit (fun _ => stdEnv) (leaves (some 2)) ⟨1, false, .count 4, .absent⟩ (fun n => n) (fun _ _ => List.finRange 4)
    transformer control cfX (fun _ _ => 1 / 2) cfY (fun _ => 0) (fun i _ => ((i.val / 2 : Nat) : ℚ)) none

/-- the estimates of a fit -/
def cfEstimate (f : Except String (Fitted ℚ 1 4)) (data : Option (List (Nat → ℚ))) : Option (List ℚ) :=
  match f with
  | .error _ => none
  | .ok f => match CForest.estimate inv1 (1 / 100000) 100 f data with
    | .error _ => none
    | .ok l => some (l.map (fun t => t 0))

example : (∀ i, ∑ k, cfX i k = 1) ∧ (∑ k : Fin 2, (1 / 2 : ℚ)) = 1 := by decide +kernel

set_option maxRecDepth 4000 in
/-- with level 0 as control the effects are about 2 and -2: half of 4 and -4, as there are two rows per leaf; with level 1 as
control the signs change -/
example : cfEstimate (cfFit none id) (some [fun _ => 0, fun _ => 1]) = some [200000 / 100004, -200000 / 100004] ∧
    cfEstimate (cfFit (some (.ok 1)) id) (some [fun _ => 0, fun _ => 1]) = some [-200000 / 100004, 200000 / 100004] ∧
    cfEstimate (cfFit (some (.ok 2)) id) (some [fun _ => 0, fun _ => 1]) = none := by decide +kernel

/-- **C117, refuted.** A covariate transformer that changes the sign: `estimate()` and `estimate` of the training data
disagree - the latter gives everybody the effect of the rows with covariate 0. -/
theorem C117_transformer_example_refuted :
    cfEstimate (cfFit none (fun v j => - v j)) none =
      some [200000 / 100004, 200000 / 100004, -200000 / 100004, -200000 / 100004] ∧
    cfEstimate (cfFit none (fun v j => - v j)) (some ((List.finRange 4).map (fun i _ => ((i.val / 2 : Nat) : ℚ)))) =
      some [200000 / 100004, 200000 / 100004, 200000 / 100004, 200000 / 100004] := by decide +kernel

end YL.Props
