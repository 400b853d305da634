import Verif.Props.DoublyRobust

/-!
# C40, C42: single treatments treated separately, and doubly robust effects with covariates
-/

set_option linter.unusedSectionVars false

namespace YL.Props

open YL Meta
open YL.Permuted (Arg)

variable {V W Z K : Type} [LinearOrder V]

theorem treatVectors_one (rows : List (Row V W K)) : treatVectors 1 rows = (uniq (Meta.column rows 0)).map (fun v => [v]) := by
  simp [treatVectors, cartesian]

theorem sepEncode_one {rows : List (Row V W K)} {v : V} (h : v ∈ uniq (Meta.column rows 0)) :
    sepEncode [uniq (Meta.column rows 0)] [v] = .ok (oneHot (treatVectors 1 rows).length (armIdx 1 rows [v])) := by
  have hm : [v] ∈ treatVectors 1 rows := by rw [treatVectors_one]; exact List.mem_map.2 ⟨v, h, rfl⟩
  have hg := armIdx_get hm
  have hp : position (uniq (Meta.column rows 0)) v = .ok (armIdx 1 rows [v]) := by
    apply position_of_get (uniq_nodup _)
    rw [treatVectors_one, List.getElem?_map] at hg
    cases hu : (uniq (Meta.column rows 0))[armIdx 1 rows [v]]? with
    | none => rw [hu] at hg; cases hg
    | some z => rw [hu] at hg; simp at hg; rw [hg]
  simp only [sepEncode, hp, List.append_nil]
  rw [treatVectors_one, List.length_map]

/-- **C40**, `combined_treatment=False` with a single treatment: if the observed values are `v₀ < v₁ < ...`, the result has
one entry for each of `v₁, v₂, ...`, and it is the estimate which the learner with `combined_treatment=True` gives for
`treat` this value and `control` the smallest value `v₀`. -/
theorem C40_separate_single [Field K] (lit : Nat → V) (fitM : List ((W × List Nat) × K) → (W × List Nat → K)) {rows : List (Row V W K)}
    (hne : 2 ≤ rows.length) (hd : ∀ r ∈ rows, r.x.length = 1) {v₀ : V} {vs : List V} (hv : uniq (Meta.column rows 0) = v₀ :: vs) (wv : W) :
    ∃ eff : V → K, sSeparate fitM 1 rows wv = .ok (vs.map eff) ∧
      ∀ v ∈ vs, ∃ s s', sFit fitM lit 1 none rows (some (.one v)) (some (.one v₀)) = .ok s ∧ sEstimate lit s wv = .ok (eff v, s') := by
  obtain ⟨enc, h1, he, -, -, -, -⟩ := fitEncoder_ok lit (allCodes := true) (le_refl 1) hd
  obtain ⟨hw, ht⟩ := transform_position lit (le_refl 1) h1
  have henc := encodeRows_eq lit (le_refl 1) hd h1
  have hzY : (rows.zip (rows.map (fun r => oneHot (treatVectors 1 rows).length (armIdx 1 rows r.x)))).map
      (fun p => ((p.1.wv, p.2), p.1.y)) = trainY 1 rows := by
    rw [zip_map_eq, List.map_map]
    rfl
  have htne : 2 ≤ (trainY 1 rows).length := by simpa [trainY] using hne
  have hobs : ∀ v ∈ uniq (Meta.column rows 0), Observed 1 rows [v] := by
    intro v h
    rw [← mem_treatVectors (le_refl 1), treatVectors_one]
    exact List.mem_map.2 ⟨v, h, rfl⟩
  have hidx : ∀ i v, (v₀ :: vs)[i]? = some v → armIdx 1 rows [v] = i := by
    intro i v h
    apply armIdx_of_get
    rw [treatVectors_one, hv, List.getElem?_map, h]
    rfl
  refine ⟨fun v => fitM (trainY 1 rows) (wv, oneHot (treatVectors 1 rows).length (armIdx 1 rows [v])) -
    fitM (trainY 1 rows) (wv, oneHot (treatVectors 1 rows).length (armIdx 1 rows [v₀])), ?_, ?_⟩
  · unfold sSeparate
    simp only [List.range_one, List.map_cons, List.map_nil]
    have hm : mapE (fun r : Row V W K => sepEncode [uniq (Meta.column rows 0)] r.x) rows =
        .ok (rows.map (fun r => oneHot (treatVectors 1 rows).length (armIdx 1 rows r.x))) := by
      have := mapE_map (fun r : Row V W K => sepEncode [uniq (Meta.column rows 0)] r.x) id
        (fun r => oneHot (treatVectors 1 rows).length (armIdx 1 rows r.x)) (l := rows) (fun r hr => by
          have hl := hd r hr
          match hx : r.x with
          | [] => rw [hx] at hl; simp at hl
          | _ :: _ :: _ => rw [hx] at hl; simp at hl
          | [v] =>
            apply sepEncode_one
            rw [mem_uniq]
            unfold Meta.column
            rw [List.mem_filterMap]
            exact ⟨r, hr, by simp [hx]⟩)
      simpa using this
    simp only [hm, hzY, fitBase_two htne, Except.ok.injEq]
    have hlen : (treatVectors 1 rows).length = vs.length + 1 := by rw [treatVectors_one, List.length_map, hv]; rfl
    have hlen' : ([(uniq (Meta.column rows 0)).length] : List Nat).sum = vs.length + 1 := by simp [hv]
    rw [hlen', hlen, Nat.add_sub_cancel, hidx 0 v₀ rfl]
    apply List.ext_getElem
    · simp
    · intro i h2 h3
      simp only [List.getElem_map, List.getElem_range]
      have hi : i < vs.length := by simpa using h3
      rw [hidx (i + 1) vs[i] (by rw [List.getElem?_cons_succ, List.getElem?_eq_getElem hi])]
  · intro v hvm
    have o1 := hobs v (by rw [hv]; exact List.mem_cons_of_mem _ hvm)
    have o0 := hobs v₀ (by rw [hv]; simp)
    refine ⟨⟨enc, fitM (trainY 1 rows), some (.one v), some (.one v₀)⟩,
      ⟨enc, fitM (trainY 1 rows), some (.one (lit (armIdx 1 rows [v]))), some (.one (lit (armIdx 1 rows [v₀])))⟩, ?_, ?_⟩
    · simp only [sFit, useEncoder, h1, henc, hzY, fitBase_two htne]
    · have t1 := (ht [v] o1).1
      have t0 := (ht [v₀] o0).1
      have l1 := transform_lt lit he t1
      have l0 := transform_lt lit he t0
      rw [hw] at l1 l0
      simp only [sEstimate, getTrCtrl, t1, t0, hw, l1, l0, and_self, if_true]

section dr
variable [Field K]

/-- **C42** with covariates, with or without folds: the effect reported for covariates `v` is the prediction of the final
model trained on exactly the pairs (covariates of a row, effect score of that row), the effect scores being those
reported by the estimator fitted without covariates. -/
theorem C42_covariates (lit : Nat → V) (eps : K) (fitX : List (W × Nat) → W → List K)
    (fitY : List ((W × List Nat) × K) → (W × List Nat → K)) (fitV : List (Z × K) → Z → K) (f : W → Z) {cf d : Nat} (hd1 : 1 ≤ d)
    {old : Option (Encoder V)} {rows : List (Row V W K)} {treat control : Option (Arg V)} {s : DR.Fitted V Z K}
    (h : DR.fit eps fitX fitY fitV (some f) cf lit d old rows treat control = .ok s) :
    ∃ s₀ : DR.Fitted V Z K, DR.fit eps fitX fitY fitV none cf lit d old rows treat control = .ok s₀ ∧
      ∀ effs, DR.estimateTrain s₀ = .ok effs → s.treat < s.xd →
        ∀ v, DR.estimateCov s v = .ok (fitV (List.zipWith (fun (r : Row V W K) (e : K) => (f r.wv, e)) rows effs) v) := by
  unfold DR.fit at h ⊢
  split at h
  · cases h
  · rename_i enc henc
    split at h
    · cases h
    · rename_i xs hxs
      split at h
      · cases h
      · rename_i xh yh hfs
        split at h
        · cases h
        · cases h
        · rename_i c t hc ht
          split at h
          · cases h
          · rename_i yp hyp
            cases h
            simp only [henc, hxs, hfs, hc, ht, hyp, Option.map_none]
            refine ⟨_, rfl, fun effs hE hlt v => ?_⟩
            unfold DR.estimateTrain at hE
            simp only at hE hlt
            unfold DR.estimateCov
            simp only [Option.map_some, List.getElem?_map, List.getElem?_range hlt]
            congr 2
            have hf := mapE_ok.1 hE
            clear hE hyp hfs hxs henc
            induction hf generalizing rows with
            | nil => simp
            | @cons row e yp effs h1 _ ih =>
              cases rows with
              | nil => simp
              | cons r rows =>
                simp only [List.zip_cons_cons, List.filterMap_cons, List.zipWith_cons_cons]
                cases hg : row[t]? with
                | none => rw [hg] at h1; cases h1
                | some k =>
                  rw [hg] at h1
                  cases h1
                  simp only [Option.map_some]
                  exact congrArg _ (ih)

end dr

/-! ### non-vacuity -/

/-- predicts the mean outcome of the training rows with the same features -/
def cellModelQ (l : List ((Nat × List Nat) × ℚ)) (q : Nat × List Nat) : ℚ :=
  let m := l.filter (fun p => p.1.2 = q.2)
  (m.map (·.2)).sum / ((m.length : Nat) : ℚ)

def sepRows : List (Row Nat Nat ℚ) := [⟨0, [3], 10⟩, ⟨1, [5], 4⟩, ⟨2, [4], 7⟩, ⟨3, [5], 2⟩]

example : uniq (Meta.column sepRows 0) = 3 :: [4, 5] ∧ sSeparate cellModelQ 1 sepRows 0 = .ok [7 - 10, 3 - 10] ∧
    ∀ r ∈ sepRows, r.x.length = 1 := by decide +kernel

example : ((DR.fit (1 / 100000) exactX exactY (fun l v => (l.map (fun p => if p.1 = v then p.2 else 0)).sum) (some id) 1 id 1 none
    drRows (some (.one 8)) (some (.one 7))).toOption.map (fun s => decide (s.treat < s.xd))) = some true := by
  decide +kernel

end YL.Props
