import Verif.Model.Propensity
import Verif.Props.CrossFit
import Verif.Props.MetaLearner
import Verif.Props.Bound
import Mathlib.Algebra.Order.Ring.Rat
import Mathlib.Algebra.Field.Rat
import Mathlib.Algebra.Order.Field.Rat
import Mathlib.Algebra.BigOperators.Group.List.Basic

/-!
# C162: which arm a propensity of the first stage belongs to
-/

set_option linter.unusedSectionVars false

namespace YL.Spec

variable {W : Type}

/-- every arm occurs among the rows -/
def AllArms (k : Nat) (rows : List (W × Nat)) : Prop := ∀ a < k, ∃ r ∈ rows, r.2 = a

/-- a single arm occurs among the rows -/
def OneArm (rows : List (W × Nat)) (a : Nat) : Prop := rows ≠ [] ∧ ∀ r ∈ rows, r.2 = a

/-- the rows outside group `c` -/
def outside (g : Nat → Nat) (c : Nat) (data : List (W × Nat)) : List (W × Nat) :=
  ((List.range data.length).filter (fun j => g j ≠ c)).filterMap (fun j => data[j]?)

end YL.Spec

namespace YL.Props

open YL YL.Spec YL.CF YL.Meta YL.Prop

variable {W K : Type}

/-- the folds as groups of consecutive rows -/
theorem kfold_groups {n k : Nat} (h1 : 1 < k) (h2 : k ≤ n) : ∃ g : Nat → Nat, (∀ i < n, g i < k) ∧ (∀ i j, i ≤ j → j < n → g i ≤ g j) ∧
    (∀ c < k, ∃ i < n, g i = c) ∧
    (∀ c < k, n / k ≤ ((List.range n).filter (fun j => g j = c)).length ∧ ((List.range n).filter (fun j => g j = c)).length ≤ n / k + 1) ∧
    kfold n k = .ok ((List.range k).map (fun c => ((List.range n).filter (fun j => g j ≠ c), (List.range n).filter (fun j => g j = c)))) := by
  have hk : 0 < k := by omega
  obtain ⟨tests, htests⟩ : ∃ tests, tests = foldTests 0 (sizes n k) := ⟨_, rfl⟩
  have hflat : tests.flatten = List.range n := by
    rw [htests, foldTests_flatten, sizes_sum hk, List.range_eq_range']
  have hnod : tests.flatten.Nodup := by rw [hflat]; exact List.nodup_range
  have hlen : tests.length = k := by rw [htests, foldTests_length, sizes_length]
  obtain ⟨g, hg⟩ : ∃ g : Nat → Nat, g = fun i => tests.findIdx (fun t => decide (i ∈ t)) := ⟨_, rfl⟩
  have hlt : ∀ i < n, g i < k := by
    intro i hi
    have : i ∈ tests.flatten := by rw [hflat]; simpa using hi
    obtain ⟨t, ht, hit⟩ := List.mem_flatten.1 this
    rw [← hlen, hg]
    exact List.findIdx_lt_length_of_exists ⟨t, ht, by simpa using hit⟩
  have hmem : ∀ i (hi : i < n), i ∈ tests[g i]'(by rw [hlen]; exact hlt i hi) := by
    intro i hi
    have := List.findIdx_getElem (xs := tests) (p := fun t => decide (i ∈ t)) (w := by rw [hlen]; have := hlt i hi; rw [hg] at this; exact this)
    subst hg
    simpa using this
  have hdis : ∀ c c' (hc : c < tests.length) (hc' : c' < tests.length) i, i ∈ tests[c] → i ∈ tests[c'] → c = c' := by
    intro c c' hc hc' i hi hi'
    by_contra hne
    have hp := (List.nodup_flatten.1 hnod).2
    rw [List.pairwise_iff_getElem] at hp
    rcases Nat.lt_or_gt_of_ne hne with h | h
    · exact hp c c' hc hc' h hi hi'
    · exact hp c' c hc' hc h hi' hi
  have huniq : ∀ i (hi : i < n) c (hc : c < tests.length), i ∈ tests[c] ↔ g i = c := by
    intro i hi c hc
    constructor
    · intro h
      exact hdis _ _ (by rw [hlen]; exact hlt i hi) hc i (hmem i hi) h
    · rintro rfl
      exact hmem i hi
  have hin : ∀ c (hc : c < tests.length), ∀ i ∈ tests[c], i < n := fun c hc i hi => by
    have : i ∈ tests.flatten := List.mem_flatten.2 ⟨_, List.getElem_mem hc, hi⟩
    rw [hflat] at this
    simpa using this
  have hsort : tests.flatten.Pairwise (· < ·) := by rw [hflat]; exact List.pairwise_lt_range
  have hblock : ∀ c (hc : c < tests.length), tests[c] = (List.range n).filter (fun j => g j = c) := by
    intro c hc
    apply eq_of_increasing ((List.pairwise_flatten.1 hsort).1 _ (List.getElem_mem hc)) (List.pairwise_lt_range.filter _)
    intro i
    simp only [List.mem_filter, List.mem_range, decide_eq_true_eq]
    constructor
    · intro hi
      exact ⟨hin c hc i hi, (huniq i (hin c hc i hi) c hc).1 hi⟩
    · rintro ⟨hi, hgi⟩
      exact (huniq i hi c hc).2 hgi
  have hsz : ∀ c (hc : c < tests.length), (tests[c]).length ∈ sizes n k := fun c hc => by
    have : (tests[c]).length ∈ tests.map List.length := List.mem_map.2 ⟨_, List.getElem_mem hc, rfl⟩
    have e : tests.map List.length = sizes n k := by rw [htests, foldTests_map_length]
    rwa [e] at this
  refine ⟨g, hlt, ?_, ?_, ?_, ?_⟩
  · intro i j hij hj
    by_contra hlt'
    have hlt' : g j < g i := by omega
    have hgi : g i < tests.length := by rw [hlen]; exact hlt i (by omega)
    have hgj : g j < tests.length := by rw [hlen]; exact hlt j hj
    have hp := (List.pairwise_flatten.1 hsort).2
    rw [List.pairwise_iff_getElem] at hp
    have := hp (g j) (g i) hgj hgi hlt' j (hmem j hj) i (hmem i (by omega))
    omega
  · intro c hc
    have hc' : c < tests.length := by rw [hlen]; exact hc
    have hpos := sizes_pos hk h2 (hsz c hc')
    obtain ⟨i, hi⟩ := List.exists_mem_of_length_pos hpos
    exact ⟨i, hin c hc' i hi, (huniq i (hin c hc' i hi) c hc').1 hi⟩
  · intro c hc
    have hc' : c < tests.length := by rw [hlen]; exact hc
    rw [← hblock c hc']
    rcases mem_sizes (hsz c hc') with h | h <;> rw [h] <;> omega
  · rw [kfold_ok h1 h2, ← htests]
    congr 1
    apply List.ext_getElem
    · simp [hlen]
    · intro c hc1 hc2
      simp only [List.length_map] at hc1
      simp only [List.getElem_map, List.getElem_range]
      rw [← hblock c hc1]
      congr 1
      apply List.filter_congr
      intro i hi
      have := huniq i (by simpa using hi) c hc1
      simp only [this, ne_eq]

theorem uniq_range {k : Nat} {rows : List (W × Nat)} (hk : ∀ r ∈ rows, r.2 < k) (h : AllArms k rows) :
    uniq (rows.map (·.2)) = List.range k := by
  apply eq_of_increasing (uniq_sorted _) List.pairwise_lt_range
  intro a
  rw [mem_uniq, List.mem_map, List.mem_range]
  constructor
  · rintro ⟨r, hr, rfl⟩; exact hk r hr
  · intro ha; obtain ⟨r, hr, e⟩ := h a ha; exact ⟨r, hr, e⟩

theorem uniq_one {rows : List (W × Nat)} {a : Nat} (h : OneArm rows a) : uniq (rows.map (·.2)) = [a] := by
  apply eq_of_increasing (uniq_sorted _) (List.pairwise_singleton _ _)
  intro b
  rw [mem_uniq, List.mem_map, List.mem_singleton]
  constructor
  · rintro ⟨r, hr, rfl⟩; exact h.2 r hr
  · rintro rfl
    obtain ⟨r, hr⟩ := List.exists_mem_of_ne_nil _ h.1
    exact ⟨r, hr, h.2 r hr⟩

theorem fits_iff {k : Nat} {rows : List (W × Nat)} (hk : ∀ r ∈ rows, r.2 < k) :
    fits k rows = true ↔ AllArms k rows ∨ ∃ a, OneArm rows a := by
  unfold fits
  simp only [Bool.or_eq_true, decide_eq_true_eq]
  constructor
  · rintro (h | h)
    · left
      have hsub : uniq (rows.map (·.2)) ⊆ List.range k := fun a ha => by
        rw [mem_uniq, List.mem_map] at ha
        obtain ⟨r, hr, rfl⟩ := ha
        exact List.mem_range.2 (hk r hr)
      have hnd : (uniq (rows.map (·.2))).Nodup := (uniq_sorted _).imp (fun h => h.ne)
      have hperm : (uniq (rows.map (·.2))).Perm (List.range k) :=
        (List.subperm_of_subset hnd hsub).perm_of_length_le (by rw [h]; simp)
      intro a ha
      have := hperm.mem_iff.2 (List.mem_range.2 ha)
      rw [mem_uniq, List.mem_map] at this
      obtain ⟨r, hr, e⟩ := this
      exact ⟨r, hr, e⟩
    · right
      obtain ⟨a, ha⟩ := List.length_eq_one_iff.1 h
      refine ⟨a, ?_, fun r hr => ?_⟩
      · rintro rfl
        simp [uniq] at ha
      · have : r.2 ∈ uniq (rows.map (·.2)) := by rw [mem_uniq]; exact List.mem_map.2 ⟨r, hr, rfl⟩
        rw [ha] at this
        simpa using this
  · rintro (h | ⟨a, h⟩)
    · left; rw [uniq_range hk h]; simp
    · right; rw [uniq_one h]; rfl

/-- the predictor a fold stands for -/
def foldFit (clf : List (W × Nat) → W → Nat → K) (k : Nat) (T : List (W × Nat)) (w : W) : List K :=
  ((widen k (proba clf T w)).toOption).getD []

theorem loop_eq (clf : List (W × Nat) → W → Nat → K) (k : Nat) (data : List (W × Nat)) (folds : List (List Nat × List Nat))
    (paras : Nat → Option (List K)) :
    YL.Prop.loop clf k data folds paras =
      if ∀ f ∈ folds, fits k (pick data f.1) = true then .ok (folds.foldl (foldStep (foldFit clf k) data) paras) else .error .value := by
  induction folds generalizing paras with
  | nil => simp [YL.Prop.loop]
  | cons f folds ih =>
    unfold YL.Prop.loop
    by_cases hf : fits k (pick data f.1) = true
    · rw [if_pos hf, ih]
      simp only [List.mem_cons, forall_eq_or_imp, hf, true_and, List.foldl_cons]
      rfl
    · rw [if_neg hf]
      simp only [List.mem_cons, forall_eq_or_imp, hf, false_and, if_false]
      simp

theorem outcomeLoop_eq (data : List (W × Nat)) (folds : List (List Nat × List Nat)) :
    outcomeLoop data folds = if ∀ f ∈ folds, f.2.length = 1 ∧ (uniq ((pick data f.1).map (·.2))).length = 1 then .ok () else .error .value := by
  induction folds with
  | nil => simp [outcomeLoop]
  | cons f folds ih =>
    unfold outcomeLoop outcomeFold
    by_cases hf : f.2.length = 1 ∧ (uniq ((pick data f.1).map (·.2))).length = 1
    · rw [if_pos hf]
      dsimp only
      rw [ih]
      simp only [List.mem_cons, forall_eq_or_imp, hf, true_and, and_self]
    · rw [if_neg hf]
      rw [if_neg]
      intro h
      exact hf (h f (by simp))

theorem mem_outside {g : Nat → Nat} {c : Nat} {data : List (W × Nat)} {r : W × Nat} :
    r ∈ outside g c data ↔ ∃ j < data.length, g j ≠ c ∧ data[j]? = some r := by
  unfold outside
  simp only [List.mem_filterMap, List.mem_filter, List.mem_range, decide_eq_true_eq]
  constructor
  · rintro ⟨j, ⟨h1, h2⟩, h3⟩; exact ⟨j, h1, h2, h3⟩
  · rintro ⟨j, h1, h2, h3⟩; exact ⟨j, ⟨h1, h2⟩, h3⟩

/-- **C162**: with `2 ≤ cf_fold ≤ n` the rows fall into `cf_fold` groups of consecutive rows. If every arm occurs outside every group, the
first stage succeeds and column `a` of row `i` is the probability of arm `a` predicted by the classifier trained outside the row's
group. In general it succeeds exactly if outside each group all arms or only one arm occur, and raises `ValueError` otherwise; where only
one arm occurs outside the group of a row, its probability stands in all columns of the row. -/
theorem C162_propensities (clf : List (W × Nat) → W → Nat → K) {k cf : Nat} {data : List (W × Nat)} (h1 : 1 < cf) (h2 : cf ≤ data.length)
    (hk : ∀ r ∈ data, r.2 < k) :
    ∃ g : Nat → Nat, (∀ i < data.length, g i < cf) ∧ (∀ i j, i ≤ j → j < data.length → g i ≤ g j) ∧
      (∀ c < cf, data.length / cf ≤ ((List.range data.length).filter (fun j => g j = c)).length ∧
        ((List.range data.length).filter (fun j => g j = c)).length ≤ data.length / cf + 1) ∧
      ((∃ c < cf, ¬ AllArms k (outside g c data) ∧ ∀ a, ¬ OneArm (outside g c data) a) → crossProba clf k cf data = .error .value) ∧
      ((∀ c < cf, AllArms k (outside g c data) ∨ ∃ a, OneArm (outside g c data) a) → ∃ preds, crossProba clf k cf data = .ok preds ∧
        preds.length = data.length ∧ ∀ i (hi : i < data.length),
          (AllArms k (outside g (g i) data) → preds[i]? = some (some ((List.range k).map (clf (outside g (g i) data) data[i].1)))) ∧
          (∀ a, OneArm (outside g (g i) data) a → preds[i]? = some (some (List.replicate k (clf (outside g (g i) data) data[i].1 a))))) := by
  obtain ⟨g, hlt, hmono, -, hsize, hfold⟩ := kfold_groups h1 h2
  have hout : ∀ c, pick data ((List.range data.length).filter (fun j => g j ≠ c)) = outside g c data := fun c => rfl
  have hko : ∀ c, ∀ r ∈ outside g c data, r.2 < k := fun c r hr => by
    obtain ⟨j, -, -, hj⟩ := mem_outside.1 hr
    exact hk r (List.mem_of_getElem? hj)
  refine ⟨g, hlt, hmono, hsize, ?_, ?_⟩
  · rintro ⟨c, hc, hno, hno'⟩
    unfold crossProba
    rw [if_pos h1, hfold]
    dsimp only
    rw [loop_eq, if_neg]
    intro h
    have := h _ (List.mem_map.2 ⟨c, List.mem_range.2 hc, rfl⟩)
    rw [hout, fits_iff (hko c)] at this
    rcases this with h | ⟨a, h⟩
    · exact hno h
    · exact hno' a h
  · intro hall
    have hfits : ∀ f ∈ (List.range cf).map (fun c => ((List.range data.length).filter (fun j => decide (g j ≠ c)),
        (List.range data.length).filter (fun j => decide (g j = c)))), fits k (pick data f.1) = true := by
      intro f hf
      obtain ⟨c, hc, rfl⟩ := List.mem_map.1 hf
      dsimp only
      rw [hout, fits_iff (hko c)]
      exact hall c (List.mem_range.1 hc)
    refine ⟨_, by
      unfold crossProba
      rw [if_pos h1, hfold]
      dsimp only
      rw [loop_eq, if_pos hfits], by simp, ?_⟩
    intro i hi
    have hnod : (((List.range cf).map (fun c => ((List.range data.length).filter (fun j => decide (g j ≠ c)),
        (List.range data.length).filter (fun j => decide (g j = c))))).map (·.2)).flatten.Nodup := by
      rw [List.map_map, List.nodup_flatten]
      constructor
      · intro l hl
        obtain ⟨c, -, rfl⟩ := List.mem_map.1 hl
        exact List.nodup_range.filter _
      · rw [List.pairwise_map]
        refine List.pairwise_lt_range.imp (fun {c c'} hcc => ?_)
        intro j hj hj'
        simp only [Function.comp, List.mem_filter, decide_eq_true_eq] at hj hj'
        omega
    have key := (foldl_foldStep (foldFit clf k) data _ (fun _ => none) i hnod).1 _
      (List.mem_map.2 ⟨g i, List.mem_range.2 (hlt i hi), rfl⟩) (by simpa using hi)
    dsimp only at key
    rw [hout, List.getElem?_eq_getElem hi, Option.map_some] at key
    rw [List.getElem?_map, List.getElem?_range hi, Option.map_some, key]
    constructor
    · intro hA
      have : proba clf (outside g (g i) data) data[i].1 = (List.range k).map (clf (outside g (g i) data) data[i].1) := by
        unfold proba; rw [uniq_range (hko _) hA]
      unfold foldFit
      rw [this]
      unfold widen
      rw [if_pos (by simp)]
      rfl
    · intro a hA
      have : proba clf (outside g (g i) data) data[i].1 = [clf (outside g (g i) data) data[i].1 a] := by
        unfold proba; rw [uniq_one hA]; rfl
      unfold foldFit
      rw [this]
      unfold widen
      by_cases h1k : k = 1
      · subst h1k
        rfl
      · rw [if_neg (by simp only [List.length_singleton]; omega)]
        rfl

/-- two arms in turns, three folds of two rows: every arm occurs outside every group -/
example : crossProba (fun T (w : ℚ) a => w + a + T.length) 2 3 [(1, 0), (2, 1), (3, 0), (4, 1), (5, 0), (6, 1)] =
    .ok [some [5, 6], some [6, 7], some [7, 8], some [8, 9], some [9, 10], some [10, 11]] := by decide +kernel

/-- **C162** (no folds): without folds all rows train the one classifier; it succeeds exactly if every arm has a row, and then column `a`
belongs to arm `a`. -/
theorem C162_no_folds (clf : List (W × Nat) → W → Nat → K) {k cf : Nat} {data : List (W × Nat)} (h1 : cf ≤ 1) (hk : ∀ r ∈ data, r.2 < k) :
    (AllArms k data → crossProba clf k cf data = .ok (data.map (fun d => some ((List.range k).map (clf data d.1))))) ∧
    (¬ AllArms k data → crossProba clf k cf data = .error .value) := by
  unfold crossProba
  rw [if_neg (by omega)]
  constructor
  · intro h
    rw [uniq_range hk h, if_pos (by simp)]
    unfold proba
    rw [uniq_range hk h]
  · intro h
    rw [if_neg]
    intro hl
    have hsub : uniq (data.map (·.2)) ⊆ List.range k := fun a ha => by
      rw [mem_uniq, List.mem_map] at ha
      obtain ⟨r, hr, rfl⟩ := ha
      exact List.mem_range.2 (hk r hr)
    have hnd : (uniq (data.map (·.2))).Nodup := (uniq_sorted _).imp (fun h => h.ne)
    have hperm : (uniq (data.map (·.2))).Perm (List.range k) :=
      (List.subperm_of_subset hnd hsub).perm_of_length_le (by rw [hl]; simp)
    apply h
    intro a ha
    have := hperm.mem_iff.2 (List.mem_range.2 ha)
    rw [mem_uniq, List.mem_map] at this
    obtain ⟨r, hr, e⟩ := this
    exact ⟨r, hr, e⟩

/-- data sorted by treatment: `m` control rows, then `m` treated rows -/
def sortedRows (m : Nat) (f : Nat → W) : List (W × Nat) := (List.range (2 * m)).map (fun i => (f i, if i < m then 0 else 1))

/-- What does not hold: the folds are blocks of consecutive rows. For data sorted by a binary treatment and `cf_fold=2` every classifier
is trained on one arm only; for every classifier whose probabilities sum to 1 the first stage says, without error, that both arms have
probability 1 for every row. -/
theorem C162_sorted_refuted [Field K] (clf : List (W × Nat) → W → Nat → K) (hsum : ∀ T w, T ≠ [] → (proba clf T w).sum = 1)
    (m : Nat) (hm : 1 ≤ m) (f : Nat → W) :
    crossProba clf 2 2 (sortedRows m f) = .ok (List.replicate (2 * m) (some [1, 1])) := by
  have hlen : (sortedRows m f).length = 2 * m := by simp [sortedRows]
  have hget : ∀ j, j < 2 * m → (sortedRows m f)[j]? = some (f j, if j < m then 0 else 1) := fun j hj => by
    unfold sortedRows
    rw [List.getElem?_map, List.getElem?_range hj]
    rfl
  obtain ⟨g, hlt, hmono, hsize, -, hok⟩ := C162_propensities clf (k := 2) (cf := 2) (data := sortedRows m f) (by omega) (by omega)
    (fun r hr => by
      unfold sortedRows at hr
      obtain ⟨i, -, rfl⟩ := List.mem_map.1 hr
      dsimp only
      split <;> omega)
  rw [hlen] at hlt hmono hsize
  have hdiv : 2 * m / 2 = m := by omega
  rw [hdiv] at hsize
  have hsplit : ((List.range (2 * m)).filter (fun j => g j = 0)).length + ((List.range (2 * m)).filter (fun j => g j = 1)).length = 2 * m := by
    have e : (List.range (2 * m)).filter (fun j => decide (g j = 1)) = (List.range (2 * m)).filter (fun j => !decide (g j = 0)) := by
      apply List.filter_congr
      intro j hj
      have := hlt j (by simpa using hj)
      by_cases h0 : g j = 0
      · simp [h0]
      · have : g j = 1 := by omega
        simp [this]
    rw [e, ← List.length_append, (List.filter_append_perm _ _).length_eq, List.length_range]
  have hc0 : ((List.range (2 * m)).filter (fun j => g j = 0)).length = m := by
    have h0 := (hsize 0 (by omega)).1
    have h1 := (hsize 1 (by omega)).1
    omega
  have hg : ∀ i < 2 * m, (g i = 0 ↔ i < m) := by
    intro i hi
    constructor
    · intro h0
      by_contra hge
      have hsub : List.range (i + 1) ⊆ (List.range (2 * m)).filter (fun j => g j = 0) := fun j hj => by
        have hj' : j < i + 1 := by simpa using hj
        have := hmono j i (by omega) hi
        simp only [List.mem_filter, List.mem_range, decide_eq_true_eq]
        omega
      have := (List.subperm_of_subset List.nodup_range hsub).length_le
      rw [hc0, List.length_range] at this
      omega
    · intro hlt'
      by_contra h0
      have hsub : (List.range (2 * m)).filter (fun j => g j = 0) ⊆ List.range i := fun j hj => by
        simp only [List.mem_filter, List.mem_range, decide_eq_true_eq] at hj
        by_contra hji
        have := hmono i j (by simpa using hji) hj.1
        omega
      have := (List.subperm_of_subset (List.nodup_range.filter _) hsub).length_le
      rw [hc0, List.length_range] at this
      omega
  have hone : ∀ c < 2, ∃ a, OneArm (outside g c (sortedRows m f)) a := by
    intro c hc
    refine ⟨1 - c, ?_, ?_⟩
    · have : ∃ j < 2 * m, g j ≠ c := by
        rcases Nat.lt_or_ge c 1 with h | h
        · refine ⟨m, by omega, ?_⟩
          have := (hg m (by omega)).not.2 (by omega)
          omega
        · refine ⟨0, by omega, ?_⟩
          have := (hg 0 (by omega)).2 (by omega)
          omega
      obtain ⟨j, hj, hjc⟩ := this
      exact List.ne_nil_of_mem (mem_outside.2 ⟨j, by rw [hlen]; exact hj, hjc, hget j hj⟩)
    · intro r hr
      obtain ⟨j, hj, hjc, e⟩ := mem_outside.1 hr
      rw [hlen] at hj
      rw [hget j hj] at e
      cases e
      dsimp only
      have := hlt j hj
      have h0 := hg j hj
      split
      · have := h0.2 (by assumption); omega
      · have : g j ≠ 0 := fun h => by have := h0.1 h; omega
        omega
  obtain ⟨preds, hp, hpl, hpi⟩ := hok (fun c hc => Or.inr (hone c hc))
  rw [hp]
  congr 1
  apply List.ext_getElem?
  intro i
  by_cases hi : i < 2 * m
  · obtain ⟨a, ha⟩ := hone (g i) (hlt i hi)
    rw [(hpi i (by rw [hlen]; exact hi)).2 a ha, List.getElem?_replicate, if_pos hi]
    have h1 := hsum (outside g (g i) (sortedRows m f)) ((sortedRows m f)[i]'(by rw [hlen]; exact hi)).1 ha.1
    unfold proba at h1
    rw [uniq_one ha] at h1
    simp only [List.map_cons, List.map_nil, List.sum_cons, List.sum_nil, add_zero] at h1
    rw [h1]
    rfl
  · rw [List.getElem?_eq_none (by omega), List.getElem?_eq_none (by simpa using hi)]

/-- a classifier whose probabilities sum to 1: the shares of the arms -/
def shareClf (T : List (Unit × Nat)) (_ : Unit) (a : Nat) : ℚ := ((T.filter (fun r => r.2 = a)).length : ℚ) / (T.length : ℚ)

example : crossProba shareClf 2 2 (sortedRows 3 (fun _ => ())) = .ok (List.replicate 6 (some [1, 1])) := by decide +kernel

/-- the hypothesis on the classifier is met by the one that finds all arms it knows equally probable -/
example : ∃ clf : List (W × Nat) → W → Nat → ℚ, ∀ T w, T ≠ [] → (proba clf T w).sum = 1 := by
  refine ⟨fun T _ _ => 1 / ((uniq (T.map (·.2))).length : ℚ), fun T w hT => ?_⟩
  obtain ⟨r, hr⟩ := List.exists_mem_of_ne_nil _ hT
  have h : r.2 ∈ uniq (T.map (·.2)) := by rw [mem_uniq]; exact List.mem_map.2 ⟨r, hr, rfl⟩
  have hpos : (0 : ℚ) < ((uniq (T.map (·.2))).length : ℚ) := Nat.cast_pos.2 (List.length_pos_of_mem h)
  unfold proba
  rw [List.map_const', List.sum_replicate, nsmul_eq_mul]
  exact mul_one_div_cancel hpos.ne'

/-- What does not hold: with three arms in sorted blocks the same call raises `ValueError`, although every arm has rows. -/
theorem C162_three_arms_refuted (clf : List (Unit × Nat) → Unit → Nat → K) :
    crossProba clf 3 3 [((), 0), ((), 0), ((), 1), ((), 1), ((), 2), ((), 2)] = .error .value := by
  unfold crossProba
  have : kfold 6 3 = .ok [([2, 3, 4, 5], [0, 1]), ([0, 1, 4, 5], [2, 3]), ([0, 1, 2, 3], [4, 5])] := by decide
  simp only [List.length_cons, List.length_nil, Nat.zero_add, Nat.reduceAdd, this]
  rfl

/-- **C162** (discrete outcome): `proba_output=True` together with `cf_fold ≥ 2` raises `ValueError` on all data with at least three rows
and two outcome classes. -/
theorem C162_proba_output_refuted {cf : Nat} {data : List (W × Nat)} (h1 : 1 < cf) (h3 : 3 ≤ data.length)
    (hcl : ∃ r ∈ data, ∃ s ∈ data, r.2 ≠ s.2) : crossOutcome cf data = .error .value := by
  unfold crossOutcome
  by_cases h2 : cf ≤ data.length
  swap
  · unfold kfold
    rw [if_pos (Or.inr (by omega))]
  obtain ⟨g, hlt, hmono, hne, -, hfold⟩ := kfold_groups h1 h2
  rw [hfold]
  dsimp only
  rw [outcomeLoop_eq, if_neg]
  intro hall
  obtain ⟨r, hr, s, hs, hrs⟩ := hcl
  obtain ⟨i, hi, ei⟩ := List.getElem_of_mem hr
  obtain ⟨j, hj, ej⟩ := List.getElem_of_mem hs
  have hij : i ≠ j := by rintro rfl; rw [ei] at ej; exact hrs (by rw [ej])
  obtain ⟨l, hl, hli, hlj⟩ : ∃ l < data.length, l ≠ i ∧ l ≠ j := by
    by_cases h0 : i ≠ 0 ∧ j ≠ 0
    · exact ⟨0, by omega, by omega, by omega⟩
    · by_cases h1' : i ≠ 1 ∧ j ≠ 1
      · exact ⟨1, by omega, by omega, by omega⟩
      · exact ⟨2, by omega, by omega, by omega⟩
  obtain ⟨hm, hc⟩ := hall _ (List.mem_map.2 ⟨g l, List.mem_range.2 (hlt l hl), rfl⟩)
  dsimp only at hm hc
  obtain ⟨x, hx⟩ := List.length_eq_one_iff.1 hm
  have hmem : ∀ t < data.length, g t = g l → t = x := fun t ht e => by
    have : t ∈ (List.range data.length).filter (fun j => decide (g j = g l)) := by simp [ht, e]
    rw [hx] at this
    simpa using this
  have hxl := hmem l hl rfl
  have hin : ∀ t (ht : t < data.length), t ≠ l → data[t] ∈ pick data ((List.range data.length).filter (fun j => decide (g j ≠ g l))) := by
    intro t ht htl
    have : g t ≠ g l := fun e => htl ((hmem t ht e).trans hxl.symm)
    exact List.mem_filterMap.2 ⟨t, by simp [ht, this], List.getElem?_eq_getElem ht⟩
  obtain ⟨a, ha⟩ := List.length_eq_one_iff.1 hc
  have hval : ∀ t (ht : t < data.length), t ≠ l → data[t].2 = a := fun t ht htl => by
    have h : data[t].2 ∈ uniq ((pick data ((List.range data.length).filter (fun j => decide (g j ≠ g l)))).map (·.2)) := by
      rw [mem_uniq]; exact List.mem_map.2 ⟨_, hin t ht htl, rfl⟩
    rw [ha] at h
    simpa using h
  apply hrs
  rw [← ei, ← ej, hval i hi (Ne.symm hli), hval j hj (Ne.symm hlj)]

example : crossOutcome 2 [((), 0), ((), 1), ((), 0), ((), 1)] = .error .value := by decide +kernel

end YL.Props
