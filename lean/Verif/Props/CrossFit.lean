import Verif.Model.CrossFit
import Mathlib.Data.List.Nodup
import Mathlib.Data.List.Range
import Mathlib.Data.List.Flatten
import Mathlib.Tactic.Linarith
import Mathlib.Tactic.Ring

/-!
# C43, C45: cross fitting and job partition
-/

set_option linter.unusedSectionVars false

namespace YL.Props

open YL CF

theorem sizes_length (n k : Nat) : (sizes n k).length = k := by simp [sizes]

theorem sum_ite_lt (q r k : Nat) : ((List.range k).map (fun i => if i < r then q + 1 else q)).sum = k * q + min r k := by
  induction k with
  | zero => simp
  | succ k ih =>
    rw [List.range_succ, List.map_append, List.sum_append, ih]
    simp only [List.map_cons, List.map_nil, List.sum_cons, List.sum_nil, Nat.add_zero, Nat.succ_mul]
    split <;> omega

theorem sizes_sum {n k : Nat} (hk : 0 < k) : (sizes n k).sum = n := by
  unfold sizes
  rw [sum_ite_lt, min_eq_left (Nat.mod_lt n hk).le]
  exact Nat.div_add_mod n k

theorem mem_sizes {n k s : Nat} (h : s ∈ sizes n k) : s = n / k ∨ s = n / k + 1 := by
  simp only [sizes, List.mem_map] at h
  obtain ⟨i, _, rfl⟩ := h
  split
  · exact Or.inr rfl
  · exact Or.inl rfl

theorem sizes_pos {n k s : Nat} (hk : 0 < k) (hn : k ≤ n) (h : s ∈ sizes n k) : 0 < s := by
  have := Nat.div_pos hn hk
  rcases mem_sizes h with rfl | rfl <;> omega

theorem foldTests_flatten (cur : Nat) (l : List Nat) : (foldTests cur l).flatten = List.range' cur l.sum := by
  induction l generalizing cur with
  | nil => rfl
  | cons s l ih =>
    simp only [foldTests, List.flatten_cons, List.sum_cons, ih]
    rw [List.range'_append_1]

theorem foldTests_length (cur : Nat) (l : List Nat) : (foldTests cur l).length = l.length := by
  induction l generalizing cur with
  | nil => rfl
  | cons s l ih => simp [foldTests, ih]

theorem foldTests_map_length (cur : Nat) (l : List Nat) : (foldTests cur l).map List.length = l := by
  induction l generalizing cur with
  | nil => rfl
  | cons s l ih => simp [foldTests, ih]

section
variable {D T P : Type}

/-- the folds of the model -/
theorem kfold_ok {n k : Nat} (h1 : 1 < k) (h2 : k ≤ n) : kfold n k = .ok ((foldTests 0 (sizes n k)).map
    (fun t => ((List.range n).filter (fun i => i ∉ t), t))) := by
  unfold kfold
  rw [if_neg (by omega)]

theorem foldl_foldStep (fit : List (D × T) → D → P) (data : List (D × T)) (folds : List (List Nat × List Nat))
    (init : Nat → Option P) (i : Nat) (hn : (folds.map (·.2)).flatten.Nodup) :
    (∀ f ∈ folds, i ∈ f.2 → folds.foldl (foldStep fit data) init i = (data[i]?).map (fun d => fit (pick data f.1) d.1)) ∧
    ((∀ f ∈ folds, i ∉ f.2) → folds.foldl (foldStep fit data) init i = init i) := by
  induction folds generalizing init with
  | nil => simp
  | cons f folds ih =>
    simp only [List.map_cons, List.flatten_cons, List.nodup_append] at hn
    obtain ⟨_, hn2, hdis⟩ := hn
    constructor
    · intro g hg hi
      rw [List.foldl_cons]
      rcases List.mem_cons.1 hg with rfl | hg
      · have hno : ∀ f ∈ folds, i ∉ f.2 := by
          intro f hf hif
          exact hdis i hi i (List.mem_flatten.2 ⟨f.2, List.mem_map.2 ⟨f, hf, rfl⟩, hif⟩) rfl
        rw [(ih _ hn2).2 hno]
        simp [foldStep, hi]
      · exact (ih _ hn2).1 g hg hi
    · intro hno
      rw [List.foldl_cons, (ih _ hn2).2 (fun f hf => hno f (List.mem_cons_of_mem _ hf))]
      simp [foldStep, hno f (by simp)]

/-- **C43**: with `2 ≤ cf_fold ≤ n` the rows are divided into `cf_fold` groups; every row has a prediction, and it is
that of the model fitted on the rows of all other groups (in their order), so never on the row itself. The groups are
consecutive, none is empty and their sizes differ by at most one. -/
theorem C43_cross_fit (fit : List (D × T) → D → P) {k : Nat} {data : List (D × T)} (h1 : 1 < k) (h2 : k ≤ data.length) :
    ∃ (g : Nat → Nat) (preds : List (Option P)), crossFit fit k data = .ok preds ∧ preds.length = data.length ∧
      (∀ i (hi : i < data.length), g i < k ∧
        preds[i]? = some (some (fit (pick data ((List.range data.length).filter (fun j => g j ≠ g i))) data[i].1))) ∧
      (∀ i j, i ≤ j → j < data.length → g i ≤ g j) ∧
      (∀ c < k, data.length / k ≤ ((List.range data.length).filter (fun j => g j = c)).length ∧
        ((List.range data.length).filter (fun j => g j = c)).length ≤ data.length / k + 1) := by
  set n := data.length with hnd
  have hk : 0 < k := by omega
  let tests := foldTests 0 (sizes n k)
  have hflat : tests.flatten = List.range n := by
    show (foldTests 0 (sizes n k)).flatten = _
    rw [foldTests_flatten, sizes_sum hk, List.range_eq_range']
  have hnod : tests.flatten.Nodup := by rw [hflat]; exact List.nodup_range
  have hlen : tests.length = k := by
    show (foldTests 0 (sizes n k)).length = _
    rw [foldTests_length, sizes_length]
  let g : Nat → Nat := fun i => tests.findIdx (fun t => decide (i ∈ t))
  have hlt : ∀ i < n, g i < k := by
    intro i hi
    have : i ∈ tests.flatten := by rw [hflat]; simpa using hi
    obtain ⟨t, ht, hit⟩ := List.mem_flatten.1 this
    rw [← hlen]
    exact List.findIdx_lt_length_of_exists ⟨t, ht, by simpa using hit⟩
  have hmem : ∀ i (hi : i < n), i ∈ tests[g i]'(by rw [hlen]; exact hlt i hi) := by
    intro i hi
    have := List.findIdx_getElem (xs := tests) (p := fun t => decide (i ∈ t)) (w := by rw [hlen]; exact hlt i hi)
    simpa using this
  have hdis : ∀ c c' (hc : c < tests.length) (hc' : c' < tests.length) i, i ∈ tests[c] → i ∈ tests[c'] → c = c' := by
    intro c c' hc hc' i hi hi'
    by_contra hne
    have hp := (List.nodup_flatten.1 hnod).2
    rw [List.pairwise_iff_getElem] at hp
    rcases Nat.lt_or_gt_of_ne hne with h | h
    · exact hp c c' hc hc' h hi hi'
    · exact hp c' c hc' hc h hi' hi
  have huniq : ∀ i (hi : i < n) c (hc : c < tests.length), i ∈ tests[c] ↔ g i = c := by
    intro i hi c hc
    constructor
    · intro h
      exact hdis _ _ (by rw [hlen]; exact hlt i hi) hc i (hmem i hi) h
    · rintro rfl
      exact hmem i hi
  have hfold := kfold_ok h1 h2
  have htests : (((foldTests 0 (sizes n k)).map (fun t => ((List.range n).filter (fun i => i ∉ t), t))).map (·.2)) = tests := by
    rw [List.map_map]
    simp [Function.comp_def, tests]
  refine ⟨g, _, by unfold crossFit; rw [if_pos h1, hfold], by simp [hnd], ?_, ?_, ?_⟩
  · intro i hi
    refine ⟨hlt i hi, ?_⟩
    have hgl : g i < tests.length := by rw [hlen]; exact hlt i hi
    have key := (foldl_foldStep fit data ((foldTests 0 (sizes n k)).map (fun t => ((List.range n).filter (fun i => i ∉ t), t)))
      (fun _ => none) i (by rw [htests]; exact hnod)).1 ((List.range n).filter (fun j => j ∉ tests[g i]), tests[g i])
      (List.mem_map.2 ⟨tests[g i], List.getElem_mem _, rfl⟩) (hmem i hi)
    rw [List.getElem?_map, List.getElem?_range hi, Option.map_some, key, List.getElem?_eq_getElem hi, Option.map_some]
    have : (List.range n).filter (fun j => j ∉ tests[g i]) = (List.range n).filter (fun j => g j ≠ g i) := by
      apply List.filter_congr
      intro j hj
      have hj' : j < n := by simpa using hj
      have := huniq j hj' (g i) hgl
      by_cases hm : j ∈ tests[g i]
      · simp [hm, this.1 hm]
      · simp only [hm, not_false_eq_true, decide_true]
        have : g j ≠ g i := fun h => hm (this.2 h)
        simp [this]
    rw [this]
  · intro i j hij hj
    by_contra hlt'
    have hlt' : g j < g i := by omega
    have hgi : g i < tests.length := by rw [hlen]; exact hlt i (by omega)
    have hgj : g j < tests.length := by rw [hlen]; exact hlt j hj
    have hsort : tests.flatten.Pairwise (· < ·) := by rw [hflat]; exact List.pairwise_lt_range
    have hp := (List.pairwise_flatten.1 hsort).2
    rw [List.pairwise_iff_getElem] at hp
    have := hp (g j) (g i) hgj hgi hlt' j (hmem j hj) i (hmem i (by omega))
    omega
  · intro c hc
    have hc' : c < tests.length := by rw [hlen]; exact hc
    have hfl : ((List.range n).filter (fun j => g j = c)).length = (tests[c]).length := by
      apply List.Perm.length_eq
      rw [List.perm_ext_iff_of_nodup (List.nodup_range.filter _) ((List.nodup_flatten.1 hnod).1 _ (List.getElem_mem hc'))]
      intro j
      simp only [List.mem_filter, List.mem_range, decide_eq_true_eq]
      constructor
      · rintro ⟨hj, hg⟩
        exact (huniq j hj c hc').2 hg
      · intro hj
        have hjn : j < n := by
          have : j ∈ tests.flatten := List.mem_flatten.2 ⟨_, List.getElem_mem hc', hj⟩
          rw [hflat] at this
          simpa using this
        exact ⟨hjn, (huniq j hjn c hc').1 hj⟩
    have hsz : (tests[c]).length ∈ sizes n k := by
      have : (tests[c]).length ∈ tests.map List.length := List.mem_map.2 ⟨_, List.getElem_mem hc', rfl⟩
      rwa [show tests.map List.length = sizes n k from foldTests_map_length 0 (sizes n k)] at this
    rw [hfl]
    rcases mem_sizes hsz with h | h <;> rw [h] <;> simp [hnd]

theorem pick_congr {α : Type} {l l' : List α} {idx : List Nat} (h : ∀ j ∈ idx, l[j]? = l'[j]?) : pick l idx = pick l' idx := by
  unfold pick
  exact List.filterMap_congr h

/-- **C43**: the prediction of a row does not depend on its own target: changing the target of row `i` leaves the
prediction of row `i` unchanged. -/
theorem C43_honest (fit : List (D × T) → D → P) {k : Nat} {data : List (D × T)} (h1 : 1 < k) (h2 : k ≤ data.length)
    {i : Nat} {d : D} {t t' : T} (hi : data[i]? = some (d, t)) :
    ∃ preds preds', crossFit fit k data = .ok preds ∧ crossFit fit k (data.set i (d, t')) = .ok preds' ∧
      preds[i]? = preds'[i]? ∧ (∃ p, preds[i]? = some (some p)) := by
  have hi' : i < data.length := (List.getElem?_eq_some_iff.1 hi).1
  have hdi : data[i] = (d, t) := (List.getElem?_eq_some_iff.1 hi).2
  have hk : kfold data.length k = kfold (data.set i (d, t')).length k := by simp
  have gen : ∀ (data data' : List (D × T)), data.length = data'.length → (∀ j, j ≠ i → data[j]? = data'[j]?) →
      (data[i]?).map Prod.fst = (data'[i]?).map Prod.fst → 1 < k → k ≤ data.length →
      ∀ folds, kfold data.length k = .ok folds →
      folds.foldl (foldStep fit data) (fun _ => none) i = folds.foldl (foldStep fit data') (fun _ => none) i := by
    intro data data' hl hne hfst h1 h2 folds hf
    rw [kfold_ok h1 h2] at hf
    cases hf
    have hstep : ∀ (fs : List (List Nat × List Nat)), (∀ f ∈ fs, i ∈ f.2 → i ∉ f.1) → ∀ init : Nat → Option P,
        fs.foldl (foldStep fit data) init i = fs.foldl (foldStep fit data') init i := by
      intro fs hfs init
      have : ∀ (a b : Nat → Option P), a i = b i → fs.foldl (foldStep fit data) a i = fs.foldl (foldStep fit data') b i := by
        induction fs with
        | nil => intro a b h; exact h
        | cons f fs ih =>
          intro a b hab
          rw [List.foldl_cons, List.foldl_cons]
          apply ih (fun f hf => hfs f (List.mem_cons_of_mem _ hf))
          unfold foldStep
          split
          · rename_i him
            have hp : pick data f.1 = pick data' f.1 := by
              apply pick_congr
              intro j hj
              apply hne
              rintro rfl
              exact hfs f (by simp) him hj
            rw [hp]
            cases hd : data[i]? with
            | none => rw [hd] at hfst; cases hd' : data'[i]? with
              | none => rfl
              | some y => rw [hd'] at hfst; cases hfst
            | some x => rw [hd] at hfst; cases hd' : data'[i]? with
              | none => rw [hd'] at hfst; cases hfst
              | some y =>
                rw [hd'] at hfst
                simp only [Option.map_some, Option.some.injEq] at hfst ⊢
                rw [hfst]
          · exact hab
      exact this init init rfl
    apply hstep
    intro f hf him
    simp only [List.mem_map] at hf
    obtain ⟨t, _, rfl⟩ := hf
    simp only at him
    simp [him]
  obtain ⟨g, preds, hp, hplen, hg, -, -⟩ := C43_cross_fit fit h1 h2
  obtain ⟨g', preds', hp', hplen', -, -, -⟩ := C43_cross_fit fit (data := data.set i (d, t')) h1 (by simpa using h2)
  refine ⟨preds, preds', hp, hp', ?_, _, (hg i hi').2⟩
  have hkf := kfold_ok h1 h2
  have e1 : crossFit fit k data = .ok ((List.range data.length).map
      (((foldTests 0 (sizes data.length k)).map (fun t => ((List.range data.length).filter (fun i => i ∉ t), t))).foldl (foldStep fit data) (fun _ => none))) := by
    unfold crossFit; rw [if_pos h1, hkf]
  have e2 : crossFit fit k (data.set i (d, t')) = .ok ((List.range data.length).map
      (((foldTests 0 (sizes data.length k)).map (fun t => ((List.range data.length).filter (fun i => i ∉ t), t))).foldl (foldStep fit (data.set i (d, t'))) (fun _ => none))) := by
    unfold crossFit; rw [if_pos h1, ← hk, hkf]; simp
  rw [hp] at e1
  rw [hp'] at e2
  cases e1
  cases e2
  rw [List.getElem?_map, List.getElem?_map, List.getElem?_range hi', Option.map_some, Option.map_some]
  congr 1
  apply gen data (data.set i (d, t')) (by simp) _ _ h1 h2 _ hkf
  · intro j hj
    rw [List.getElem?_set_ne (Ne.symm hj)]
  · rw [List.getElem?_set_self hi', hi]
    rfl

/-- **C43 (limits)**: with `cf_fold ≤ 1` there is one model, fitted on all rows, including the predicted one. -/
theorem C43_no_folds (fit : List (D × T) → D → P) {k : Nat} {data : List (D × T)} (h1 : k ≤ 1) :
    crossFit fit k data = .ok (data.map (fun d => some (fit data d.1))) := by
  unfold crossFit
  rw [if_neg (by omega)]

/-- **C43 (limits)**: more folds than rows are refused. -/
theorem C43_too_many_folds (fit : List (D × T) → D → P) {k : Nat} {data : List (D × T)} (h1 : 1 < k) (h2 : data.length < k) :
    crossFit fit k data = .error .value := by
  unfold crossFit kfold
  rw [if_pos h1, if_pos (Or.inr h2)]

example : crossFit (fun (l : List (Nat × Nat)) (d : Nat) => (l.map (·.2), d)) 2 [(0, 10), (1, 11), (2, 12)] =
    .ok [some ([12], 0), some ([12], 1), some ([10, 11], 2)] := by decide

end

/-! ### C45 -/

theorem starts_getElem {l : List Nat} {i : Nat} (h : i ≤ l.length) : (starts l)[i]? = some (l.take i).sum := by
  unfold starts
  have gen : ∀ (l : List Nat) (a i : Nat), i ≤ l.length → (l.scanl (· + ·) a)[i]? = some (a + (l.take i).sum) := by
    intro l
    induction l with
    | nil => intro a i hi; simp at hi; subst hi; simp
    | cons s l ih =>
      intro a i hi
      cases i with
      | zero => simp
      | succ i =>
        rw [List.scanl_cons, List.getElem?_cons_succ, ih _ _ (by simpa using hi)]
        simp [Nat.add_assoc]
  rw [gen l 0 i h, Nat.zero_add]

/-- **C45**: for at least one tree and any number of workers the trees are divided into batches given by consecutive
start positions: the first start is 0, the last is the number of trees, batch `i` is `starts[i] .. starts[i+1]-1` and has
the announced size, no batch is empty, sizes differ by at most one, and every tree is in exactly one batch. -/
theorem C45_partition {n eff : Nat} (hn : 0 < n) (he : 0 < eff) :
    ∃ (jobs : Nat) (szs sts : List Nat), partitionEstimators n eff = .ok (jobs, szs, sts) ∧ 0 < jobs ∧ jobs ≤ eff ∧ jobs ≤ n ∧
      szs.length = jobs ∧ sts.length = jobs + 1 ∧ sts[0]? = some 0 ∧ sts[jobs]? = some n ∧
      (∀ i < jobs, ∃ a b s, sts[i]? = some a ∧ sts[i + 1]? = some b ∧ szs[i]? = some s ∧ b = a + s ∧ 0 < s) ∧
      (∀ s ∈ szs, ∀ s' ∈ szs, s ≤ s' + 1) ∧
      (∀ t < n, ∃! i, i < jobs ∧ ∃ a b, sts[i]? = some a ∧ sts[i + 1]? = some b ∧ a ≤ t ∧ t < b) := by
  have hj : 0 < min eff n := by omega
  have hjn : min eff n ≤ n := min_le_right _ _
  have hsum : (sizes n (min eff n)).sum = n := sizes_sum hj
  have hlen : (sizes n (min eff n)).length = min eff n := sizes_length _ _
  refine ⟨min eff n, sizes n (min eff n), starts (sizes n (min eff n)), ?_, hj, min_le_left _ _, hjn, hlen, ?_, ?_, ?_, ?_, ?_, ?_⟩
  · unfold partitionEstimators
    simp only
    rw [if_neg (by omega)]
  · simp [starts, List.length_scanl, hlen]
  · rw [starts_getElem (by omega)]; simp
  · rw [starts_getElem (by omega), List.take_of_length_le (by omega), hsum]
  · intro i hi
    have hil : i < (sizes n (min eff n)).length := by omega
    refine ⟨_, _, _, starts_getElem (by omega), starts_getElem (by omega), List.getElem?_eq_getElem hil, ?_, ?_⟩
    · rw [List.take_add_one, List.sum_append, List.getElem?_eq_getElem hil]
      simp
    · exact sizes_pos hj hjn (List.getElem_mem hil)
  · intro s hs s' hs'
    rcases mem_sizes hs with h | h <;> rcases mem_sizes hs' with h' | h' <;> omega
  · intro t ht
    generalize sizes n (min eff n) = l at hsum hlen
    generalize min eff n = jobs at hlen
    subst hlen hsum
    have mono : ∀ i j, i ≤ j → (l.take i).sum ≤ (l.take j).sum := by
      intro i j hij
      obtain ⟨k, rfl⟩ := Nat.exists_eq_add_of_le hij
      rw [List.take_add, List.sum_append]
      omega
    have hex : ∃ i, i < l.length ∧ (l.take i).sum ≤ t ∧ t < (l.take (i + 1)).sum := by
      have : ∀ m ≤ l.length, t < (l.take m).sum → ∃ i, i < m ∧ (l.take i).sum ≤ t ∧ t < (l.take (i + 1)).sum := by
        intro m
        induction m with
        | zero => intro _ h; simp at h
        | succ m ih =>
          intro hm h
          by_cases h' : t < (l.take m).sum
          · obtain ⟨i, hi, h3⟩ := ih (by omega) h'
            exact ⟨i, by omega, h3⟩
          · exact ⟨m, by omega, by omega, h⟩
      obtain ⟨i, hi, h3⟩ := this l.length (le_refl _) (by rw [List.take_length]; exact ht)
      exact ⟨i, hi, h3⟩
    obtain ⟨i, hi, ha, hb⟩ := hex
    refine ⟨i, ⟨hi, _, _, starts_getElem (by omega), starts_getElem (by omega), ha, hb⟩, ?_⟩
    rintro j ⟨hj, a, b, hsa, hsb, hat, htb⟩
    rw [starts_getElem (by omega)] at hsa hsb
    cases hsa
    cases hsb
    rcases Nat.lt_trichotomy j i with h | h | h
    · have := mono (j + 1) i (by omega)
      omega
    · exact h
    · have := mono (i + 1) j (by omega)
      omega

/-- **C45 (limits)**: an empty forest is refused. -/
theorem C45_empty (eff : Nat) : partitionEstimators 0 eff = .error .exception := by simp [partitionEstimators]

example : partitionEstimators 10 4 = .ok (4, [3, 3, 2, 2], [0, 3, 6, 8, 10]) := by decide
example : partitionEstimators 2 8 = .ok (2, [1, 1], [0, 1, 2]) := by decide

end YL.Props
