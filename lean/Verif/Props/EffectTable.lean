import Verif.Model.EffectTable
import Verif.Props.MetaMore
import Verif.Props.WhyArms

/-!
# C125 - C127: the tables of effects, discrete outcomes and `XLearner` with separate treatments
-/

set_option linter.unusedSectionVars false

namespace YL.Props

open YL Meta Table
open YL.Permuted (Arg)

/-! ### C125 -/

section
variable {K : Type}

/-- the entry of row `r`, outcome `o` and treatment `t` of an array of shape `(_, y, x)` -/
def entryOf (y x : Nat) (data : List K) (r o t : Nat) : Option K := if o < y ∧ t < x then data[(r * y + o) * x + t]? else none

/-- **C125**, what the user expects from the table made of effects `e r o t` for `n` rows, `y` outcomes and `k` treatments: its shape is
`(n, y, k + 1)`, the first column is zero, the others are the effects. -/
def IsEffectTable [Zero K] (n y k : Nat) (e : Nat → Nat → Nat → Option K) (a : Nd K) : Prop :=
  a.shape = [n, y, k + 1] ∧ a.data.length = n * y * (k + 1) ∧ ∀ r < n, ∀ o < y, entryOf y (k + 1) a.data r o 0 = some 0 ∧
    ∀ t < k, entryOf y (k + 1) a.data r o (t + 1) = e r o t

theorem addZeros_spec [Zero K] (x : Nat) : ∀ (g : Nat) (l : List K) (_ : l.length = g * x),
    (addZeros g x l).length = g * (x + 1) ∧ ∀ i < g, (addZeros g x l)[i * (x + 1)]? = some 0 ∧
      ∀ t < x, (addZeros g x l)[i * (x + 1) + (t + 1)]? = l[i * x + t]?
  | 0, l, _ => by simp [addZeros]
  | g + 1, l, hl => by
    have hl1 : x ≤ l.length := by rw [hl]; exact Nat.le_mul_of_pos_left _ (Nat.succ_pos _)
    have hl2 : (l.drop x).length = g * x := by rw [List.length_drop, hl, Nat.succ_mul]; omega
    obtain ⟨h1, h2⟩ := addZeros_spec x g (l.drop x) hl2
    have ht : (l.take x).length = x := by rw [List.length_take]; omega
    refine ⟨?_, ?_⟩
    · simp only [addZeros, List.length_cons, List.length_append, ht, h1, Nat.succ_mul]; omega
    · intro i hi
      cases i with
      | zero =>
        refine ⟨by simp [addZeros], fun t ht' => ?_⟩
        simp only [addZeros, Nat.zero_mul, Nat.zero_add, List.getElem?_cons_succ]
        rw [List.getElem?_append_left (by omega), List.getElem?_take_of_lt ht']
      | succ i =>
        obtain ⟨h3, h4⟩ := h2 i (by omega)
        refine ⟨?_, fun t ht' => ?_⟩
        · have : (i + 1) * (x + 1) = (x + i * (x + 1)) + 1 := by rw [Nat.succ_mul]; omega
          simp only [addZeros]
          rw [this, List.getElem?_cons_succ, List.getElem?_append_right (by omega), ht, Nat.add_sub_cancel_left]
          exact h3
        · have : (i + 1) * (x + 1) + (t + 1) = (x + (i * (x + 1) + (t + 1))) + 1 := by rw [Nat.succ_mul]; omega
          simp only [addZeros]
          rw [this, List.getElem?_cons_succ, List.getElem?_append_right (by omega), ht, Nat.add_sub_cancel_left, h4 t ht',
            List.getElem?_drop]
          congr 1
          rw [Nat.succ_mul]; omega

theorem effectNji_table [Zero K] {a : Nd K} {n y k : Nat} (hs : readShape a.shape = .ok (n, y, k)) (hl : a.data.length = n * y * k) :
    ∃ b, effectNji a = .ok b ∧ IsEffectTable n y k (entryOf y k a.data) b := by
  refine ⟨⟨[n, y, k + 1], addZeros (n * y) k a.data⟩, by simp [effectNji, hs, hl], rfl, ?_⟩
  obtain ⟨h1, h2⟩ := addZeros_spec k (n * y) a.data hl
  refine ⟨h1, fun r hr o ho => ?_⟩
  have hi : r * y + o < n * y := by
    calc r * y + o < r * y + y := by omega
      _ = (r + 1) * y := by rw [Nat.succ_mul]
      _ ≤ n * y := Nat.mul_le_mul_right _ (by omega)
  obtain ⟨h3, h4⟩ := h2 (r * y + o) hi
  refine ⟨?_, fun t ht => ?_⟩
  · simp only [entryOf, ho, Nat.zero_lt_succ, and_self, if_true, Nat.add_zero]; exact h3
  · simp only [entryOf, ho, ht, Nat.add_lt_add_iff_right, and_self, if_true]; exact h4 t ht

/-- **C125**, combined treatments, one number per row: the table has the two columns 0 and the effect of the row. -/
theorem C125_combined [Zero K] (es : List K) :
    ∃ b, effectNji ⟨[es.length], es⟩ = .ok b ∧ IsEffectTable es.length 1 1 (fun r _ _ => es[r]?) b := by
  obtain ⟨b, h1, h2, h3, h4⟩ := effectNji_table (a := ⟨[es.length], es⟩) (n := es.length) (y := 1) (k := 1) rfl (by simp)
  refine ⟨b, h1, h2, h3, fun r hr o ho => ⟨(h4 r hr o ho).1, fun t ht => ?_⟩⟩
  rw [(h4 r hr o ho).2 t ht]
  have : o = 0 := by omega
  have : t = 0 := by omega
  subst_vars
  simp [entryOf]

/-- **C125**, combined treatments, a list of effects per outcome for every row -/
theorem C125_combined_outcomes [Zero K] {y : Nat} (ess : List (List K)) (hy : ∀ l ∈ ess, l.length = y) :
    ∃ b, effectNji ⟨[ess.length, y], ess.flatten⟩ = .ok b ∧
      IsEffectTable ess.length y 1 (fun r o _ => ess[r]?.bind (fun l => l[o]?)) b := by
  have hlen : ∀ l : List (List K), (∀ m ∈ l, m.length = y) → l.flatten.length = l.length * y := by
    intro l hl
    induction l with
    | nil => simp
    | cons m l ih => rw [List.flatten_cons, List.length_append, hl m (by simp), ih (fun m h => hl m (List.mem_cons_of_mem _ h)),
        List.length_cons, Nat.succ_mul, Nat.add_comm]
  have hget : ∀ (l : List (List K)), (∀ m ∈ l, m.length = y) → ∀ r o, o < y → l.flatten[r * y + o]? = l[r]?.bind (fun m => m[o]?) := by
    intro l hl
    induction l with
    | nil => intro r o _; simp
    | cons m l ih =>
      intro r o ho
      cases r with
      | zero =>
        rw [List.flatten_cons, List.getElem?_append_left (by rw [hl m (by simp)]; omega)]
        simp
      | succ r =>
        rw [List.flatten_cons, List.getElem?_append_right (by rw [hl m (by simp), Nat.succ_mul]; omega), hl m (by simp),
          show (r + 1) * y + o - y = r * y + o by rw [Nat.succ_mul]; omega, ih (fun m h => hl m (List.mem_cons_of_mem _ h)) r o ho]
        simp
  obtain ⟨b, h1, h2, h3, h4⟩ := effectNji_table (a := ⟨[ess.length, y], ess.flatten⟩) (n := ess.length) (y := y) (k := 1) rfl
    (by simp [hlen ess hy])
  refine ⟨b, h1, h2, h3, fun r hr o ho => ⟨(h4 r hr o ho).1, fun t ht => ?_⟩⟩
  rw [(h4 r hr o ho).2 t ht]
  have : t = 0 := by omega
  subst this
  simp only [entryOf, ho, Nat.zero_lt_one, and_self, if_true, Nat.mul_one, Nat.add_zero]
  exact hget ess hy r o ho

/-- **C125**, separate treatments and a continuous outcome: the table is the expected one exactly for a single other treatment value and
a number of rows different from one. In particular it is wrong for every treatment with three or more values. -/
theorem C125_separate [Zero K] {n k : Nat} {data : List K} (hl : data.length = n * k) :
    (∃ b, effectNji (separateArray n 1 k data) = .ok b ∧ IsEffectTable n 1 k (entryOf 1 k data) b) ↔ k = 1 ∧ n ≠ 1 := by
  constructor
  · rintro ⟨b, h1, h2, -⟩
    by_contra hc
    unfold effectNji separateArray squeeze at h1
    by_cases hn : n = 1
    · subst hn
      by_cases hk : k = 1
      · subst hk; simp [readShape] at h1
      · simp only [List.filter_cons, hk, ne_eq, not_true_eq_false, decide_false, Bool.false_eq_true, if_false, not_false_eq_true, decide_true,
          if_true, List.filter_nil, readShape] at h1
        split at h1
        · simp only [Except.ok.injEq] at h1
          rw [← h1] at h2
          simp at h2
          exact hk h2
        · cases h1
    · have hk : k ≠ 1 := fun h => hc ⟨h, hn⟩
      simp only [List.filter_cons, hk, hn, ne_eq, not_true_eq_false, decide_false, Bool.false_eq_true, if_false, not_false_eq_true,
        decide_true, if_true, List.filter_nil, readShape] at h1
      split at h1
      · simp only [Except.ok.injEq] at h1
        rw [← h1] at h2
        simp at h2
        exact hk h2
      · cases h1
  · rintro ⟨rfl, hn⟩
    have : separateArray n 1 1 data = ⟨[n], data⟩ := by simp [separateArray, squeeze, hn]
    rw [this]
    exact effectNji_table rfl (by simpa using hl)

/-- **C125, refuted** for separate treatments: with `k ≥ 2` other treatment values and `n ≥ 2` rows the treatments are taken for outcomes:
the table has shape `(n, k, 2)`. -/
theorem C125_separate_refuted [Zero K] {n k : Nat} (hn : 2 ≤ n) (hk : 2 ≤ k) {data : List K} (hl : data.length = n * k) :
    ∃ b, effectNji (separateArray n 1 k data) = .ok b ∧ b.shape = [n, k, 2] ∧ IsEffectTable n k 1 (entryOf k 1 data) b := by
  have : separateArray n 1 k data = ⟨[n, k], data⟩ := by
    simp [separateArray, squeeze, show n ≠ 1 by omega, show k ≠ 1 by omega]
  rw [this]
  obtain ⟨b, h1, h2⟩ := effectNji_table (a := ⟨[n, k], data⟩) (n := n) (y := k) (k := 1) rfl (by simpa using hl)
  exact ⟨b, h1, h2.1, h2⟩

/-- **C125**, separate treatments and a discrete outcome with at least two classes: the table is the expected one for any number of rows
except one. -/
theorem C125_separate_outcomes [Zero K] {n y k : Nat} (hy : 2 ≤ y) (hk : 1 ≤ k) {data : List K} (hl : data.length = n * y * k) :
    (∃ b, effectNji (separateArray n y k data) = .ok b ∧ IsEffectTable n y k (entryOf y k data) b) ↔ n ≠ 1 := by
  have hy1 : y ≠ 1 := by omega
  constructor
  · rintro ⟨b, h1, h2, -⟩ rfl
    unfold effectNji separateArray squeeze at h1
    by_cases hk1 : k = 1
    · subst hk1
      simp only [List.filter_cons, hy1, ne_eq, not_true_eq_false, decide_false, Bool.false_eq_true, if_false, not_false_eq_true, decide_true,
          if_true, List.filter_nil, readShape] at h1
      split at h1
      · simp only [Except.ok.injEq] at h1
        rw [← h1] at h2
        simp at h2
        exact hy1 h2.1
      · cases h1
    · simp only [List.filter_cons, hy1, hk1, ne_eq, not_true_eq_false, decide_false, Bool.false_eq_true, if_false, not_false_eq_true,
          decide_true, if_true, List.filter_nil, readShape] at h1
      split at h1
      · simp only [Except.ok.injEq] at h1
        rw [← h1] at h2
        simp at h2
        omega
      · cases h1
  · intro hn
    by_cases hk1 : k = 1
    · subst hk1
      have : separateArray n y 1 data = ⟨[n, y], data⟩ := by simp [separateArray, squeeze, hn, hy1]
      rw [this]
      exact effectNji_table rfl hl
    · have : separateArray n y k data = ⟨[n, y, k], data⟩ := by simp [separateArray, squeeze, hn, hy1, hk1]
      rw [this]
      exact effectNji_table rfl hl

example : effectNji (separateArray 2 1 3 [1, 2, 3, 4, 5, (6 : Int)]) = .ok ⟨[2, 3, 2], [0, 1, 0, 2, 0, 3, 0, 4, 0, 5, 0, 6]⟩ ∧
    effectNji (⟨[3], [4, 5, (6 : Int)]⟩) = .ok ⟨[3, 1, 2], [0, 4, 0, 5, 0, 6]⟩ ∧
    effectNji (separateArray 2 2 2 [1, 2, 3, 4, 5, 6, 7, (8 : Int)]) = .ok ⟨[2, 2, 3], [0, 1, 2, 0, 3, 4, 0, 5, 6, 0, 7, 8]⟩ := by
  decide

/-- **C125**, double machine learning with a discrete treatment: one column per level, zero at the control, elsewhere the difference of
the fitted values of the level and of the control; the default control is the first level. -/
theorem C125_dml [AddGroup K] {f : List K} {c : Nat} {fc : K} (hc : f[c]? = some fc) :
    ∃ t : List K, dmlTable f (some c) = .ok t ∧ t.length = f.length ∧ t[c]? = some 0 ∧ (∀ (i : Nat) (a : K), f[i]? = some a → t[i]? = some (a - fc)) ∧
      dmlTable f none = dmlTable f (some 0) := by
  refine ⟨f.map (fun a => a - fc), by simp [dmlTable, hc], by simp, ?_, ?_, rfl⟩
  · rw [List.getElem?_map, hc]; simp
  · intro i a h; rw [List.getElem?_map, h]; rfl

example : dmlTable [3, 5, (9 : Int)] (some 1) = .ok [-2, 0, 4] := by decide

/-- **C125**, doubly robust: two columns in the order of the levels, zero at the control, the effect at the treated level -/
theorem C125_dr [Zero K] (treat control : Nat) (h : treat ≠ control) (e : K) :
    (drTable treat control e)[if control < treat then 0 else 1]? = some 0 ∧ (drTable treat control e)[if treat < control then 0 else 1]? = some e := by
  unfold drTable
  rcases Nat.lt_or_gt_of_ne h with h | h
  · simp [h, Nat.lt_asymm h]
  · simp [h, Nat.lt_asymm h]

end

/-! ### C126 -/

section
variable {V W O K : Type} [LinearOrder V] [LinearOrder O]

/-- what every sklearn classifier guarantees: its classes are the sorted outcomes it was trained on, and it gives one number per class -/
def Classifier (fitC : List (W × O) → Clf W O K) : Prop :=
  ∀ data, (fitC data).classes = uniq (data.map (·.2)) ∧ ∀ w, ((fitC data).proba w).length = (fitC data).classes.length

/-- the probability a fitted classifier gives to an outcome: the entry at its position among the classes -/
def probOf (m : Clf W O K) (o : O) (w : W) : Option K := (m.proba w)[m.classes.findIdx (fun c => decide (c = o))]?

variable (lit : Nat → V)

/-- `TLearner` with classifiers can be fitted on arms of at least two rows, and its models are those of the two arms -/
theorem tFitP_ok (fitC : List (W × O) → Clf W O K) {d : Nat} (hd1 : 1 ≤ d) {rows : List (Row V W O)}
    (hd : ∀ r ∈ rows, r.x.length = d) {a b : List V} (ha : Twice a rows) (hb : Twice b rows)
    {ta tb : Option (Arg V)} (hta : ArgFor a ta) (htb : ArgFor b tb) :
    tFitP fitC lit d rows ta tb = .ok ⟨fitC (armData a rows), fitC (armData b rows)⟩ := by
  obtain ⟨enc, h1, he, -, h2, -, -⟩ := fitEncoder_ok lit (allCodes := false) hd1 hd
  obtain ⟨xs, hxs⟩ := encodeRows_total lit h2
  have n1 := armData_two ha
  have n2 := armData_two hb
  obtain ⟨ra, hra, rfl⟩ := ha.occurs
  obtain ⟨rb, hrb, rfl⟩ := hb.occurs
  obtain ⟨t, ht⟩ := h2 ra hra
  obtain ⟨c, hc⟩ := h2 rb hrb
  have g1 : groups t xs rows = armData ra.x rows := groups_eq lit he hd hxs (hd ra hra) ht
  have g2 : groups c xs rows = armData rb.x rows := groups_eq lit he hd hxs (hd rb hrb) hc
  simp only [tFitP, useEncoder, h1, hxs, getTrCtrl_arg lit hta, getTrCtrl_arg lit htb, ht, hc, g1, g2]
  rw [fitBase_two n1, fitBase_two n2]

/-- the two arms have the same outcomes -/
def SameOutcomes (a b : List V) (rows : List (Row V W O)) : Prop :=
  ∀ o, (∃ r ∈ rows, r.x = a ∧ r.y = o) ↔ ∃ r ∈ rows, r.x = b ∧ r.y = o

theorem mem_armOutcomes {a : List V} {rows : List (Row V W O)} {o : O} :
    o ∈ (armData a rows).map (·.2) ↔ ∃ r ∈ rows, r.x = a ∧ r.y = o := by
  simp [armData, and_assoc]

theorem uniq_ext {α : Type} [LinearOrder α] {l m : List α} (h : ∀ a, a ∈ l ↔ a ∈ m) : uniq l = uniq m := by
  apply List.Perm.eq_of_pairwise (le := (· ≤ ·)) (fun a b _ _ h1 h2 => le_antisymm h1 h2)
  · exact (uniq_sorted l).imp (fun h => le_of_lt h)
  · exact (uniq_sorted m).imp (fun h => le_of_lt h)
  · exact (List.perm_ext_iff_of_nodup (uniq_nodup _) (uniq_nodup _)).2 (fun a => by rw [mem_uniq, mem_uniq, h])

theorem sameOutcomes_classes {fitC : List (W × O) → Clf W O K} (hC : Classifier fitC) {a b : List V} {rows : List (Row V W O)}
    (h : SameOutcomes a b rows) : (fitC (armData a rows)).classes = (fitC (armData b rows)).classes := by
  rw [(hC _).1, (hC _).1]
  exact uniq_ext (fun o => by rw [mem_armOutcomes, mem_armOutcomes, h o])

theorem findIdx_get [DecidableEq O] {l : List O} {o : O} (h : o ∈ l) : l.findIdx (fun c => decide (c = o)) < l.length :=
  List.findIdx_lt_length_of_exists ⟨o, h, by simp⟩

/-- **C126**, `TLearner` and a discrete outcome: if both arms contain the same outcomes, the effect on a target outcome that occurs in
them is the probability the treated arm's model gives to it minus that of the control arm's model. -/
theorem C126_tlearner [AddGroup K] {fitC : List (W × O) → Clf W O K} (hC : Classifier fitC) {d : Nat} (hd1 : 1 ≤ d)
    {rows : List (Row V W O)} (hd : ∀ r ∈ rows, r.x.length = d) {a b : List V} (ha : Twice a rows) (hb : Twice b rows)
    {ta tb : Option (Arg V)} (hta : ArgFor a ta) (htb : ArgFor b tb) (hsame : SameOutcomes a b rows) {o : O}
    (ho : ∃ r ∈ rows, r.x = a ∧ r.y = o) :
    ∃ s, tFitP fitC lit d rows ta tb = .ok s ∧ ∀ w, ∃ p q, probOf (fitC (armData a rows)) o w = some p ∧
      probOf (fitC (armData b rows)) o w = some q ∧ tEstimateP s (some o) w = .ok [p - q] := by
  refine ⟨_, tFitP_ok lit fitC hd1 hd ha hb hta htb, fun w => ?_⟩
  have hcl := sameOutcomes_classes hC hsame
  have hm : o ∈ (fitC (armData a rows)).classes := by rw [(hC _).1, mem_uniq, mem_armOutcomes]; exact ho
  have l1 := findIdx_get hm
  have l2 : (fitC (armData a rows)).classes.findIdx (fun c => decide (c = o)) < ((fitC (armData a rows)).proba w).length := by
    rw [(hC _).2]; exact l1
  have l3 : (fitC (armData a rows)).classes.findIdx (fun c => decide (c = o)) < ((fitC (armData b rows)).proba w).length := by
    rw [(hC _).2, ← hcl]; exact l1
  refine ⟨_, ((fitC (armData b rows)).proba w)[(fitC (armData a rows)).classes.findIdx (fun c => decide (c = o))]'l3,
    List.getElem?_eq_getElem l2, ?_, ?_⟩
  · unfold probOf
    rw [← hcl]
    exact List.getElem?_eq_getElem l3
  · simp only [tEstimateP, checkClasses, hm, if_true, List.getElem?_eq_getElem l2, List.getElem?_eq_getElem l3]

/-- **C126**: an outcome the treated arm never shows is refused with `AssertionError`, even if the control arm shows it. -/
theorem C126_tlearner_unseen [Sub K] {fitC : List (W × O) → Clf W O K} (hC : Classifier fitC) {d : Nat} (hd1 : 1 ≤ d)
    {rows : List (Row V W O)} (hd : ∀ r ∈ rows, r.x.length = d) {a b : List V} (ha : Twice a rows) (hb : Twice b rows)
    {ta tb : Option (Arg V)} (hta : ArgFor a ta) (htb : ArgFor b tb) {o : O} (ho : ¬ ∃ r ∈ rows, r.x = a ∧ r.y = o) :
    ∃ s, tFitP fitC lit d rows ta tb = .ok s ∧ ∀ w, tEstimateP s (some o) w = .error .assertion := by
  refine ⟨_, tFitP_ok lit fitC hd1 hd ha hb hta htb, fun w => ?_⟩
  have hm : o ∉ (fitC (armData a rows)).classes := by rw [(hC _).1, mem_uniq, mem_armOutcomes]; exact ho
  simp only [tEstimateP, checkClasses, hm, if_false]

/-- **C126**: without a target outcome the effects on all outcomes add up to zero, if both models give probabilities that add up to one. -/
theorem C126_tlearner_sum_zero [CommRing K] {fitC : List (W × O) → Clf W O K} (hC : Classifier fitC) {d : Nat} (hd1 : 1 ≤ d)
    {rows : List (Row V W O)} (hd : ∀ r ∈ rows, r.x.length = d) {a b : List V} (ha : Twice a rows) (hb : Twice b rows)
    {ta tb : Option (Arg V)} (hta : ArgFor a ta) (htb : ArgFor b tb) (hsame : SameOutcomes a b rows)
    (h1 : ∀ data w, data ≠ [] → ((fitC data).proba w).sum = 1) :
    ∃ s, tFitP fitC lit d rows ta tb = .ok s ∧ ∀ w, ∃ e, tEstimateP s none w = .ok e ∧
      e.length = (uniq ((armData a rows).map (·.2))).length ∧ e.sum = 0 := by
  refine ⟨_, tFitP_ok lit fitC hd1 hd ha hb hta htb, fun w => ?_⟩
  have hcl := sameOutcomes_classes hC hsame
  have hl : ((fitC (armData a rows)).proba w).length = ((fitC (armData b rows)).proba w).length := by
    rw [(hC _).2, (hC _).2, hcl]
  refine ⟨List.zipWith (· - ·) ((fitC (armData a rows)).proba w) ((fitC (armData b rows)).proba w), ?_, ?_, ?_⟩
  · simp only [tEstimateP, rowSub, hl, if_true]
  · rw [List.length_zipWith, ← hl, Nat.min_self, (hC _).2, (hC _).1]
  · have hz : ∀ (p q : List K), p.length = q.length → (List.zipWith (· - ·) p q).sum = p.sum - q.sum := by
      intro p
      induction p with
      | nil => intro q h; cases q with
        | nil => simp
        | cons _ _ => simp at h
      | cons x p ih =>
        intro q h
        cases q with
        | nil => simp at h
        | cons y q =>
          simp only [List.zipWith_cons_cons, List.sum_cons]
          rw [ih q (by simpa using h)]
          ring
    rw [hz _ _ hl, h1 _ _ (armData_ne ha.occurs), h1 _ _ (armData_ne hb.occurs), sub_self]

/-- a classifier for examples: the relative frequencies of the outcomes -/
def freqClf {W : Type} (data : List (W × Nat)) : Clf W Nat Rat :=
  ⟨uniq (data.map (·.2)), fun _ => (uniq (data.map (·.2))).map (fun o => ((data.filter (fun p => decide (p.2 = o))).length : Rat) / data.length)⟩

theorem freqClf_classifier {W : Type} : Classifier (freqClf (W := W)) := fun _ => ⟨rfl, fun _ => by simp [freqClf]⟩

/-- rows with one treatment for the examples -/
def clfRows (l : List (Nat × Nat)) : List (Row Nat Unit Nat) := l.map (fun p => ⟨(), [p.1], p.2⟩)

example : Twice [1] (clfRows [(0, 7), (0, 8), (1, 7), (1, 8), (1, 8)]) ∧
    (tFitP freqClf id 1 (clfRows [(0, 7), (0, 8), (1, 7), (1, 8), (1, 8)]) none none).toOption.map
      (fun s => ((tEstimateP s (some 8) ()).toOption, (tEstimateP s none ()).toOption)) = some (some [1/6], some [-1/6, 1/6]) := by
  decide +kernel

/-- **C126, refuted** when the arms show different outcomes: the treated arm shows 7 and 8, the control arm 7 and 9. The effect on 8 is
reported as 1/2 - 1/2 = 0 because the control arm's probability of 9 is subtracted, although 8 never occurs without the treatment. With
a control arm that shows a single outcome the answer is `IndexError`, and without a target it silently subtracts one number from
all columns. -/
theorem C126_tlearner_refuted :
    (tFitP freqClf id 1 (clfRows [(0, 7), (0, 9), (1, 7), (1, 8)]) none none).toOption.map (fun s => (tEstimateP s (some 8) ()).toOption) =
      some (some [0]) ∧
    (tFitP freqClf id 1 (clfRows [(0, 7), (0, 7), (1, 7), (1, 8)]) none none).toOption.map
      (fun s => (tEstimateP s (some 8) (), tEstimateP s none ())) = some (.error .index, .ok [-1/2, -1/2]) := by
  constructor <;> decide +kernel

end

section
variable {V W O K : Type} [LinearOrder V] [LinearOrder O] [CommRing K] (lit : Nat → V)

theorem rowSub_eq {α : Type} (l : List α) (f g : α → K) : rowSub (l.map f) (l.map g) = .ok (l.map (fun i => f i - g i)) := by
  simp [rowSub, List.zipWith_map, List.zipWith_self]

/-- the row of probabilities as a function of the outcomes -/
theorem proba_eq {m : Clf W O K} (hn : m.classes.Nodup) {w : W} (hl : (m.proba w).length = m.classes.length) :
    m.proba w = m.classes.map (fun o => (probOf m o w).getD 0) := by
  apply List.ext_getElem (by simp [hl])
  intro i h1 h2
  have hi : i < m.classes.length := by omega
  have hidx : m.classes.findIdx (fun c => decide (c = m.classes[i])) = i := by
    have hlt := findIdx_get (List.getElem_mem hi)
    have := List.findIdx_getElem (w := hlt)
    simp only [decide_eq_true_eq] at this
    exact hn.getElem_inj_iff.1 this
  simp only [List.getElem_map, probOf, hidx, List.getElem?_eq_getElem h1, Option.getD_some]

/-- **C126**, `XLearner` and a discrete outcome: if both arms contain the same outcomes, the second stage of the treated arm is trained
on indicator minus the control model's probability, that of the control arm on the treated model's probability minus indicator, for
every outcome; the estimate mixes the two with weight `rho`. -/
theorem C126_xlearner {fitC : List (W × O) → Clf W O K} (hC : Classifier fitC) (fitK : List (W × List K) → W → List K) {d : Nat}
    (hd1 : 1 ≤ d) {rows : List (Row V W O)} (hd : ∀ r ∈ rows, r.x.length = d) {a b : List V} (ha : Twice a rows) (hb : Twice b rows)
    {ta tb : Option (Arg V)} (hta : ArgFor a ta) (htb : ArgFor b tb) (hsame : SameOutcomes a b rows) :
    let outcomes := uniq ((armData a rows).map (·.2))
    let pa := fun o w => (probOf (fitC (armData a rows)) o w).getD 0
    let pb := fun o w => (probOf (fitC (armData b rows)) o w).getD 0
    xFitP fitC fitK lit d rows ta tb = .ok ⟨outcomes,
      fitK ((armData a rows).map (fun p => (p.1, outcomes.map (fun o => (if o = p.2 then 1 else 0) - pb o p.1)))),
      fitK ((armData b rows).map (fun p => (p.1, outcomes.map (fun o => pa o p.1 - (if o = p.2 then 1 else 0)))))⟩ := by
  intro outcomes pa pb
  obtain ⟨enc, h1, he, -, h2, -, -⟩ := fitEncoder_ok lit (allCodes := false) hd1 hd
  obtain ⟨xs, hxs⟩ := encodeRows_total lit h2
  have n1 := armData_two ha
  have n2 := armData_two hb
  obtain ⟨ra, hra, rfl⟩ := ha.occurs
  obtain ⟨rb, hrb, rfl⟩ := hb.occurs
  obtain ⟨t, ht⟩ := h2 ra hra
  obtain ⟨c, hc⟩ := h2 rb hrb
  have g1 : groups t xs rows = armData ra.x rows := groups_eq lit he hd hxs (hd ra hra) ht
  have g2 : groups c xs rows = armData rb.x rows := groups_eq lit he hd hxs (hd rb hrb) hc
  have hca : (fitC (armData ra.x rows)).classes = outcomes := (hC _).1
  have hcb : (fitC (armData rb.x rows)).classes = outcomes := by rw [← hca]; exact (sameOutcomes_classes hC hsame).symm
  have hpa : ∀ w, (fitC (armData ra.x rows)).proba w = outcomes.map (fun o => pa o w) := fun w => by
    have := proba_eq (m := fitC (armData ra.x rows)) (by rw [hca]; exact uniq_nodup _) ((hC _).2 w)
    rw [this, hca]
  have hpb : ∀ w, (fitC (armData rb.x rows)).proba w = outcomes.map (fun o => pb o w) := fun w => by
    have := proba_eq (m := fitC (armData rb.x rows)) (by rw [hcb]; exact uniq_nodup _) ((hC _).2 w)
    rw [this, hcb]
  have hma : ∀ p ∈ armData ra.x rows, p.2 ∈ outcomes := fun p hp => by
    rw [mem_uniq]; exact List.mem_map_of_mem hp
  have hmb : ∀ p ∈ armData rb.x rows, p.2 ∈ outcomes := fun p hp => by
    rw [← hcb, (hC _).1, mem_uniq]; exact List.mem_map_of_mem hp
  have e1 : mapE (imputeTreat (fitC (armData ra.x rows)).classes (fitC (armData rb.x rows))) (armData ra.x rows) =
      .ok ((armData ra.x rows).map (fun p => (p.1, outcomes.map (fun o => (if o = p.2 then 1 else 0) - pb o p.1)))) := by
    refine mapE_eq (fun p hp => ?_)
    simp only [imputeTreat, oneHotRow, hca, hma p hp, if_true, hpb, rowSub_eq]
  have e2 : mapE (imputeControl (fitC (armData ra.x rows)).classes (fitC (armData ra.x rows))) (armData rb.x rows) =
      .ok ((armData rb.x rows).map (fun p => (p.1, outcomes.map (fun o => pa o p.1 - (if o = p.2 then 1 else 0))))) := by
    refine mapE_eq (fun p hp => ?_)
    simp only [imputeControl, oneHotRow, hca, hmb p hp, if_true, hpa, rowSub_eq]
  simp only [xFitP, useEncoder, h1, hxs, getTrCtrl_arg lit hta, getTrCtrl_arg lit htb, ht, hc, g1, g2]
  rw [fitBase_two n1, fitBase_two n2]
  simp only [e1, e2]
  rw [hca]

/-- **C126**, `XLearner.estimate` of a fitted object with a discrete outcome: the effect on a target outcome is `rho` times the entry of
the treated arm's second stage at the position of that outcome plus `1 - rho` times that of the control arm's; unknown outcomes are
refused. -/
theorem C126_xlearner_estimate {s : XP W O K} {w : W} (hn : s.classes.Nodup) (ht : (s.kt w).length = s.classes.length)
    (h0 : (s.k0 w).length = s.classes.length) (rho : K) :
    (∀ i : Nat, ∀ o : O, ∀ a b : K, s.classes[i]? = some o → (s.kt w)[i]? = some a → (s.k0 w)[i]? = some b →
      xEstimateP s rho (some o) w = .ok [rho * a + (1 - rho) * b] ∧
      ∃ ce : List K, xEstimateP s rho none w = .ok ce ∧ ce.length = s.classes.length ∧ ce[i]? = some (rho * a + (1 - rho) * b)) ∧
    ∀ o, o ∉ s.classes → xEstimateP s rho (some o) w = .error .assertion := by
  refine ⟨fun i o a b hi ha hb => ?_, fun o ho => ?_⟩
  · obtain ⟨hlt, he⟩ := List.getElem?_eq_some_iff.1 hi
    have hm : o ∈ s.classes := he ▸ List.getElem_mem hlt
    have hidx : s.classes.findIdx (fun c => decide (c = o)) = i := by
      have hl := findIdx_get hm
      have := List.findIdx_getElem (w := hl)
      simp only [decide_eq_true_eq] at this
      exact hn.getElem_inj_iff.1 (this.trans he.symm)
    have hz : (List.zipWith (fun a b => rho * a + (1 - rho) * b) (s.kt w) (s.k0 w))[i]? = some (rho * a + (1 - rho) * b) := by
      rw [List.getElem?_zipWith, ha, hb]
    refine ⟨?_, _, rfl, by simp [ht, h0], hz⟩
    simp only [xEstimateP, checkClasses, hm, if_true, hidx, hz]
  · simp only [xEstimateP, checkClasses, ho, if_false]

example : xEstimateP (⟨[7, 9], fun _ => [1, -1], fun _ => [3, -3]⟩ : XP Unit Nat Int) 2 (some 9) () = .ok [1] := by decide

/-- **C126**: an outcome that occurs only in the control arm makes `XLearner.fit` fail with `ValueError`. -/
theorem C126_xlearner_unseen {fitC : List (W × O) → Clf W O K} (hC : Classifier fitC) (fitK : List (W × List K) → W → List K) {d : Nat}
    (hd1 : 1 ≤ d) {rows : List (Row V W O)} (hd : ∀ r ∈ rows, r.x.length = d) {a b : List V} (ha : Twice a rows) (hb : Twice b rows)
    {ta tb : Option (Arg V)} (hta : ArgFor a ta) (htb : ArgFor b tb) {o : O} (ho : ∃ r ∈ rows, r.x = b ∧ r.y = o)
    (hno : ¬ ∃ r ∈ rows, r.x = a ∧ r.y = o) : xFitP fitC fitK lit d rows ta tb = .error .value := by
  obtain ⟨enc, h1, he, -, h2, -, -⟩ := fitEncoder_ok lit (allCodes := false) hd1 hd
  obtain ⟨xs, hxs⟩ := encodeRows_total lit h2
  have n1 := armData_two ha
  have n2 := armData_two hb
  obtain ⟨ra, hra, rfl⟩ := ha.occurs
  obtain ⟨rb, hrb, rfl⟩ := hb.occurs
  obtain ⟨t, ht⟩ := h2 ra hra
  obtain ⟨c, hc⟩ := h2 rb hrb
  have g1 : groups t xs rows = armData ra.x rows := groups_eq lit he hd hxs (hd ra hra) ht
  have g2 : groups c xs rows = armData rb.x rows := groups_eq lit he hd hxs (hd rb hrb) hc
  have hca := (hC (armData ra.x rows)).1
  have hrow : ∀ u v : List K, rowSub u v = .error .value ∨ ∃ r, rowSub u v = .ok r := by
    intro u v
    unfold rowSub
    split
    · exact .inr ⟨_, rfl⟩
    · split
      · exact .inr ⟨_, rfl⟩
      · exact .inr ⟨_, rfl⟩
      · exact .inl rfl
  have hstep : ∀ p, imputeControl (fitC (armData ra.x rows)).classes (fitC (armData ra.x rows)) p = .error .value ∨
      ∃ r, imputeControl (fitC (armData ra.x rows)).classes (fitC (armData ra.x rows)) p = .ok r := by
    intro p
    unfold imputeControl oneHotRow
    by_cases hp : p.2 ∈ (fitC (armData ra.x rows)).classes
    · simp only [hp, if_true]
      rcases hrow ((fitC (armData ra.x rows)).proba p.1) ((fitC (armData ra.x rows)).classes.map (fun c => if c = p.2 then 1 else 0)) with h | ⟨r, h⟩
      · rw [h]; exact .inl rfl
      · rw [h]; exact .inr ⟨_, rfl⟩
    · simp only [hp, if_false]; exact Or.inl trivial
  have hbad : ∃ p ∈ armData rb.x rows, imputeControl (fitC (armData ra.x rows)).classes (fitC (armData ra.x rows)) p = .error .value := by
    have := mem_armOutcomes.2 ho
    obtain ⟨p, hp, hpo⟩ := List.mem_map.1 this
    refine ⟨p, hp, ?_⟩
    have : p.2 ∉ (fitC (armData ra.x rows)).classes := by
      rw [hca, mem_uniq, mem_armOutcomes, hpo]; exact hno
    simp only [imputeControl, oneHotRow, this, if_false]
  have hm : mapE (imputeControl (fitC (armData ra.x rows)).classes (fitC (armData ra.x rows))) (armData rb.x rows) = .error .value := by
    clear g1 g2 n2 hb htb hc
    generalize armData rb.x rows = l at hbad
    induction l with
    | nil => obtain ⟨p, hp, _⟩ := hbad; cases hp
    | cons q l ih =>
      rcases hstep q with h | ⟨r, h⟩
      · simp only [mapE, h]
      · obtain ⟨p, hp, hb⟩ := hbad
        rcases List.mem_cons.1 hp with rfl | hp
        · rw [h] at hb; cases hb
        · simp only [mapE, h, ih ⟨p, hp, hb⟩]
  simp only [xFitP, useEncoder, h1, hxs, getTrCtrl_arg lit hta, getTrCtrl_arg lit htb, ht, hc, g1, g2]
  rw [fitBase_two n1, fitBase_two n2]
  simp only [hm]

end

/-- a second stage for examples: the column means -/
def colMeans {W : Type} (data : List (W × List Rat)) (_ : W) : List Rat :=
  match data with
  | [] => []
  | p :: _ => (List.range p.2.length).map (fun i => (data.map (fun q => q.2.getD i 0)).sum / data.length)

example : (xFitP freqClf colMeans id 1 (clfRows [(0, 7), (0, 8), (1, 7), (1, 8), (1, 8)]) none none).toOption.map
    (fun s => (s.classes, (xEstimateP s (1/2) (some 8) ()).toOption, (xEstimateP s (1/2) none ()).toOption)) =
    some ([7, 8], some [1/6], some [-1/6, 1/6]) := by decide +kernel

/-- **C126, refuted** for `XLearner` when the control arm shows a single outcome: its model has one column, which is subtracted from the
indicators of all outcomes. All control rows show 7, half of the treated rows show 8: the treatment raises the probability of 8 by 1/2
and lowers that of 7 by 1/2, but the reported effect on 8 is 0 and that on 7 is -1/2. -/
theorem C126_xlearner_single_refuted :
    (xFitP freqClf colMeans id 1 (clfRows [(0, 7), (0, 7), (1, 7), (1, 8)]) none none).toOption.map
      (fun s => ((xEstimateP s (1/2) (some 8) ()).toOption, (xEstimateP s (1/2) none ()).toOption)) =
      some (some [0], some [-1/2, 0]) := by decide +kernel

/-! ### C127 -/

section
variable {V W K : Type} [LinearOrder V] [Ring K]

theorem ordGroup_arm {d : Nat} {rows : List (Row V W K)} {os : List (List Nat)}
    (hos : mapE (fun r : Row V W K => ordinals ((List.range d).map (fun j => uniq (Meta.column rows j))) r.x) rows = .ok os)
    {v : List V} {is : List Nat} (hvi : ordinals ((List.range d).map (fun j => uniq (Meta.column rows j))) v = .ok is) :
    ordGroup rows os is = armData v rows := by
  have hf := mapE_ok.1 hos
  unfold ordGroup armData
  clear hos
  generalize (List.range d).map (fun j => uniq (Meta.column rows j)) = cats at hvi hf
  induction hf with
  | nil => rfl
  | @cons r i rows is' h1 _ ih =>
    simp only [List.zip_cons_cons, List.filter_cons]
    by_cases hx : r.x = v
    · have : i = is := by rw [hx] at h1; rw [h1] at hvi; cases hvi; rfl
      simp only [hx, this, decide_true, if_true, List.map_cons]
      rw [ih]
    · have : i ≠ is := by rintro rfl; exact hx (ordinals_inj h1 hvi)
      simp only [hx, this, decide_false, Bool.false_eq_true, if_false]
      exact ih

/-- **C127**: `XLearner` with `combined_treatment=False` and a continuous outcome: when every vector of observed treatment values occurs
in at least two rows, the result has one entry for every such vector other than the first, and it is the estimate of an `XLearner`
fitted with `combined_treatment=True` for that vector against the first. -/
theorem C127_separate (lit : Nat → V) (fitM fitK : List (W × K) → W → K) {d : Nat} (hd1 : 1 ≤ d) {rows : List (Row V W K)}
    (hd : ∀ r ∈ rows, r.x.length = d) (hall : ∀ v, Observed d rows v → Twice v rows) {v₀ : List V} {vs : List (List V)}
    (hv : treatVectors d rows = v₀ :: vs) :
    ∃ (ps : List (Pair W K)) (eff : List V → K → W → K), xFitSeparate fitM fitK d rows = .ok ps ∧
      (∀ rho wv, xEstimateSeparate Nat false ps rho wv = .ok (vs.map (fun v => eff v rho wv))) ∧
      ∀ v ∈ vs, ∃ s, xFit fitM fitK lit d none rows (some (.many v)) (some (.many v₀)) = .ok s ∧ ∀ rho wv, xEstimate s rho wv = eff v rho wv := by
  have hn : ∀ c ∈ (List.range d).map (fun j => uniq (Meta.column rows j)), c.Nodup := by
    intro c hc
    simp only [List.mem_map] at hc
    obtain ⟨j, _, rfl⟩ := hc
    exact uniq_nodup _
  obtain ⟨os, hos⟩ := mapE_total (f := fun r : Row V W K => ordinals ((List.range d).map (fun j => uniq (Meta.column rows j))) r.x) (l := rows)
    (fun r hr => by
      obtain ⟨is, h, _⟩ := ordinals_total (column_mem hd hr)
      exact ⟨is, h⟩)
  have hocc : ∀ v ∈ treatVectors d rows, Twice v rows := fun v hv => hall v ((mem_treatVectors hd1).1 hv)
  have hc := cartesian_ordinals hn
  change List.Forall₂ _ (treatVectors d rows) _ at hc
  rw [hv] at hc hocc
  cases hlab : labels ((List.range d).map (fun j => uniq (Meta.column rows j))) with
  | nil => rw [hlab] at hc; cases hc
  | cons l0 ls =>
    rw [hlab] at hc
    cases hc with
    | cons h0 hrest =>
      let pair : List V → Pair W K := fun v => ⟨fitK ((armData v rows).map (fun p => (p.1, p.2 - fitM (armData v₀ rows) p.1))),
        fitK ((armData v₀ rows).map (fun p => (p.1, fitM (armData v rows) p.1 - p.2)))⟩
      have hps : mapE (fun l => fitPair fitM fitK (fitM (armData v₀ rows)) (ordGroup rows os l0) (ordGroup rows os l)) ls = .ok (vs.map pair) := by
        rw [mapE_ok]
        have hocc' : ∀ v ∈ vs, Twice v rows := fun v h => hocc v (List.mem_cons_of_mem _ h)
        clear hlab hv hocc
        induction hrest with
        | nil => exact List.Forall₂.nil
        | @cons v l vs ls h1 _ ih =>
          refine List.Forall₂.cons ?_ (ih (fun v h => hocc' v (List.mem_cons_of_mem _ h)))
          simp only [fitPair, ordGroup_arm hos h1, ordGroup_arm hos h0, fitBase_two (armData_two (hocc' v (by simp)))]
          rfl
      refine ⟨vs.map pair, fun v rho wv => rho * (pair v).kt wv + (1 - rho) * (pair v).k0 wv, ?_, ?_, ?_⟩
      · simp only [xFitSeparate, hos, hlab, ordGroup_arm hos h0, fitBase_two (armData_two (hocc v₀ (by simp)))]
        have := hps
        simp only [ordGroup_arm hos h0] at this
        exact this
      · intro rho wv
        simp [xEstimateSeparate, xOutcomeClasses, xSeparate, Function.comp_def]
      · intro v hvm
        obtain ⟨s, hs, he⟩ := C41_xlearner lit fitM fitK hd1 hd (hocc v (List.mem_cons_of_mem _ hvm)) (hocc v₀ (by simp))
          (Or.inl rfl) (Or.inl rfl)
        exact ⟨s, hs, fun rho wv => he rho wv⟩

/-- **C127, refuted** for a discrete outcome: after `fit(combined_treatment=False)` every `estimate` raises `AttributeError`. -/
theorem C127_discrete_refuted {O : Type} [LinearOrder O] (ps : List (Pair W K)) (rho : K) (wv : W) :
    xEstimateSeparate O true ps rho wv = .error .attr := rfl

end

example : (xFitSeparate sumModel sumModel 1 [(⟨0, [3], 10⟩ : Row Nat Nat Int), ⟨1, [3], 4⟩, ⟨2, [4], 7⟩, ⟨3, [4], 1⟩, ⟨2, [5], 1⟩, ⟨3, [5], 1⟩]).toOption.map
    (fun ps => xSeparate ps 1 0) = some [(7 - 14) + (1 - 14), (1 - 14) + (1 - 14)] := by decide

end YL.Props
