import Verif.Model.Tree
import Verif.Props.Criterion
import Mathlib.Data.List.Perm.Basic
import Mathlib.Data.List.Perm.Subperm

/-!
# C83: the split a node gets is the best admissible one, and it partitions the samples
-/

set_option linter.unusedSectionVars false

namespace YL.Spec
open YL.Crit YL.Tree

variable {A K V M : Type} [AddCommGroup M] [Field K] [LinearOrder K]

/-- What is assumed of the sorting routine and of the floating point midpoint. -/
structure SoundParams (P : Params A K) : Prop where
  perm : ∀ (g : A → K) (l : List A), (P.sort g l).Perm l
  sorted : ∀ (g : A → K) (l : List A), (P.sort g l).Pairwise (fun a b => g a ≤ g b)
  mid : ∀ a b : K, a < b → a ≤ P.mid a b ∧ P.mid a b ≤ b
  thr : 0 ≤ P.thr

/-- The sums on the two sides of the cut `le`, computed from scratch. -/
def cutState (g : A → M) (S : List A) (le : A → Bool) : Crit M :=
  ⟨0, S.length, (S.filter le).length, (S.map g).sum, ((S.filter le).map g).sum,
    ((S.filter (fun a => !le a)).map g).sum⟩

/-- the cut of the samples by `feature <= t` -/
def cut (x : A → Nat → K) (f : Nat) (t : K) : A → Bool := fun a => decide (x a f ≤ t)

/-- What a criterion has to do: `update` to a later position gives the sums from scratch. -/
def SoundCriterion (C : Criterion A M K V) : Prop :=
  ∀ (h : Nat → M) (c : Crit M) (p : Nat), c.start ≤ c.pos → c.pos ≤ p → p ≤ c.stop →
    c.total = (segment h c.start c.stop).sum → c.left = (segment h c.start c.pos).sum →
    C.update h c p = ⟨c.start, c.stop, p, c.total, (segment h c.start p).sum, (segment h p c.stop).sum⟩

/-- A cut both of whose sides respect `min_samples_leaf` and the weight limit. -/
def Admissible (P : Params A K) (C : Criterion A M K V) (x : A → Nat → K) (S : List A) (f : Nat) (t : K) : Prop :=
  let le := cut x f t
  P.minSamplesLeaf ≤ (S.filter le).length ∧ P.minSamplesLeaf ≤ S.length - (S.filter le).length ∧
  0 < (S.filter le).length ∧ (S.filter le).length < S.length ∧
  P.minWeightLeaf ≤ C.weightLeft (cutState C.contrib S le) ∧
  P.minWeightLeaf ≤ C.weightRight (cutState C.contrib S le)

/-- The two sides of the cut are further apart than the resolution of the features. -/
def Apart (thr : K) (x : A → Nat → K) (S : List A) (f : Nat) (t : K) : Prop :=
  ∀ a ∈ S, ∀ b ∈ S, x a f ≤ t → t < x b f → x a f + thr < x b f

/-- the score of a cut: the proxy of the criterion on the sums from scratch -/
def score (C : Criterion A M K V) (x : A → Nat → K) (S : List A) (f : Nat) (t : K) : K :=
  C.proxy (cutState C.contrib S (cut x f t))

end YL.Spec

namespace YL.Props
open YL.Crit YL.Tree YL.Spec

variable {A K V M : Type} [AddCommGroup M] [Field K] [LinearOrder K] [IsStrictOrderedRing K]

/-! ### partition -/

theorem swapAt_perm (l : List A) (i j : Nat) : (swapAt l i j).Perm l := by
  unfold swapAt
  split
  · rename_i a b ha hb
    obtain ⟨hi, rfl⟩ := List.getElem?_eq_some_iff.mp ha
    obtain ⟨hj, rfl⟩ := List.getElem?_eq_some_iff.mp hb
    exact List.set_set_perm hi hj
  · exact List.Perm.refl _

theorem swapAt_get (l : List A) {i j : Nat} (hi : i < l.length) (hj : j < l.length) (k : Nat) :
    (swapAt l i j)[k]? = if k = j then l[i]? else if k = i then l[j]? else l[k]? := by
  unfold swapAt
  rw [List.getElem?_eq_getElem hi, List.getElem?_eq_getElem hj]
  simp only [List.getElem?_set, List.length_set]
  by_cases h1 : k = j
  · subst h1; simp [hj]
  · have : j ≠ k := fun h => h1 h.symm
    by_cases h2 : k = i
    · subst h2; simp [h1, this, hi]
    · have : i ≠ k := fun h => h2 h.symm
      simp [*]

theorem partition_spec (le : A → Bool) : ∀ (fuel : Nat) (l : List A) (p e : Nat), e - p ≤ fuel → p ≤ e →
    e ≤ l.length → (∀ i a, i < p → l[i]? = some a → le a = true) →
    (∀ i a, e ≤ i → l[i]? = some a → le a = false) →
    (partition le fuel l p e).Perm l ∧ ∃ k, k ≤ l.length ∧
      (∀ i a, i < k → (partition le fuel l p e)[i]? = some a → le a = true) ∧
      (∀ i a, k ≤ i → (partition le fuel l p e)[i]? = some a → le a = false) := by
  intro fuel
  induction fuel with
  | zero =>
    intro l p e hf hpe hel h1 h2
    have : p = e := by omega
    subst this
    exact ⟨List.Perm.refl _, p, hel, h1, h2⟩
  | succ fuel ih =>
    intro l p e hf hpe hel h1 h2
    unfold partition
    by_cases hlt : p < e
    · rw [if_pos hlt]
      have hp : p < l.length := by omega
      rw [List.getElem?_eq_getElem hp]
      simp only
      by_cases hle : le l[p] = true
      · rw [if_pos hle]
        apply ih l (p + 1) e (by omega) (by omega) hel _ h2
        intro i a hi ha
        by_cases hip : i = p
        · subst hip
          rw [List.getElem?_eq_getElem hp] at ha
          cases ha; exact hle
        · exact h1 i a (by omega) ha
      · rw [if_neg hle]
        have he : e - 1 < l.length := by omega
        have hlen : (swapAt l p (e - 1)).length = l.length := (swapAt_perm l p (e - 1)).length_eq
        obtain ⟨hperm, k, hk, hk1, hk2⟩ := ih (swapAt l p (e - 1)) p (e - 1) (by omega) (by omega) (by omega)
          (by
            intro i a hi ha
            rw [swapAt_get l hp he] at ha
            rw [if_neg (by omega), if_neg (by omega)] at ha
            exact h1 i a hi ha)
          (by
            intro i a hi ha
            rw [swapAt_get l hp he] at ha
            by_cases hie : i = e - 1
            · rw [if_pos hie, List.getElem?_eq_getElem hp] at ha
              cases ha
              simpa using hle
            · rw [if_neg hie] at ha
              rw [if_neg (by omega)] at ha
              exact h2 i a (by omega) ha)
        exact ⟨hperm.trans (swapAt_perm l p (e - 1)), k, by omega, hk1, hk2⟩
    · rw [if_neg hlt]
      have : p = e := by omega
      subst this
      exact ⟨List.Perm.refl _, p, hel, h1, h2⟩

theorem filter_take_drop (le : A → Bool) (l : List A) (k : Nat)
    (h1 : ∀ i a, i < k → l[i]? = some a → le a = true) (h2 : ∀ i a, k ≤ i → l[i]? = some a → le a = false) :
    l.filter le = l.take k ∧ l.filter (fun a => !le a) = l.drop k := by
  have e := List.take_append_drop k l
  have t : ∀ a ∈ l.take k, le a = true := by
    intro a ha
    obtain ⟨i, hi, rfl⟩ := List.mem_iff_getElem.mp ha
    rw [List.length_take] at hi
    have : (l.take k)[i] = l[i]'(by omega) := List.getElem_take ..
    rw [this]
    exact h1 i _ (by omega) (List.getElem?_eq_getElem _)
  have d : ∀ a ∈ l.drop k, le a = false := by
    intro a ha
    obtain ⟨i, hi, rfl⟩ := List.mem_iff_getElem.mp ha
    rw [List.length_drop] at hi
    rw [List.getElem_drop]
    exact h2 (k + i) _ (by omega) (List.getElem?_eq_getElem _)
  constructor
  · conv_lhs => rw [← e]
    rw [List.filter_append, List.filter_eq_self.mpr t, List.filter_eq_nil_iff.mpr (by intro a ha; simp [d a ha]),
      List.append_nil]
  · conv_lhs => rw [← e]
    rw [List.filter_append, List.filter_eq_nil_iff.mpr (by intro a ha; simp [t a ha]),
      List.filter_eq_self.mpr (by intro a ha; simp [d a ha]), List.nil_append]

/-- the whole partition: the left samples come first -/
theorem partition_filter (le : A → Bool) (l : List A) :
    (partition le l.length l 0 l.length).take (l.filter le).length = (partition le l.length l 0 l.length).filter le ∧
    (partition le l.length l 0 l.length).drop (l.filter le).length =
      (partition le l.length l 0 l.length).filter (fun a => !le a) ∧
    (partition le l.length l 0 l.length).Perm l := by
  obtain ⟨hp, k, hk, h1, h2⟩ := partition_spec le l.length l 0 l.length (by omega) (by omega) (le_refl _)
    (by intro i a hi; omega) (by
      intro i a hi ha
      obtain ⟨hh, _⟩ := List.getElem?_eq_some_iff.mp ha
      omega)
  obtain ⟨f1, f2⟩ := filter_take_drop le _ k h1 h2
  have hlen : (l.filter le).length = k := by
    have := (hp.filter le).length_eq
    rw [f1, List.length_take, hp.length_eq] at this
    omega
  rw [hlen]
  exact ⟨f1.symm, f2.symm, hp⟩

/-! ### positions and cuts -/

theorem value_get (x : A → Nat → K) (f : Nat) (l : List A) {p : Nat} (hp : p < l.length) :
    value x f l p = x l[p] f := by
  unfold value; rw [List.getElem?_eq_getElem hp]

theorem sorted_value (x : A → Nat → K) (f : Nat) (l : List A) (hs : l.Pairwise (fun a b => x a f ≤ x b f))
    {p q : Nat} (hpq : p ≤ q) (hq : q < l.length) : value x f l p ≤ value x f l q := by
  rw [value_get x f l (by omega), value_get x f l hq]
  rcases Nat.lt_or_eq_of_le hpq with h | h
  · exact List.pairwise_iff_getElem.mp hs p q (by omega) hq h
  · subst h; exact le_refl _

/-- a cut at a threshold between two neighbours of a sorted list is a cut at a position -/
theorem cut_position (x : A → Nat → K) (f : Nat) (l : List A) (hs : l.Pairwise (fun a b => x a f ≤ x b f))
    {q : Nat} (h0 : 0 < q) (hq : q < l.length) {t : K} (h1 : value x f l (q - 1) ≤ t) (h2 : t < value x f l q) :
    l.filter (cut x f t) = l.take q ∧ l.filter (fun a => !cut x f t a) = l.drop q := by
  apply filter_take_drop
  · intro i a hi ha
    obtain ⟨hh, rfl⟩ := List.getElem?_eq_some_iff.mp ha
    have := sorted_value x f l hs (p := i) (q := q - 1) (by omega) (by omega)
    rw [value_get x f l hh] at this
    simp only [cut, decide_eq_true_eq]
    exact le_trans this h1
  · intro i a hi ha
    obtain ⟨hh, rfl⟩ := List.getElem?_eq_some_iff.mp ha
    have := sorted_value x f l hs (p := q) (q := i) hi hh
    rw [value_get x f l hh] at this
    simp only [cut, decide_eq_false_iff_not, not_le]
    exact lt_of_lt_of_le h2 this

theorem threshold_between {P : Params A K} (hP : SoundParams P) (xs : Nat → K) (q : Nat)
    (h : xs (q - 1) < xs q) : xs (q - 1) ≤ threshold P.mid xs q ∧ threshold P.mid xs q < xs q := by
  unfold threshold
  simp only
  obtain ⟨a, b⟩ := hP.mid _ _ h
  by_cases e : P.mid (xs (q - 1)) (xs q) = xs q
  · rw [if_pos e]; exact ⟨le_refl _, h⟩
  · rw [if_neg e]; exact ⟨a, lt_of_le_of_ne b e⟩

theorem reads_segment (g : A → M) (l : List A) (a b : Nat) (hb : b ≤ l.length) :
    segment (reads g l) a b = ((l.take b).drop a).map g := by
  unfold segment
  apply List.ext_getElem
  · simp
    omega
  · intro i h1 h2
    simp only [List.length_map, List.length_range', List.length_drop, List.length_take] at h1 h2
    simp only [List.getElem_map, List.getElem_range', Nat.one_mul, List.getElem_drop, List.getElem_take]
    unfold reads
    rw [List.getElem?_eq_getElem (by omega)]

theorem reads_total (g : A → M) (l : List A) : (segment (reads g l) 0 l.length).sum = (l.map g).sum := by
  rw [reads_segment g l 0 l.length (le_refl _)]; simp

theorem init_total (g : A → M) (l : List A) : (Crit.init (reads g l) 0 l.length).total = (l.map g).sum := by
  show sumUp _ _ _ = _
  rw [sumUp_eq, reads_total]

/-- the state of a criterion at position `q` of a list -/
def posState (g : A → M) (l : List A) (q : Nat) : Crit M :=
  ⟨0, l.length, q, (l.map g).sum, ((l.take q).map g).sum, ((l.drop q).map g).sum⟩

theorem update_posState {C : Criterion A M K V} (hC : SoundCriterion C) (l : List A) {p q : Nat} (hpq : p ≤ q)
    (hq : q ≤ l.length) : C.update (reads C.contrib l) (posState C.contrib l p) q = posState C.contrib l q := by
  rw [hC _ _ q (Nat.zero_le _) hpq hq]
  · show Crit.mk 0 l.length q _ (segment (reads C.contrib l) 0 q).sum (segment (reads C.contrib l) q l.length).sum =
      Crit.mk 0 l.length q _ _ _
    rw [reads_segment _ _ _ _ (le_refl _), reads_segment C.contrib l 0 q hq]
    simp [posState]
  · show (l.map C.contrib).sum = (segment (reads C.contrib l) 0 l.length).sum
    rw [reads_total]
  · show ((l.take p).map C.contrib).sum = (segment (reads C.contrib l) 0 p).sum
    rw [reads_segment _ _ _ _ (by omega)]; simp

theorem posState_cut (g : A → M) (l : List A) (le : A → Bool) {q : Nat} (hq : q ≤ l.length)
    (h1 : l.filter le = l.take q) (h2 : l.filter (fun a => !le a) = l.drop q) :
    posState g l q = cutState g l le := by
  unfold posState cutState
  rw [h1, h2, List.length_take]
  congr 1
  omega

theorem cutState_perm (g : A → M) {S S' : List A} (h : S.Perm S') (le : A → Bool) :
    cutState g S le = cutState g S' le := by
  unfold cutState
  rw [h.length_eq, (h.filter le).length_eq, (h.map g).sum_eq, ((h.filter le).map g).sum_eq,
    ((h.filter (fun a => !le a)).map g).sum_eq]

theorem admissible_perm {P : Params A K} {C : Criterion A M K V} {x : A → Nat → K} {S S' : List A} (h : S.Perm S')
    {f : Nat} {t : K} (ha : Admissible P C x S f t) : Admissible P C x S' f t := by
  unfold Admissible at ha ⊢
  simp only at ha ⊢
  rw [← cutState_perm C.contrib h, ← (h.filter (cut x f t)).length_eq, ← h.length_eq]
  exact ha

theorem score_perm {C : Criterion A M K V} {x : A → Nat → K} {S S' : List A} (h : S.Perm S') (f : Nat) (t : K) :
    score C x S f t = score C x S' f t := by
  unfold score; rw [cutState_perm C.contrib h]

/-! ### the scan along one feature -/

theorem skipTies_spec (thr : K) (xs : Nat → K) (n : Nat) : ∀ (fuel p : Nat), n - p ≤ fuel →
    p ≤ skipTies thr xs n fuel p ∧
    (∀ i, p ≤ i → i < skipTies thr xs n fuel p → xs (i + 1) ≤ xs i + thr) ∧
    (skipTies thr xs n fuel p + 1 < n →
      xs (skipTies thr xs n fuel p) + thr < xs (skipTies thr xs n fuel p + 1)) := by
  intro fuel
  induction fuel with
  | zero =>
    intro p hp
    unfold skipTies
    refine ⟨le_refl _, by intro i h1 h2; omega, by intro h; omega⟩
  | succ fuel ih =>
    intro p hp
    unfold skipTies
    by_cases h : p + 1 < n ∧ xs (p + 1) ≤ xs p + thr
    · rw [if_pos h]
      obtain ⟨a, b, c⟩ := ih (p + 1) (by omega)
      refine ⟨by omega, ?_, c⟩
      intro i h1 h2
      by_cases hi : i = p
      · subst hi; exact h.2
      · exact b i (by omega) h2
    · rw [if_neg h]
      refine ⟨le_refl _, by intro i h1 h2; omega, ?_⟩
      intro hn
      by_contra hc
      exact h ⟨hn, not_lt.mp hc⟩

/-- a recorded split together with its score is an admissible cut of `S` -/
def Good (P : Params A K) (C : Criterion A M K V) (x : A → Nat → K) (S : List A) (b : K × Split K) : Prop :=
  Admissible P C x S b.2.feature b.2.threshold ∧ b.2.pos = (S.filter (cut x b.2.feature b.2.threshold)).length ∧
    b.1 = score C x S b.2.feature b.2.threshold

/-- at least as good as the score `v` -/
def AtLeast (best : Option (K × Split K)) (v : K) : Prop := ∃ b, best = some b ∧ v ≤ b.1

/-- the new best is at least as good as the old one -/
def Improves (old new : Option (K × Split K)) : Prop := ∀ v, AtLeast old v → AtLeast new v

theorem improves_refl (o : Option (K × Split K)) : Improves o o := fun _ h => h

theorem improves_trans {a b c : Option (K × Split K)} (h : Improves a b) (h' : Improves b c) : Improves a c :=
  fun v hv => h' v (h v hv)

theorem scan_spec {P : Params A K} {C : Criterion A M K V} (hP : SoundParams P) (hC : SoundCriterion C)
    (x : A → Nat → K) (f : Nat) (l : List A) (hs : l.Pairwise (fun a b => x a f ≤ x b f)) :
    ∀ (fuel p p0 : Nat) (best : Option (K × Split K)), l.length - p ≤ fuel → p0 ≤ p → p0 ≤ l.length →
    (∀ b, best = some b → Good P C x l b) →
    (∃ q, q ≤ l.length ∧ (scan P C x f l fuel p (posState C.contrib l p0) best).1 = posState C.contrib l q) ∧
    (∀ b, (scan P C x f l fuel p (posState C.contrib l p0) best).2 = some b → Good P C x l b) ∧
    Improves best (scan P C x f l fuel p (posState C.contrib l p0) best).2 ∧
    (∀ q, p < q → q < l.length → value x f l (q - 1) + P.thr < value x f l q → P.minSamplesLeaf ≤ q →
      P.minSamplesLeaf ≤ l.length - q → P.minWeightLeaf ≤ C.weightLeft (posState C.contrib l q) →
      P.minWeightLeaf ≤ C.weightRight (posState C.contrib l q) →
      AtLeast (scan P C x f l fuel p (posState C.contrib l p0) best).2 (C.proxy (posState C.contrib l q))) := by
  intro fuel
  induction fuel with
  | zero =>
    intro p p0 best hf hp0 hl hb
    exact ⟨⟨p0, hl, rfl⟩, hb, improves_refl _, by intro q h1 h2; omega⟩
  | succ fuel ih =>
    intro p p0 best hf hp0 hl hb
    unfold scan
    by_cases hp : p < l.length
    · rw [if_pos hp]
      simp only
      obtain ⟨s1, s2, s3⟩ := skipTies_spec P.thr (value x f l) l.length l.length p (by omega)
      generalize skipTies P.thr (value x f l) l.length l.length p = s at *
      have noCand : ∀ q, p < q → q ≤ s → ¬ value x f l (q - 1) + P.thr < value x f l q := by
        intro q h1 h2 hc
        have := s2 (q - 1) (by omega) (by omega)
        rw [Nat.sub_add_cancel (by omega)] at this
        exact absurd hc (not_lt.mpr this)
      by_cases hq : s + 1 < l.length
      · rw [if_pos hq]
        have hgap := s3 hq
        by_cases hm : s + 1 < P.minSamplesLeaf ∨ l.length - (s + 1) < P.minSamplesLeaf
        · rw [if_pos hm]
          obtain ⟨r1, r2, r3, r4⟩ := ih (s + 1) p0 best (by omega) (by omega) hl hb
          refine ⟨r1, r2, r3, ?_⟩
          intro q h1 h2 h3 h4 h5 h6 h7
          rcases Nat.lt_trichotomy q (s + 1) with h | h | h
          · exact absurd h3 (noCand q h1 (by omega))
          · subst h; omega
          · exact r4 q h h2 h3 h4 h5 h6 h7
        · rw [if_neg hm]
          rw [update_posState hC l (q := s + 1) (by omega) (by omega)]
          by_cases hw : C.weightLeft (posState C.contrib l (s + 1)) < P.minWeightLeaf ∨
              C.weightRight (posState C.contrib l (s + 1)) < P.minWeightLeaf
          · rw [if_pos hw]
            obtain ⟨r1, r2, r3, r4⟩ := ih (s + 1) (s + 1) best (by omega) (le_refl _) (by omega) hb
            refine ⟨r1, r2, r3, ?_⟩
            intro q h1 h2 h3 h4 h5 h6 h7
            rcases Nat.lt_trichotomy q (s + 1) with h | h | h
            · exact absurd h3 (noCand q h1 (by omega))
            · subst h
              rcases hw with hw | hw
              · exact absurd h6 (not_le.mpr hw)
              · exact absurd h7 (not_le.mpr hw)
            · exact r4 q h h2 h3 h4 h5 h6 h7
          · rw [if_neg hw]
            have hlt : value x f l (s + 1 - 1) < value x f l (s + 1) := by
              have := hP.thr
              simp only [Nat.add_sub_cancel]
              linarith
            obtain ⟨t1, t2⟩ := threshold_between hP (value x f l) (s + 1) hlt
            obtain ⟨c1, c2⟩ := cut_position x f l hs (by omega) hq t1 t2
            have hgood : Good P C x l (C.proxy (posState C.contrib l (s + 1)),
                ⟨f, s + 1, threshold P.mid (value x f l) (s + 1)⟩) := by
              have e := posState_cut C.contrib l _ (le_of_lt hq) c1 c2
              have hlen : (l.filter (cut x f (threshold P.mid (value x f l) (s + 1)))).length = s + 1 := by
                rw [c1, List.length_take]; omega
              refine ⟨⟨?_, ?_, ?_, ?_, ?_, ?_⟩, ?_, ?_⟩
              · show P.minSamplesLeaf ≤ _
                rw [hlen]; omega
              · show P.minSamplesLeaf ≤ l.length - _
                rw [hlen]; omega
              · show 0 < _
                rw [hlen]; omega
              · show _ < l.length
                rw [hlen]; omega
              · show P.minWeightLeaf ≤ C.weightLeft (cutState C.contrib l _)
                rw [← e]; push_neg at hw; exact hw.1
              · show P.minWeightLeaf ≤ C.weightRight (cutState C.contrib l _)
                rw [← e]; push_neg at hw; exact hw.2
              · exact hlen.symm
              · show C.proxy _ = C.proxy _
                rw [e]
            by_cases hbt : better (C.proxy (posState C.contrib l (s + 1))) best = true
            · rw [if_pos hbt]
              have himp : Improves best (some (C.proxy (posState C.contrib l (s + 1)),
                  (⟨f, s + 1, threshold P.mid (value x f l) (s + 1)⟩ : Split K))) := by
                rintro v ⟨b, rfl, hv⟩
                simp only [better, decide_eq_true_eq] at hbt
                exact ⟨_, rfl, le_trans hv hbt.le⟩
              obtain ⟨r1, r2, r3, r4⟩ := ih (s + 1) (s + 1) (some (C.proxy (posState C.contrib l (s + 1)),
                  ⟨f, s + 1, threshold P.mid (value x f l) (s + 1)⟩)) (by omega) (le_refl _) (by omega)
                (by intro b hb'; cases hb'; exact hgood)
              refine ⟨r1, r2, improves_trans himp r3, ?_⟩
              intro q h1 h2 h3 h4 h5 h6 h7
              rcases Nat.lt_trichotomy q (s + 1) with h | h | h
              · exact absurd h3 (noCand q h1 (by omega))
              · subst h; exact r3 _ ⟨_, rfl, le_refl _⟩
              · exact r4 q h h2 h3 h4 h5 h6 h7
            · rw [if_neg hbt]
              obtain ⟨r1, r2, r3, r4⟩ := ih (s + 1) (s + 1) best (by omega) (le_refl _) (by omega) hb
              refine ⟨r1, r2, r3, ?_⟩
              intro q h1 h2 h3 h4 h5 h6 h7
              rcases Nat.lt_trichotomy q (s + 1) with h | h | h
              · exact absurd h3 (noCand q h1 (by omega))
              · subst h
                apply r3
                cases best with
                | none => simp [better] at hbt
                | some b =>
                  simp only [better, decide_eq_true_eq, not_lt] at hbt
                  exact ⟨b, rfl, hbt⟩
              · exact r4 q h h2 h3 h4 h5 h6 h7
      · rw [if_neg hq]
        obtain ⟨r1, r2, r3, r4⟩ := ih (s + 1) p0 best (by omega) (by omega) hl hb
        refine ⟨r1, r2, r3, ?_⟩
        intro q h1 h2 h3
        exact absurd h3 (noCand q h1 (by omega))
    · rw [if_neg hp]
      exact ⟨⟨p0, hl, rfl⟩, hb, improves_refl _, by intro q h1 h2; omega⟩

/-! ### all drawn features -/

theorem sorted_cut (x : A → Nat → K) (f : Nat) (l : List A) (hs : l.Pairwise (fun a b => x a f ≤ x b f)) (t : K) :
    l.filter (cut x f t) = l.take (l.filter (cut x f t)).length ∧
    l.filter (fun a => !cut x f t a) = l.drop (l.filter (cut x f t)).length := by
  apply filter_take_drop
  · intro i a hi ha
    by_contra hc
    obtain ⟨hh, rfl⟩ := List.getElem?_eq_some_iff.mp ha
    have hd : ∀ b ∈ l.drop i, cut x f t b = false := by
      intro b hb
      obtain ⟨j, hj, rfl⟩ := List.mem_iff_getElem.mp hb
      rw [List.length_drop] at hj
      rw [List.getElem_drop]
      have := sorted_value x f l hs (p := i) (q := i + j) (by omega) (by omega)
      rw [value_get x f l hh, value_get x f l (by omega)] at this
      simp only [cut, decide_eq_true_eq, not_le] at hc
      simp only [cut, decide_eq_false_iff_not, not_le]
      exact lt_of_lt_of_le hc this
    have : (l.filter (cut x f t)).length ≤ i := by
      conv_lhs => rw [← List.take_append_drop i l]
      rw [List.filter_append, (List.filter_eq_nil_iff (l := l.drop i)).mpr (by intro b hb; simp [hd b hb]),
        List.append_nil]
      exact le_trans (List.length_filter_le _ _) (by rw [List.length_take]; omega)
    omega
  · intro i a hi ha
    by_contra hc
    obtain ⟨hh, rfl⟩ := List.getElem?_eq_some_iff.mp ha
    have hd : ∀ b ∈ l.take (i + 1), cut x f t b = true := by
      intro b hb
      obtain ⟨j, hj, rfl⟩ := List.mem_iff_getElem.mp hb
      rw [List.length_take] at hj
      have e : (l.take (i + 1))[j]'(by rw [List.length_take]; exact hj) = l[j]'(by omega) := List.getElem_take ..
      rw [e]
      have := sorted_value x f l hs (p := j) (q := i) (by omega) (by omega)
      rw [value_get x f l hh, value_get x f l (by omega)] at this
      simp only [cut, decide_eq_false_iff_not, not_not] at hc
      simp only [cut, decide_eq_true_eq]
      exact le_trans this hc
    have : i + 1 ≤ (l.filter (cut x f t)).length := by
      conv_rhs => rw [← List.take_append_drop (i + 1) l]
      rw [List.filter_append, List.filter_eq_self.mpr hd, List.length_append, List.length_take]
      omega
    omega

theorem good_perm {P : Params A K} {C : Criterion A M K V} {x : A → Nat → K} {S S' : List A} (h : S.Perm S')
    {b : K × Split K} (hg : Good P C x S b) : Good P C x S' b :=
  ⟨admissible_perm h hg.1, by rw [← (h.filter _).length_eq]; exact hg.2.1, by rw [← score_perm h]; exact hg.2.2⟩

theorem reset_posState (g : A → M) {l l' : List A} (h : l'.Perm l) (q : Nat) :
    reset (posState g l q) = posState g l' 0 := by
  unfold posState reset
  simp only [List.take_zero, List.drop_zero, List.map_nil, List.sum_nil]
  rw [h.length_eq, (h.map g).sum_eq]

theorem posState_zero_perm (g : A → M) {l l' : List A} (h : l.Perm l') : posState g l 0 = posState g l' 0 := by
  unfold posState
  simp only [List.take_zero, List.drop_zero, List.map_nil, List.sum_nil]
  rw [h.length_eq, (h.map g).sum_eq]

theorem visit_spec {P : Params A K} {C : Criterion A M K V} (hP : SoundParams P) (hC : SoundCriterion C)
    (x : A → Nat → K) (S l : List A) (hl : l.Perm S) (c : Crit M) (hc : reset c = posState C.contrib S 0)
    (best : Option (K × Split K)) (hb : ∀ b, best = some b → Good P C x S b) (f : Nat) :
    (visit P C x (l, c, best) f).1.Perm S ∧
    reset (visit P C x (l, c, best) f).2.1 = posState C.contrib S 0 ∧
    (∀ b, (visit P C x (l, c, best) f).2.2 = some b → Good P C x S b) ∧
    Improves best (visit P C x (l, c, best) f).2.2 ∧
    (∀ t, Admissible P C x S f t → Apart P.thr x S f t →
      AtLeast (visit P C x (l, c, best) f).2.2 (score C x S f t)) := by
  unfold visit
  simp only
  have hperm := hP.perm (fun a => x a f) l
  have hsort := hP.sorted (fun a => x a f) l
  generalize P.sort (fun a => x a f) l = m at *
  have hmS : m.Perm S := hperm.trans hl
  have cand : ∀ t, Admissible P C x S f t → Apart P.thr x S f t →
      ∃ k, 0 < k ∧ k < m.length ∧ value x f m (k - 1) + P.thr < value x f m k ∧ P.minSamplesLeaf ≤ k ∧
        P.minSamplesLeaf ≤ m.length - k ∧ P.minWeightLeaf ≤ C.weightLeft (posState C.contrib m k) ∧
        P.minWeightLeaf ≤ C.weightRight (posState C.contrib m k) ∧ C.proxy (posState C.contrib m k) = score C x S f t := by
    intro t ha hap
    have ha' := admissible_perm hmS.symm ha
    obtain ⟨h1, h2⟩ := sorted_cut x f m hsort t
    obtain ⟨a1, a2, a3, a4, a5, a6⟩ := ha'
    have e := posState_cut C.contrib m (cut x f t) (le_of_lt a4) h1 h2
    refine ⟨_, a3, a4, ?_, a1, a2, by rw [e]; exact a5, by rw [e]; exact a6, ?_⟩
    · rw [value_get x f m (by omega), value_get x f m a4]
      apply hap
      · exact hmS.subset (List.getElem_mem _)
      · exact hmS.subset (List.getElem_mem _)
      · have : m[(m.filter (cut x f t)).length - 1]'(by omega) ∈ m.filter (cut x f t) := by
          have hm : m[(m.filter (cut x f t)).length - 1]'(by omega) ∈ m.take (m.filter (cut x f t)).length := by
            rw [List.mem_take_iff_getElem]
            exact ⟨_, by omega, rfl⟩
          rw [← h1] at hm
          exact hm
        have := (List.mem_filter.mp this).2
        simpa [cut] using this
      · have : m[(m.filter (cut x f t)).length]'(by omega) ∈ m.filter (fun a => !cut x f t a) := by
          rw [h2]
          rw [List.mem_drop_iff_getElem]
          exact ⟨0, by simpa using a4, by simp⟩
        have := (List.mem_filter.mp this).2
        simpa [cut] using this
    · rw [e, score_perm hmS.symm]; rfl
  by_cases hconst : value x f m (m.length - 1) ≤ value x f m 0 + P.thr
  · rw [if_pos hconst]
    refine ⟨hmS, hc, hb, improves_refl _, ?_⟩
    intro t ha hap
    obtain ⟨k, k1, k2, k3, _⟩ := cand t ha hap
    exfalso
    have a := sorted_value x f m hsort (p := 0) (q := k - 1) (by omega) (by omega)
    have b := sorted_value x f m hsort (p := k) (q := m.length - 1) (by omega) (by omega)
    linarith
  · rw [if_neg hconst]
    simp only
    rw [hc, posState_zero_perm C.contrib hmS.symm]
    obtain ⟨⟨q', hq', r1⟩, r2, r3, r4⟩ := scan_spec hP hC x f m hsort m.length 0 0 best (by omega) (le_refl _)
      (Nat.zero_le _) (fun b h => good_perm hmS.symm (hb b h))
    refine ⟨hmS, by
      rw [r1, reset_posState C.contrib (List.Perm.refl m), posState_zero_perm C.contrib hmS], fun b h => good_perm hmS (r2 b h), r3, ?_⟩
    intro t ha hap
    obtain ⟨k, k1, k2, k3, k4, k5, k6, k7, k8⟩ := cand t ha hap
    rw [← k8]
    exact r4 k k1 k2 k3 k4 k5 k6 k7

theorem visits_spec {P : Params A K} {C : Criterion A M K V} (hP : SoundParams P) (hC : SoundCriterion C)
    (x : A → Nat → K) (S : List A) : ∀ (feats : List Nat) (l : List A) (c : Crit M) (best : Option (K × Split K)),
    l.Perm S → reset c = posState C.contrib S 0 → (∀ b, best = some b → Good P C x S b) →
    (feats.foldl (visit P C x) (l, c, best)).1.Perm S ∧
    reset (feats.foldl (visit P C x) (l, c, best)).2.1 = posState C.contrib S 0 ∧
    (∀ b, (feats.foldl (visit P C x) (l, c, best)).2.2 = some b → Good P C x S b) ∧
    Improves best (feats.foldl (visit P C x) (l, c, best)).2.2 ∧
    (∀ f ∈ feats, ∀ t, Admissible P C x S f t → Apart P.thr x S f t →
      AtLeast (feats.foldl (visit P C x) (l, c, best)).2.2 (score C x S f t)) := by
  intro feats
  induction feats with
  | nil => intro l c best hl hc hb; exact ⟨hl, hc, hb, improves_refl _, by simp⟩
  | cons f feats ih =>
    intro l c best hl hc hb
    rw [List.foldl_cons]
    obtain ⟨v1, v2, v3, v4, v5⟩ := visit_spec hP hC x S l hl c hc best hb f
    generalize visit P C x (l, c, best) f = st at *
    obtain ⟨l', c', best'⟩ := st
    obtain ⟨r1, r2, r3, r4, r5⟩ := ih l' c' best' v1 v2 v3
    refine ⟨r1, r2, r3, improves_trans v4 r4, ?_⟩
    intro g hg t ha hap
    rcases List.mem_cons.mp hg with rfl | hg
    · exact r4 _ (v5 t ha hap)
    · exact r5 g hg t ha hap

/-- **C83, at one node.** A split found for the samples `S` is an admissible cut with the best score among all
admissible cuts along the drawn features; the samples are reordered so that the left ones come first; if there is any
admissible cut, one is found. -/
theorem nodeSplit_spec {P : Params A K} {C : Criterion A M K V} (hP : SoundParams P) (hC : SoundCriterion C)
    (x : A → Nat → K) (feats : List Nat) (S : List A) (imp : K) :
    match nodeSplit P C x feats S imp with
    | none => ∀ f ∈ feats, ∀ t, Admissible P C x S f t → ¬ Apart P.thr x S f t
    | some r =>
      Admissible P C x S r.split.feature r.split.threshold ∧
      r.split.pos = (S.filter (cut x r.split.feature r.split.threshold)).length ∧
      (r.rows.take r.split.pos).Perm (S.filter (cut x r.split.feature r.split.threshold)) ∧
      (r.rows.drop r.split.pos).Perm (S.filter (fun a => !cut x r.split.feature r.split.threshold a)) ∧
      (∀ f ∈ feats, ∀ t, Admissible P C x S f t → Apart P.thr x S f t →
        score C x S f t ≤ score C x S r.split.feature r.split.threshold) ∧
      (∃ h : Nat → M, segment h 0 S.length = r.rows.map C.contrib ∧
        (r.impurityLeft, r.impurityRight) =
          C.children h (cutState C.contrib S (cut x r.split.feature r.split.threshold)) ∧
        r.improvement = C.improvement imp r.impurityLeft r.impurityRight
          (cutState C.contrib S (cut x r.split.feature r.split.threshold))) := by
  have hc : reset (Crit.init (reads C.contrib S) 0 S.length) = posState C.contrib S 0 := by
    unfold Crit.init reset posState
    simp only [List.take_zero, List.drop_zero, List.map_nil, List.sum_nil]
    rw [sumUp_eq, reads_total]
  obtain ⟨r1, r2, r3, r4, r5⟩ := visits_spec hP hC x S feats S _ none (List.Perm.refl S) hc (by simp)
  unfold nodeSplit
  generalize feats.foldl (visit P C x) (S, Crit.init (reads C.contrib S) 0 S.length, none) = st at *
  obtain ⟨l', c, best⟩ := st
  cases best with
  | none =>
    simp only
    intro f hf t ha hap
    obtain ⟨b, hb, _⟩ := r5 f hf t ha hap
    cases hb
  | some b =>
    obtain ⟨v, s⟩ := b
    simp only at r1 r2 r3 r5 ⊢
    obtain ⟨g1, g2, g3⟩ := r3 _ rfl
    obtain ⟨p1, p2, p3⟩ := partition_filter (cut x s.feature s.threshold) l'
    have hlen : (l'.filter (cut x s.feature s.threshold)).length = s.pos := by
      rw [(r1.filter _).length_eq]; exact g2.symm
    rw [hlen] at p1 p2
    have e : (fun a => decide (x a s.feature ≤ s.threshold)) = cut x s.feature s.threshold := rfl
    rw [e]
    generalize partition (cut x s.feature s.threshold) l'.length l' 0 l'.length = rows at *
    have hrS : rows.Perm S := p3.trans r1
    have hst : C.update (reads C.contrib rows) (reset c) s.pos =
        cutState C.contrib S (cut x s.feature s.threshold) := by
      rw [r2, posState_zero_perm C.contrib hrS.symm, update_posState hC rows (Nat.zero_le _)]
      · rw [posState_cut C.contrib rows (cut x s.feature s.threshold) _ p1.symm p2.symm, cutState_perm C.contrib hrS]
        rw [hrS.length_eq]; have h4 := g1.2.2.2.1; simp only at h4 g2; omega
      · rw [hrS.length_eq]; have h4 := g1.2.2.2.1; simp only at h4 g2; omega
    refine ⟨g1, g2, ?_, ?_, ?_, ?_⟩
    · rw [p1]; exact hrS.filter _
    · rw [p2]; exact hrS.filter _
    · intro f hf t ha hap
      obtain ⟨b, hb, hv⟩ := r5 f hf t ha hap
      cases hb
      rw [← g3]; exact hv
    · refine ⟨reads C.contrib rows, ?_, ?_, ?_⟩
      · rw [reads_segment _ _ _ _ (by rw [hrS.length_eq])]
        rw [List.take_of_length_le (by rw [hrS.length_eq])]; rfl
      · rw [hst]
      · rw [hst]

end YL.Props
