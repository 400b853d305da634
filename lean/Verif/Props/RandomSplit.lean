import Verif.Model.RandomSplit
import Verif.Props.TreeSplit
import Verif.Props.Tree
import Mathlib.Data.List.Nodup
import Mathlib.Tactic.Linarith

/-!
# C177: the random splitter takes the best of the random cuts it has drawn

Specification: random cuts; admissible cuts and scores are those of C83.
-/
set_option linter.unusedSectionVars false

namespace YL.Spec
open YL.Crit YL.Tree

variable {A K V M : Type} [AddCommGroup M] [Field K] [LinearOrder K]

/-- The feature takes values further apart than the resolution of the features. -/
def Varies (thr : K) (x : A → Nat → K) (S : List A) (f : Nat) : Prop :=
  ∃ a ∈ S, ∃ b ∈ S, x a f + thr < x b f

/-- `t` is the threshold for the random number `u`: the point at the fraction `u` between the least and the greatest
value of the feature, and the least one where that would be the greatest. -/
def RandomCut (x : A → Nat → K) (S : List A) (f : Nat) (u t : K) : Prop :=
  ∃ a ∈ S, ∃ b ∈ S, (∀ c ∈ S, x a f ≤ x c f ∧ x c f ≤ x b f) ∧
    ((x a f + (x b f - x a f) * u ≠ x b f ∧ t = x a f + (x b f - x a f) * u) ∨
     (x a f + (x b f - x a f) * u = x b f ∧ t = x a f))

end YL.Spec

namespace YL.Props
open YL.Crit YL.Tree YL.Spec YL.Rand

variable {A K V M : Type} [AddCommGroup M] [Field K] [LinearOrder K] [IsStrictOrderedRing K]

/-! ### helpers -/

theorem minMax_spec (vs : List K) : ∀ (b : K × K), b.1 ≤ b.2 →
    (minMax b vs).1 ≤ b.1 ∧ b.2 ≤ (minMax b vs).2 ∧ (∀ v ∈ vs, (minMax b vs).1 ≤ v ∧ v ≤ (minMax b vs).2) ∧
    ((minMax b vs).1 = b.1 ∨ (minMax b vs).1 ∈ vs) ∧ ((minMax b vs).2 = b.2 ∨ (minMax b vs).2 ∈ vs) := by
  induction vs with
  | nil => intro b _; simp [minMax]
  | cons v vs ih =>
    intro b hb
    simp only [minMax]
    split
    · rename_i h
      obtain ⟨h1, h2, h3, h4, h5⟩ := ih (v, b.2) (le_trans (le_of_lt h) hb)
      simp only at h1 h2 h4 h5
      refine ⟨le_trans h1 (le_of_lt h), h2, ?_, ?_, ?_⟩
      · intro w hw
        rcases List.mem_cons.mp hw with rfl | hw
        · exact ⟨h1, le_trans (le_trans (le_of_lt h) hb) h2⟩
        · exact h3 w hw
      · rcases h4 with h4 | h4
        · right; rw [h4]; exact List.mem_cons_self ..
        · right; exact List.mem_cons_of_mem _ h4
      · rcases h5 with h5 | h5
        · left; exact h5
        · right; exact List.mem_cons_of_mem _ h5
    · rename_i h
      split
      · rename_i h'
        obtain ⟨h1, h2, h3, h4, h5⟩ := ih (b.1, v) (le_trans hb (le_of_lt h'))
        simp only at h1 h2 h4 h5
        refine ⟨h1, le_trans (le_of_lt h') h2, ?_, ?_, ?_⟩
        · intro w hw
          rcases List.mem_cons.mp hw with rfl | hw
          · exact ⟨le_trans h1 (not_lt.mp h), h2⟩
          · exact h3 w hw
        · rcases h4 with h4 | h4
          · left; exact h4
          · right; exact List.mem_cons_of_mem _ h4
        · rcases h5 with h5 | h5
          · right; rw [h5]; exact List.mem_cons_self ..
          · right; exact List.mem_cons_of_mem _ h5
      · rename_i h'
        obtain ⟨h1, h2, h3, h4, h5⟩ := ih b hb
        refine ⟨h1, h2, ?_, ?_, ?_⟩
        · intro w hw
          rcases List.mem_cons.mp hw with rfl | hw
          · exact ⟨le_trans h1 (not_lt.mp h), le_trans (not_lt.mp h') h2⟩
          · exact h3 w hw
        · rcases h4 with h4 | h4
          · left; exact h4
          · right; exact List.mem_cons_of_mem _ h4
        · rcases h5 with h5 | h5
          · left; exact h5
          · right; exact List.mem_cons_of_mem _ h5

/-- the bounds found by the loop are attained -/
theorem minMax_rows (x : A → Nat → K) (f : Nat) (a : A) (rest : List A) :
    let b := minMax (x a f, x a f) (rest.map (fun c => x c f))
    (∃ p ∈ a :: rest, x p f = b.1) ∧ (∃ q ∈ a :: rest, x q f = b.2) ∧
      ∀ c ∈ a :: rest, b.1 ≤ x c f ∧ x c f ≤ b.2 := by
  intro b
  obtain ⟨h1, h2, h3, h4, h5⟩ := minMax_spec (rest.map (fun c => x c f)) (x a f, x a f) (le_refl _)
  simp only at h1 h2 h4 h5
  refine ⟨?_, ?_, ?_⟩
  · rcases h4 with h4 | h4
    · exact ⟨a, List.mem_cons_self .., h4.symm⟩
    · obtain ⟨p, hp, e⟩ := List.mem_map.mp h4
      exact ⟨p, List.mem_cons_of_mem _ hp, e⟩
  · rcases h5 with h5 | h5
    · exact ⟨a, List.mem_cons_self .., h5.symm⟩
    · obtain ⟨p, hp, e⟩ := List.mem_map.mp h5
      exact ⟨p, List.mem_cons_of_mem _ hp, e⟩
  · intro c hc
    rcases List.mem_cons.mp hc with rfl | hc
    · exact ⟨h1, h2⟩
    · exact h3 _ (List.mem_map.mpr ⟨c, hc, rfl⟩)

theorem swapAt_length (l : List A) (i j : Nat) : (swapAt l i j).length = l.length :=
  (swapAt_perm l i j).length_eq

theorem partitionPos_fst (le : A → Bool) : ∀ (fuel : Nat) (l : List A) (p e : Nat),
    (partitionPos le fuel l p e).1 = partition le fuel l p e := by
  intro fuel
  induction fuel with
  | zero => intro l p e; rfl
  | succ fuel ih =>
    intro l p e
    simp only [partitionPos, partition]
    by_cases h : p < e
    · rw [if_pos h, if_pos h]
      cases hp : l[p]? with
      | none => rfl
      | some a =>
        simp only
        by_cases hl : le a = true
        · rw [if_pos hl, if_pos hl]; exact ih _ _ _
        · rw [if_neg hl, if_neg hl]; exact ih _ _ _
    · rw [if_neg h, if_neg h]

theorem partitionPos_snd (le : A → Bool) : ∀ (fuel : Nat) (l : List A) (p e : Nat), e - p ≤ fuel → p ≤ e →
    e ≤ l.length → (∀ (i : Nat) (a : A), i < p → l[i]? = some a → le a = true) →
    (∀ (i : Nat) (a : A), e ≤ i → l[i]? = some a → le a = false) →
    (partitionPos le fuel l p e).2 = (l.filter le).length := by
  intro fuel
  induction fuel with
  | zero =>
    intro l p e hf hpe hel h1 h2
    have hpe : p = e := by omega
    subst hpe
    simp only [partitionPos]
    rw [(filter_take_drop le l p h1 h2).1, List.length_take]
    omega
  | succ fuel ih =>
    intro l p e hf hpe hel h1 h2
    simp only [partitionPos]
    by_cases h : p < e
    · rw [if_pos h]
      have hp : p < l.length := by omega
      rw [List.getElem?_eq_getElem hp]
      simp only
      by_cases hl : le l[p] = true
      · rw [if_pos hl]
        apply ih l (p + 1) e (by omega) (by omega) hel _ h2
        intro i a hi ha
        by_cases hip : i < p
        · exact h1 i a hip ha
        · have : i = p := by omega
          subst this
          rw [List.getElem?_eq_getElem hp] at ha
          cases ha
          exact hl
      · rw [if_neg hl]
        have hperm := swapAt_perm l p (e - 1)
        rw [ih (swapAt l p (e - 1)) p (e - 1) (by omega) (by omega)
          (by rw [swapAt_length]; omega) ?_ ?_]
        · exact (hperm.filter le).length_eq
        · intro i a hi ha
          rw [swapAt_get l hp (by omega), if_neg (by omega), if_neg (by omega)] at ha
          exact h1 i a hi ha
        · intro i a hi ha
          rw [swapAt_get l hp (by omega)] at ha
          by_cases hie : i = e - 1
          · rw [if_pos hie, List.getElem?_eq_getElem hp] at ha
            cases ha
            simpa using hl
          · rw [if_neg hie, if_neg (by omega)] at ha
            exact h2 i a (by omega) ha
    · rw [if_neg h]
      have hpe : p = e := by omega
      subst hpe
      simp only
      rw [(filter_take_drop le l p h1 h2).1, List.length_take]
      omega

/-- the partition along a cut -/
theorem partitionPos_cut (le : A → Bool) (l : List A) :
    (partitionPos le l.length l 0 l.length).1.Perm l ∧
    (partitionPos le l.length l 0 l.length).2 = (l.filter le).length ∧
    (partitionPos le l.length l 0 l.length).1.filter le =
      (partitionPos le l.length l 0 l.length).1.take (l.filter le).length ∧
    (partitionPos le l.length l 0 l.length).1.filter (fun a => !le a) =
      (partitionPos le l.length l 0 l.length).1.drop (l.filter le).length := by
  rw [partitionPos_fst]
  obtain ⟨h1, h2, h3⟩ := partition_filter le l
  refine ⟨h3, ?_, h1.symm, h2.symm⟩
  apply partitionPos_snd le l.length l 0 l.length (by omega) (by omega) (le_refl _)
  · intro i a hi; omega
  · intro i a hi ha
    obtain ⟨hh, _⟩ := List.getElem?_eq_some_iff.mp ha
    omega

theorem randomCut_perm {x : A → Nat → K} {S S' : List A} (h : S.Perm S') {f : Nat} {u t : K}
    (hr : RandomCut x S f u t) : RandomCut x S' f u t := by
  obtain ⟨a, ha, b, hb, hc, hd⟩ := hr
  exact ⟨a, h.subset ha, b, h.subset hb, fun c hcc => hc c (h.symm.subset hcc), hd⟩

theorem varies_perm {thr : K} {x : A → Nat → K} {S S' : List A} (h : S.Perm S') {f : Nat}
    (hr : Varies thr x S f) : Varies thr x S' f := by
  obtain ⟨a, ha, b, hb, hc⟩ := hr
  exact ⟨a, h.subset ha, b, h.subset hb, hc⟩

theorem randomCut_unique {x : A → Nat → K} {S : List A} {f : Nat} {u t t' : K}
    (h : RandomCut x S f u t) (h' : RandomCut x S f u t') : t = t' := by
  obtain ⟨a, ha, b, hb, hc, hd⟩ := h
  obtain ⟨a', ha', b', hb', hc', hd'⟩ := h'
  have e1 : x a f = x a' f := le_antisymm (hc a' ha').1 (hc' a ha).1
  have e2 : x b f = x b' f := le_antisymm (hc' b hb).2 (hc b' hb').2
  rw [← e1, ← e2] at hd'
  rcases hd with ⟨n1, e⟩ | ⟨n1, e⟩ <;> rcases hd' with ⟨n2, e'⟩ | ⟨n2, e'⟩
  · rw [e, e']
  · exact absurd n2 n1
  · exact absurd n1 n2
  · rw [e, e']

/-- the state is right: samples, sums, the best split, and whether the samples are partitioned by it -/
structure RGood (P : Params A K) (C : Criterion A M K V) (x : A → Nat → K) (S : List A) (done : List (Nat × K))
    (s : RSt A M K) : Prop where
  perm : s.rows.Perm S
  crit : reset s.crit = posState C.contrib S 0
  best : ∀ b, s.best = some b → Good P C x S b ∧ ∃ u, (b.2.feature, u) ∈ done ∧
    RandomCut x S b.2.feature u b.2.threshold ∧ Varies P.thr x S b.2.feature
  parted : ∀ b, s.best = some b → s.current = b.2.feature →
    s.rows.take b.2.pos = s.rows.filter (cut x b.2.feature b.2.threshold) ∧
    s.rows.drop b.2.pos = s.rows.filter (fun a => !cut x b.2.feature b.2.threshold a)
  all : ∀ d ∈ done, ∀ t, RandomCut x S d.1 d.2 t → Varies P.thr x S d.1 → Admissible P C x S d.1 t →
    AtLeast s.best (score C x S d.1 t)

theorem visitR_good {P : Params A K} {C : Criterion A M K V} (hP : SoundParams P) (hC : SoundCriterion C)
    (x : A → Nat → K) (S : List A) (hS : S ≠ []) (done : List (Nat × K)) (s : RSt A M K)
    (hs : RGood P C x S done s) (d : Nat × K) (hd : d.1 ∉ done.map Prod.fst) (h0 : 0 ≤ d.2) (h1 : d.2 ≤ 1) :
    RGood P C x S (done ++ [d]) (visitR P C x s d) := by
  have mem : ∀ b : K × Split K, (∃ u, (b.2.feature, u) ∈ done ∧
      RandomCut x S b.2.feature u b.2.threshold ∧ Varies P.thr x S b.2.feature) →
      (∃ u, (b.2.feature, u) ∈ done ++ [d] ∧
      RandomCut x S b.2.feature u b.2.threshold ∧ Varies P.thr x S b.2.feature) := by
    rintro b ⟨u, hu, h⟩
    exact ⟨u, List.mem_append_left _ hu, h⟩
  have fresh : ∀ b, s.best = some b → d.1 ≠ b.2.feature := by
    intro b hb e
    obtain ⟨_, u, hu, _⟩ := hs.best b hb
    apply hd
    rw [e]
    exact List.mem_map.mpr ⟨_, hu, rfl⟩
  cases hr : s.rows with
  | nil =>
    exfalso
    apply hS
    have := hs.perm
    rw [hr] at this
    exact this.nil_eq.symm
  | cons a rest =>
    have hperm := hs.perm
    obtain ⟨⟨p, hp, ep⟩, ⟨q, hq, eq⟩, hb⟩ := minMax_rows x d.1 a rest
    rw [← hr] at hp hq hb
    have hpS := hperm.subset hp
    have hqS := hperm.subset hq
    have hbS : ∀ c ∈ S, x p d.1 ≤ x c d.1 ∧ x c d.1 ≤ x q d.1 := by
      intro c hc
      rw [ep, eq]
      exact hb c (hperm.symm.subset hc)
    unfold visitR
    rw [hr]
    simp only
    rw [← hr]
    generalize minMax (x a d.1, x a d.1) (rest.map (fun c => x c d.1)) = bb at *
    by_cases hconst : bb.2 ≤ bb.1 + P.thr
    · rw [if_pos hconst]
      refine ⟨hperm, hs.crit, fun b hb => ⟨(hs.best b hb).1, mem b (hs.best b hb).2⟩, ?_, ?_⟩
      · intro b hb e
        exact absurd e (fresh b hb)
      · intro d' hd' t hrc hv ha
        rcases List.mem_append.mp hd' with hd' | hd'
        · exact hs.all d' hd' t hrc hv ha
        · exfalso
          rw [List.mem_singleton] at hd'
          subst hd'
          obtain ⟨c1, hc1, c2, hc2, hlt⟩ := hv
          have q1 := (hbS c1 hc1).1
          have q2 := (hbS c2 hc2).2
          rw [ep] at q1
          rw [eq] at q2
          linarith
    · rw [if_neg hconst]
      have hlt := not_le.mp hconst
      have hlo : bb.1 < bb.2 := lt_of_le_of_lt (le_add_of_nonneg_right hP.thr) hlt
      -- the threshold
      have hcut : RandomCut x S d.1 d.2 (drawThreshold bb d.2) := by
        refine ⟨p, hpS, q, hqS, hbS, ?_⟩
        rw [ep, eq]
        unfold drawThreshold
        simp only
        rw [add_comm ((bb.2 - bb.1) * d.2)]
        by_cases e : bb.1 + (bb.2 - bb.1) * d.2 = bb.2
        · right; rw [if_pos e]; exact ⟨e, rfl⟩
        · left; rw [if_neg e]; exact ⟨e, rfl⟩
      have hvar : Varies P.thr x S d.1 := ⟨p, hpS, q, hqS, by rw [ep, eq]; exact hlt⟩
      have htl : bb.1 ≤ drawThreshold bb d.2 ∧ drawThreshold bb d.2 < bb.2 := by
        have m1 := mul_nonneg (le_of_lt (sub_pos.mpr hlo)) h0
        have m2 := mul_le_mul_of_nonneg_left h1 (le_of_lt (sub_pos.mpr hlo))
        unfold drawThreshold
        simp only
        by_cases e : (bb.2 - bb.1) * d.2 + bb.1 = bb.2
        · rw [if_pos e]; exact ⟨le_refl _, hlo⟩
        · rw [if_neg e]
          exact ⟨by linarith, lt_of_le_of_ne (by linarith) e⟩
      generalize drawThreshold bb d.2 = t at *
      have hle : (fun c => decide (x c d.1 ≤ t)) = cut x d.1 t := rfl
      rw [hle]
      obtain ⟨w1, w2, w3, w4⟩ := partitionPos_cut (cut x d.1 t) s.rows
      generalize partitionPos (cut x d.1 t) s.rows.length s.rows 0 s.rows.length = r at *
      have hrS : r.1.Perm S := w1.trans hperm
      have hcount : (S.filter (cut x d.1 t)).length = r.2 := by
        rw [w2]; exact ((hperm.filter _).length_eq).symm
      rw [← w2] at w3 w4
      have hlenS : s.rows.length = S.length := hperm.length_eq
      have hpos : 0 < r.2 := by
        rw [← hcount]
        apply List.length_pos_iff_exists_mem.mpr
        refine ⟨p, List.mem_filter.mpr ⟨hpS, ?_⟩⟩
        simp only [cut, decide_eq_true_eq]
        rw [ep]; exact htl.1
      have hposlt : r.2 < S.length := by
        rw [← hcount]
        refine lt_of_le_of_ne (List.length_filter_le _ _) ?_
        intro e
        have := List.length_filter_eq_length_iff.mp e q hqS
        simp only [cut, decide_eq_true_eq] at this
        rw [eq] at this
        exact absurd htl.2 (not_lt.mpr this)
      -- what the other features give
      have rest_all : ∀ best', Improves s.best best' →
          (Admissible P C x S d.1 t → AtLeast best' (score C x S d.1 t)) →
          ∀ d' ∈ done ++ [d], ∀ t', RandomCut x S d'.1 d'.2 t' → Varies P.thr x S d'.1 →
            Admissible P C x S d'.1 t' → AtLeast best' (score C x S d'.1 t') := by
        intro best' himp hthis d' hd' t' hrc hv ha
        rcases List.mem_append.mp hd' with hd' | hd'
        · exact himp _ (hs.all d' hd' t' hrc hv ha)
        · rw [List.mem_singleton] at hd'
          subst hd'
          have := randomCut_unique hcut hrc
          subst this
          exact hthis ha
      by_cases hleaf : r.2 < P.minSamplesLeaf ∨ s.rows.length - r.2 < P.minSamplesLeaf
      · rw [if_pos hleaf]
        refine ⟨hrS, hs.crit, fun b hb => ⟨(hs.best b hb).1, mem b (hs.best b hb).2⟩, ?_, ?_⟩
        · intro b hb e
          exact absurd e (fresh b hb)
        · apply rest_all _ (improves_refl _)
          intro ha
          exfalso
          have q1 := ha.1
          have q2 := ha.2.1
          rw [hcount] at q1 q2
          rw [hlenS] at hleaf
          omega
      · rw [if_neg hleaf]
        have hst : C.update (reads C.contrib r.1) (reset s.crit) r.2 =
            cutState C.contrib S (cut x d.1 t) := by
          rw [hs.crit, posState_zero_perm C.contrib hrS.symm, update_posState hC r.1 (Nat.zero_le _)
            (by rw [hrS.length_eq]; omega),
            posState_cut C.contrib r.1 (cut x d.1 t) (by rw [hrS.length_eq]; omega) w3 w4,
            cutState_perm C.contrib hrS]
        have hreset : reset (C.update (reads C.contrib r.1) (reset s.crit) r.2) = posState C.contrib S 0 := by
          rw [hs.crit, posState_zero_perm C.contrib hrS.symm, update_posState hC r.1 (Nat.zero_le _)
            (by rw [hrS.length_eq]; omega)]
          exact reset_posState C.contrib (List.Perm.refl _) _
        generalize C.update (reads C.contrib r.1) (reset s.crit) r.2 = c at *
        by_cases hw : C.weightLeft c < P.minWeightLeaf ∨ C.weightRight c < P.minWeightLeaf
        · rw [if_pos hw]
          refine ⟨hrS, hreset, fun b hb => ⟨(hs.best b hb).1, mem b (hs.best b hb).2⟩, ?_, ?_⟩
          · intro b hb e
            exact absurd e (fresh b hb)
          · apply rest_all _ (improves_refl _)
            intro ha
            exfalso
            have q1 := ha.2.2.2.2.1
            have q2 := ha.2.2.2.2.2
            rw [← hst] at q1 q2
            rcases hw with hw | hw
            · exact absurd hw (not_lt.mpr q1)
            · exact absurd hw (not_lt.mpr q2)
        · rw [if_neg hw]
          rw [not_or, not_lt, not_lt] at hw
          have hadm : Admissible P C x S d.1 t := by
            unfold Admissible
            simp only
            rw [hcount, ← hst]
            rw [hlenS] at hleaf
            exact ⟨by omega, by omega, hpos, hposlt, hw.1, hw.2⟩
          have hsc : C.proxy c = score C x S d.1 t := by
            unfold score; rw [hst]
          by_cases hbt : better (C.proxy c) s.best = true
          · rw [if_pos hbt]
            refine ⟨hrS, hreset, ?_, ?_, ?_⟩
            · intro b hb
              simp only [Option.some.injEq] at hb
              subst hb
              exact ⟨⟨hadm, hcount.symm, hsc⟩, d.2, List.mem_append_right _ (List.mem_singleton.mpr rfl), hcut, hvar⟩
            · intro b hb _
              simp only [Option.some.injEq] at hb
              subst hb
              exact ⟨w3.symm, w4.symm⟩
            · apply rest_all
              · rintro v ⟨b, hb, hv⟩
                refine ⟨_, rfl, ?_⟩
                rw [hb] at hbt
                simp only [better, decide_eq_true_eq] at hbt
                exact le_trans hv (le_of_lt hbt)
              · intro _
                exact ⟨_, rfl, le_of_eq hsc.symm⟩
          · rw [if_neg hbt]
            refine ⟨hrS, hreset, fun b hb => ⟨(hs.best b hb).1, mem b (hs.best b hb).2⟩, ?_, ?_⟩
            · intro b hb e
              exact absurd e (fresh b hb)
            · apply rest_all _ (improves_refl _)
              intro _
              cases hbest : s.best with
              | none => rw [hbest] at hbt; exact absurd rfl hbt
              | some b =>
                rw [hbest] at hbt
                simp only [better, decide_eq_true_eq, not_lt] at hbt
                exact ⟨b, rfl, by rw [← hsc]; exact hbt⟩

theorem visitsR_good {P : Params A K} {C : Criterion A M K V} (hP : SoundParams P) (hC : SoundCriterion C)
    (x : A → Nat → K) (S : List A) (hS : S ≠ []) (ds : List (Nat × K)) :
    ∀ (done : List (Nat × K)) (s : RSt A M K), RGood P C x S done s →
    ((done ++ ds).map Prod.fst).Nodup → (∀ d ∈ ds, 0 ≤ d.2 ∧ d.2 ≤ 1) →
    RGood P C x S (done ++ ds) (ds.foldl (visitR P C x) s) := by
  induction ds with
  | nil => intro done s hs _ _; rw [List.append_nil]; exact hs
  | cons d ds ih =>
    intro done s hs hn hu
    rw [List.foldl_cons]
    have e : done ++ d :: ds = (done ++ [d]) ++ ds := by simp
    rw [e] at hn ⊢
    apply ih (done ++ [d]) _ _ hn (fun d' hd' => hu d' (List.mem_cons_of_mem _ hd'))
    obtain ⟨u0, u1⟩ := hu d (List.mem_cons_self ..)
    apply visitR_good hP hC x S hS done s hs d _ u0 u1
    intro hm
    rw [List.map_append, List.map_append, List.append_assoc, List.nodup_append] at hn
    exact hn.2.2 _ hm d.1 (by simp) rfl

/-! ### theorems -/

/-- **C177.** The random splitter returns none of the drawn cuts only if no one is admissible, and otherwise the best
admissible one; its position, the order of the samples, the impurities and the improvement belong to that cut, whichever
feature was drawn last. -/
theorem C177_random_split {P : Params A K} {C : Criterion A M K V} (hP : SoundParams P) (hC : SoundCriterion C)
    (x : A → Nat → K) (junk : Nat) (ds : List (Nat × K)) (hn : (ds.map Prod.fst).Nodup)
    (hu : ∀ d ∈ ds, 0 ≤ d.2 ∧ d.2 ≤ 1) (S : List A) (hS : S ≠ []) (imp : K) :
    (randomSplit P C x junk ds S imp = none →
      ∀ d ∈ ds, ∀ t, RandomCut x S d.1 d.2 t → Varies P.thr x S d.1 → ¬ Admissible P C x S d.1 t) ∧
    (∀ r, randomSplit P C x junk ds S imp = some r →
      let f := r.split.feature
      let t := r.split.threshold
      (∃ u, (f, u) ∈ ds ∧ RandomCut x S f u t ∧ Varies P.thr x S f) ∧
      Admissible P C x S f t ∧
      (∀ d ∈ ds, ∀ t', RandomCut x S d.1 d.2 t' → Varies P.thr x S d.1 → Admissible P C x S d.1 t' →
        score C x S d.1 t' ≤ score C x S f t) ∧
      r.split.pos = (S.filter (cut x f t)).length ∧
      (r.rows.take r.split.pos).Perm (S.filter (cut x f t)) ∧
      (r.rows.drop r.split.pos).Perm (S.filter (fun a => !cut x f t a)) ∧
      ∃ h : Nat → M, segment h 0 S.length = r.rows.map C.contrib ∧
        (r.impurityLeft, r.impurityRight) = C.children h (cutState C.contrib S (cut x f t)) ∧
        r.improvement = C.improvement imp r.impurityLeft r.impurityRight (cutState C.contrib S (cut x f t))) := by
  have h0 : RGood P C x S [] (⟨S, Crit.init (reads C.contrib S) 0 S.length, none, junk⟩ : RSt A M K) := by
    refine ⟨List.Perm.refl _, ?_, by simp, by simp, by simp⟩
    unfold Crit.init reset posState
    simp only [List.take_zero, List.drop_zero, List.map_nil, List.sum_nil]
    rw [sumUp_eq, reads_total]
  have hg := visitsR_good hP hC x S hS ds [] _ h0 (by simpa using hn) hu
  rw [List.nil_append] at hg
  unfold randomSplit
  generalize ds.foldl (visitR P C x) (⟨S, Crit.init (reads C.contrib S) 0 S.length, none, junk⟩ : RSt A M K) = e at *
  obtain ⟨g1, g2, g3, g4, g5⟩ := hg
  cases hb : e.best with
  | none =>
    simp only [hb]
    refine ⟨?_, by intro r hr; cases hr⟩
    intro _ d hd t hrc hv ha
    obtain ⟨b, hb', _⟩ := g5 d hd t hrc hv ha
    rw [hb] at hb'
    cases hb'
  | some b =>
    obtain ⟨v, s⟩ := b
    simp only [hb]
    refine ⟨(by intro h; cases h), ?_⟩
    intro r hr
    obtain ⟨⟨b1, b2, b3⟩, b4⟩ := g3 _ hb
    have g4' := g4 _ hb
    simp only at b1 b2 b3 b4 g4'
    have hle : (fun a => decide (x a s.feature ≤ s.threshold)) = cut x s.feature s.threshold := rfl
    rw [hle] at hr
    have hrows : ∀ rows, rows = (if e.current ≠ s.feature then
          partition (cut x s.feature s.threshold) e.rows.length e.rows 0 e.rows.length else e.rows) →
        rows.Perm S ∧ rows.take s.pos = rows.filter (cut x s.feature s.threshold) ∧
        rows.drop s.pos = rows.filter (fun a => !cut x s.feature s.threshold a) := by
      intro rows er
      by_cases hc : e.current = s.feature
      · rw [if_neg (not_not.mpr hc)] at er
        subst er
        exact ⟨g1, g4' hc⟩
      · rw [if_pos hc] at er
        obtain ⟨p1, p2, p3⟩ := partition_filter (cut x s.feature s.threshold) e.rows
        have hlen : (e.rows.filter (cut x s.feature s.threshold)).length = s.pos := by
          rw [(g1.filter _).length_eq]; exact b2.symm
        rw [hlen] at p1 p2
        subst er
        exact ⟨p3.trans g1, p1, p2⟩
    generalize erows : (if e.current ≠ s.feature then
          partition (cut x s.feature s.threshold) e.rows.length e.rows 0 e.rows.length else e.rows) = rows at hr
    obtain ⟨k1, k2, k3⟩ := hrows rows erows.symm
    have hposS : s.pos ≤ S.length := by rw [b2]; exact List.length_filter_le _ _
    have hst : C.update (reads C.contrib rows) (reset e.crit) s.pos =
        cutState C.contrib S (cut x s.feature s.threshold) := by
      rw [g2, posState_zero_perm C.contrib k1.symm, update_posState hC rows (Nat.zero_le _)
        (by rw [k1.length_eq]; exact hposS),
        posState_cut C.contrib rows _ (by rw [k1.length_eq]; exact hposS) k2.symm k3.symm,
        cutState_perm C.contrib k1]
    rw [hst] at hr
    simp only [Option.some.injEq] at hr
    subst hr
    simp only
    refine ⟨b4, b1, ?_, b2, ?_, ?_, reads C.contrib rows, ?_, ?_⟩
    · intro d hd t' hrc hv ha
      obtain ⟨b, hb', hv'⟩ := g5 d hd t' hrc hv ha
      rw [hb] at hb'
      cases hb'
      rw [← b3]; exact hv'
    · rw [k2]; exact k1.filter _
    · rw [k3]; exact k1.filter _
    · rw [← k1.length_eq, reads_segment C.contrib rows 0 rows.length (le_refl _)]
      simp
    · exact ⟨rfl, trivial⟩

/-- **C177.** Each random cut of a feature that varies leaves samples on both sides, whatever the random number, even
the greatest one. -/
theorem C177_both_sides {thr : K} (ht : 0 ≤ thr) (x : A → Nat → K) (S : List A) (f : Nat) (u t : K)
    (hu : 0 ≤ u ∧ u ≤ 1) (hv : Varies thr x S f) (hc : RandomCut x S f u t) :
    0 < (S.filter (cut x f t)).length ∧ (S.filter (cut x f t)).length < S.length := by
  obtain ⟨a, ha, b, hb, hab, hd⟩ := hc
  obtain ⟨p, hp, q, hq, hpq⟩ := hv
  have hlt : x a f < x b f := by
    have h1 := (hab p hp).1
    have h2 := (hab q hq).2
    linarith
  have hta : x a f ≤ t ∧ t < x b f := by
    have m0 : 0 ≤ (x b f - x a f) * u := mul_nonneg (by linarith) hu.1
    have m1 : (x b f - x a f) * u ≤ x b f - x a f := by
      have := mul_le_mul_of_nonneg_left hu.2 (le_of_lt (sub_pos.mpr hlt))
      rwa [mul_one] at this
    rcases hd with ⟨h1, rfl⟩ | ⟨_, rfl⟩
    · exact ⟨by linarith, lt_of_le_of_ne (by linarith) h1⟩
    · exact ⟨le_refl _, hlt⟩
  constructor
  · apply List.length_pos_of_mem (a := a)
    exact List.mem_filter.mpr ⟨ha, by simpa [cut] using hta.1⟩
  · apply lt_of_le_of_ne (List.length_filter_le _ _)
    intro e
    have := List.length_filter_eq_length_iff.mp e b hb
    simp only [cut, decide_eq_true_eq] at this
    exact absurd hta.2 (not_lt.mpr this)

/-! ### a concrete case -/

/-- two treated and two control samples with two features -/
def randRows : List (Sample ℚ) :=
  [⟨fun f => if f = 0 then 0 else 3, 1, 1⟩, ⟨fun f => if f = 0 then 0 else 1, 0, 0⟩,
   ⟨fun f => if f = 0 then 4 else 3, 1, 9⟩, ⟨fun f => if f = 0 then 4 else 1, 0, 2⟩]

/-- feature 0 is drawn with 1/4 (it is cut at 1), then feature 1 with 1 (it is cut at its least value, which separates
the arms); the first cut scores better, and the samples come back partitioned by it -/
example : (randomSplit (stdParams ℚ (Sample ℚ) 2 1 5) (honestCMSE (1 / 100000) 10000000000) (fun a => a.x) 7
    [(0, 1 / 4), (1, 1)] randRows 1).map (fun r => (r.split.feature, r.split.threshold, r.split.pos, r.rows.map (fun a => a.y)))
    = some (0, 1, 2, [1, 0, 9, 2]) := by
  decide +kernel

example : (([(0, 1 / 4), (1, 1)] : List (Nat × ℚ)).map Prod.fst).Nodup ∧
    (∀ d ∈ ([(0, 1 / 4), (1, 1)] : List (Nat × ℚ)), 0 ≤ d.2 ∧ d.2 ≤ 1) ∧ randRows ≠ [] := by
  refine ⟨by decide, ?_, by simp [randRows]⟩
  decide +kernel

end YL.Props
