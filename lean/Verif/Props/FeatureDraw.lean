import Verif.Model.FeatureDraw
import Verif.Props.Introsort
import Verif.Props.Tree

/-!
# C95: which features a node looks at
-/

set_option linter.unusedSectionVars false

namespace YL.Spec
open YL.Crit YL.Tree

variable {A K V M : Type} [AddCommGroup M] [Field K] [LinearOrder K]

/-- The feature does not vary (by more than the resolution `thr`) on the samples. -/
def Flat (thr : K) (x : A → Nat → K) (S : List A) (f : Nat) : Prop := ∀ a ∈ S, ∀ b ∈ S, x b f ≤ x a f + thr

end YL.Spec

namespace YL.Props
open YL.Crit YL.Tree YL.Spec YL.Draw

variable {A K V M : Type} [AddCommGroup M] [Field K] [LinearOrder K] [IsStrictOrderedRing K]

theorem flat_perm {thr : K} {x : A → Nat → K} {S S' : List A} (h : S.Perm S') {f : Nat} (hf : Flat thr x S f) :
    Flat thr x S' f := fun a ha b hb => hf a (h.symm.subset ha) b (h.symm.subset hb)

theorem flat_sublist {thr : K} {x : A → Nat → K} {S S' : List A} (h : S' ⊆ S) {f : Nat} (hf : Flat thr x S f) :
    Flat thr x S' f := fun a ha b hb => hf a (h ha) b (h hb)

/-- a flat feature has no cut -/
theorem flat_no_cut {P : Params A K} {C : Criterion A M K V} {x : A → Nat → K} {S : List A} {f : Nat} {t : K}
    (hf : Flat P.thr x S f) (ha : Admissible P C x S f t) : ¬ Apart P.thr x S f t := by
  intro hap
  obtain ⟨_, _, h1, h2, _⟩ := ha
  obtain ⟨a, ha⟩ := List.exists_mem_of_length_pos h1
  have : ∃ b ∈ S, ¬ cut x f t b = true := by
    by_contra hn
    push_neg at hn
    have := List.filter_eq_self.mpr hn
    rw [this] at h2
    omega
  obtain ⟨b, hb, hb'⟩ := this
  rw [List.mem_filter] at ha
  have h3 := ha.2
  unfold cut at h3 hb'
  rw [decide_eq_true_eq] at h3 hb'
  have := hap a ha.1 b hb h3 (not_le.mp hb')
  have := hf a ha.1 b hb
  linarith

theorem looksConstant_iff {P : Params A K} (hP : SoundParams P) (x : A → Nat → K) {l S : List A} (hl : l.Perm S)
    (f : Nat) : looksConstant P x l f = true ↔ Flat P.thr x S f := by
  unfold looksConstant
  simp only [decide_eq_true_eq]
  have hperm := (hP.perm (fun a => x a f) l).trans hl
  have hsort := hP.sorted (fun a => x a f) l
  generalize P.sort (fun a => x a f) l = m at *
  constructor
  · intro h a ha b hb
    obtain ⟨i, hi, rfl⟩ := List.getElem_of_mem (hperm.symm.subset ha)
    obtain ⟨j, hj, rfl⟩ := List.getElem_of_mem (hperm.symm.subset hb)
    have h1 := sorted_value x f m hsort (p := 0) (q := i) (by omega) hi
    have h2 := sorted_value x f m hsort (p := j) (q := m.length - 1) (by omega) (by omega)
    rw [value_get x f m hi] at h1
    rw [value_get x f m hj] at h2
    linarith
  · intro h
    cases hm : m with
    | nil =>
      have := hP.thr
      simpa [value] using this
    | cons a m' =>
      rw [← hm]
      have hpos : 0 < m.length := by rw [hm]; simp
      rw [value_get x f m hpos, value_get x f m (by omega : m.length - 1 < m.length)]
      exact h _ (hperm.subset (List.getElem_mem _)) _ (hperm.subset (List.getElem_mem _))

theorem visit_perm {P : Params A K} (hP : SoundParams P) (C : Criterion A M K V) (x : A → Nat → K)
    (st : List A × Crit M × Option (K × Split K)) (f : Nat) : (visit P C x st f).1.Perm st.1 := by
  unfold visit
  simp only
  split
  · exact hP.perm _ _
  · exact hP.perm _ _

/-- the invariant of the loop: `o` the array at the start, `S` the samples, `seen` the features looked at so far -/
structure DrawInv (P : Params A K) (C : Criterion A M K V) (x : A → Nat → K) (n maxF known : Nat) (o : Nat → Nat)
    (S : List A) (w0 : List A × Crit M × Option (K × Split K)) (s : DrawSt A M K) (seen : List Nat) : Prop where
  hd : s.drawn ≤ known
  hf : known + s.found ≤ s.fi
  hn : s.fi ≤ n
  vis : s.visited = s.drawn + s.found + (n - s.fi)
  rng : ∀ k < n, s.features k < n
  inj : ∀ k < n, ∀ j < n, s.features k = s.features j → k = j
  pre : ∀ k < known, ∃ j < known, s.features j = o k
  pre' : ∀ j < known, ∃ k < known, s.features j = o k
  con : ∀ k, known ≤ k → k < known + s.found → Flat P.thr x S (s.features k)
  non : ∀ k, s.fi ≤ k → k < n → ¬ Flat P.thr x S (s.features k)
  mem : ∀ f, f ∈ seen ↔ ∃ k < n, (known ≤ k ∧ k < known + s.found ∨ s.fi ≤ k) ∧ s.features k = f
  nodup : seen.Nodup
  count : ∀ q : Nat → Bool, (∀ f, q f = true ↔ ¬ Flat P.thr x S f) → (seen.filter q).length = n - s.fi
  cap : n - s.fi ≤ max 1 maxF
  fold : s.work = seen.foldl (visit P C x) w0
  perm : s.work.1.Perm S

theorem swap_lt {i j n : Nat} (hi : i < n) (hj : j < n) {k : Nat} (hk : k < n) : Equiv.swap i j k < n := by
  by_cases h1 : k = i
  · subst h1; simpa using hj
  · by_cases h2 : k = j
    · subst h2; simpa using hi
    · rw [Equiv.swap_apply_of_ne_of_ne h1 h2]; exact hk

theorem drawStep_inv {P : Params A K} (hP : SoundParams P) {C : Criterion A M K V} {x : A → Nat → K}
    {n maxF known : Nat} {o : Nat → Nat} {S : List A} {w0 : List A × Crit M × Option (K × Split K)}
    {s : DrawSt A M K} {seen : List Nat} (h : DrawInv P C x n maxF known o S w0 s seen)
    (hg : goesOn maxF known s = true) (r : Nat) :
    (∃ seen', DrawInv P C x n maxF known o S w0 (drawStep P C x known r s) seen') ∧
    (known - (drawStep P C x known r s).drawn) +
      ((drawStep P C x known r s).fi - (known + (drawStep P C x known r s).found)) <
    (known - s.drawn) + (s.fi - (known + s.found)) := by
  unfold goesOn at hg
  simp only [Bool.and_eq_true, Bool.or_eq_true, decide_eq_true_eq] at hg
  obtain ⟨hg1, hg2⟩ := hg
  have e1 := h.hd
  have e2 := h.hf
  have e3 := h.hn
  have e4 := h.vis
  have hpos : 0 < s.fi - s.found - s.drawn := by omega
  have hmod := Nat.mod_lt r hpos
  generalize hfj : s.drawn + r % (s.fi - s.found - s.drawn) = fj
  have hfj1 : s.drawn ≤ fj := by omega
  have hfj2 : fj < s.fi - s.found := by omega
  have rngSwap : ∀ {i j : Nat}, i < n → j < n → ∀ k < n, Sort.swap s.features i j k < n := by
    intro i j hi hj k hk
    rw [swap_eq]
    exact h.rng _ (swap_lt hi hj hk)
  have injSwap : ∀ {i j : Nat}, i < n → j < n → ∀ k < n, ∀ k' < n,
      Sort.swap s.features i j k = Sort.swap s.features i j k' → k = k' := by
    intro i j hi hj k hk k' hk' e
    rw [swap_eq, swap_eq] at e
    exact (Equiv.swap i j).injective (h.inj _ (swap_lt hi hj hk) _ (swap_lt hi hj hk') e)
  unfold drawStep
  simp only [hfj]
  by_cases hk : fj < known
  · rw [if_pos hk]
    have out : ∀ k, known ≤ k → Sort.swap s.features s.drawn fj k = s.features k := by
      intro k hkk
      exact swap_other _ (by omega) (by omega)
    refine ⟨⟨seen, ?_⟩, by simp only; omega⟩
    refine ⟨by simp only; omega, h.hf, h.hn, by simp only; omega, rngSwap (by omega) (by omega),
      injSwap (by omega) (by omega), ?_, ?_, ?_, ?_, ?_, h.nodup, h.count, h.cap, h.fold, h.perm⟩
    · intro k hk'
      obtain ⟨j, hj, e⟩ := h.pre k hk'
      refine ⟨Equiv.swap s.drawn fj j, swap_lt (by omega) hk hj, ?_⟩
      simp only [swap_eq, Equiv.swap_apply_self]
      exact e
    · intro j hj
      simp only [swap_eq]
      exact h.pre' _ (swap_lt (by omega) hk hj)
    · intro k h1 h2
      simp only [out k h1]
      exact h.con k h1 h2
    · intro k h1 h2
      have h1' : s.fi ≤ k := h1
      simp only [out k (by omega)]
      exact h.non k h1 h2
    · intro f
      rw [h.mem f]
      constructor
      · rintro ⟨k, k1, k2, k3⟩
        exact ⟨k, k1, k2, by simp only; rw [out k (by omega)]; exact k3⟩
      · rintro ⟨k, k1, k2, k3⟩
        simp only at k2 k3
        rw [out k (by omega)] at k3
        exact ⟨k, k1, k2, k3⟩
  · rw [if_neg hk]
    have hj1 : known + s.found ≤ fj + s.found := by omega
    have hj2 : fj + s.found < s.fi := by omega
    generalize fj + s.found = j at *
    have hnew : s.features j ∉ seen := by
      intro hm
      obtain ⟨k, k1, k2, k3⟩ := (h.mem _).mp hm
      have := h.inj k k1 j (by omega) k3
      omega
    have hfold : ∀ f, visit P C x s.work f = (seen ++ [f]).foldl (visit P C x) w0 := by
      intro f; rw [List.foldl_append, ← h.fold]; rfl
    have hnd : (seen ++ [s.features j]).Nodup := by
      rw [List.nodup_append]
      refine ⟨h.nodup, by simp, ?_⟩
      intro a ha b hb
      rw [List.mem_singleton] at hb
      subst hb
      intro e; subst e; exact hnew ha
    by_cases hc : looksConstant P x s.work.1 (s.features j) = true
    · rw [if_pos hc]
      have hflat := (looksConstant_iff hP x h.perm _).mp hc
      refine ⟨⟨seen ++ [s.features j], ?_⟩, by simp only; omega⟩
      refine ⟨h.hd, by simp only; omega, h.hn, by simp only; omega, rngSwap (by omega) (by omega),
        injSwap (by omega) (by omega), ?_, ?_, ?_, ?_, ?_, hnd, ?_, h.cap, hfold _, (visit_perm hP C x _ _).trans h.perm⟩
      · intro k hk'
        obtain ⟨i, hi, e⟩ := h.pre k hk'
        exact ⟨i, hi, by simp only; rw [swap_other _ (by omega) (by omega)]; exact e⟩
      · intro i hi
        simp only
        rw [swap_other _ (by omega) (by omega)]
        exact h.pre' i hi
      · intro k h1 h2
        simp only at h2 ⊢
        by_cases hkt : k = known + s.found
        · subst hkt; rw [swap_right]; exact hflat
        · rw [swap_other _ (by omega) hkt]; exact h.con k h1 (by omega)
      · intro k h1 h2
        simp only at h1 ⊢
        rw [swap_other _ (by omega) (by omega)]
        exact h.non k h1 h2
      · intro f
        rw [List.mem_append, List.mem_singleton, h.mem f]
        simp only
        constructor
        · rintro (⟨k, k1, k2, k3⟩ | rfl)
          · exact ⟨k, k1, by omega, by rw [swap_other _ (by omega) (by omega)]; exact k3⟩
          · exact ⟨known + s.found, by omega, by omega, swap_right _ _ _⟩
        · rintro ⟨k, k1, k2, k3⟩
          by_cases hkt : k = known + s.found
          · right; subst hkt; rw [swap_right] at k3; exact k3.symm
          · left
            rw [swap_other _ (by omega) hkt] at k3
            exact ⟨k, k1, by omega, k3⟩
      · intro q hq
        have : q (s.features j) = false := by
          rw [← Bool.not_eq_true, hq]; exact not_not.mpr hflat
        rw [List.filter_append, List.length_append, h.count q hq]
        simp [this]
    · rw [if_neg hc]
      have hnflat : ¬ Flat P.thr x S (s.features j) := fun hh => hc ((looksConstant_iff hP x h.perm _).mpr hh)
      refine ⟨⟨seen ++ [s.features j], ?_⟩, by simp only; omega⟩
      refine ⟨h.hd, by simp only; omega, by simp only; omega, by simp only; omega, rngSwap (by omega) (by omega),
        injSwap (by omega) (by omega), ?_, ?_, ?_, ?_, ?_, hnd, ?_, ?_, hfold _, (visit_perm hP C x _ _).trans h.perm⟩
      · intro k hk'
        obtain ⟨i, hi, e⟩ := h.pre k hk'
        exact ⟨i, hi, by simp only; rw [swap_other _ (by omega) (by omega)]; exact e⟩
      · intro i hi
        simp only
        rw [swap_other _ (by omega) (by omega)]
        exact h.pre' i hi
      · intro k h1 h2
        simp only at h2 ⊢
        rw [swap_other _ (by omega) (by omega)]
        exact h.con k h1 h2
      · intro k h1 h2
        simp only at h1 ⊢
        by_cases hkt : k = s.fi - 1
        · subst hkt; rw [swap_left]; exact hnflat
        · rw [swap_other _ hkt (by omega)]; exact h.non k (by omega) h2
      · intro f
        rw [List.mem_append, List.mem_singleton, h.mem f]
        simp only
        constructor
        · rintro (⟨k, k1, k2, k3⟩ | rfl)
          · exact ⟨k, k1, by omega, by rw [swap_other _ (by omega) (by omega)]; exact k3⟩
          · exact ⟨s.fi - 1, by omega, by omega, swap_left _ _ _⟩
        · rintro ⟨k, k1, k2, k3⟩
          by_cases hkt : k = s.fi - 1
          · right; subst hkt; rw [swap_left] at k3; exact k3.symm
          · left
            rw [swap_other _ hkt (by omega)] at k3
            exact ⟨k, k1, by omega, k3⟩
      · intro q hq
        have : q (s.features j) = true := by rw [hq]; exact hnflat
        rw [List.filter_append, List.length_append, h.count q hq]
        simp [this]
        omega
      · simp only
        rcases hg2 with hv | hv
        · have : n - (s.fi - 1) ≤ maxF := by omega
          exact this.trans (le_max_right _ _)
        · have : n - (s.fi - 1) ≤ 1 := by omega
          exact this.trans (le_max_left _ _)

theorem drawLoop_inv {P : Params A K} (hP : SoundParams P) {C : Criterion A M K V} {x : A → Nat → K}
    {n maxF known : Nat} {o : Nat → Nat} {S : List A} {w0 : List A × Crit M × Option (K × Split K)} (rand : Nat → Nat) :
    ∀ (fuel tick : Nat) (s : DrawSt A M K) (seen : List Nat), DrawInv P C x n maxF known o S w0 s seen →
    (known - s.drawn) + (s.fi - (known + s.found)) ≤ fuel →
    ∃ seen', DrawInv P C x n maxF known o S w0 (drawLoop P C x maxF known rand fuel tick s).2 seen' ∧
      goesOn maxF known (drawLoop P C x maxF known rand fuel tick s).2 = false := by
  intro fuel
  induction fuel with
  | zero =>
    intro tick s seen h hfuel
    refine ⟨seen, h, ?_⟩
    unfold drawLoop goesOn
    have := h.hf
    have : ¬ known + s.found < s.fi := by omega
    simp [this]
  | succ fuel ih =>
    intro tick s seen h hfuel
    unfold drawLoop
    by_cases hg : goesOn maxF known s = true
    · rw [if_pos hg]
      obtain ⟨⟨seen', h'⟩, hlt⟩ := drawStep_inv hP h hg (rand tick)
      exact ih _ _ seen' h' (by omega)
    · rw [if_neg hg]
      exact ⟨seen, h, by simpa using hg⟩

/-- What a list of features looked at, at a node with samples `S`, satisfies. -/
structure Drawn (thr : K) (x : A → Nat → K) (n maxF : Nat) (S : List A) (fs : List Nat) : Prop where
  lt : ∀ f ∈ fs, f < n
  nodup : fs.Nodup
  some : (∃ f < n, ¬ Flat thr x S f) → ∃ f ∈ fs, ¬ Flat thr x S f
  few : ∀ q : Nat → Bool, (∀ f, q f = true ↔ ¬ Flat thr x S f) → (fs.filter q).length ≤ max 1 maxF
  enough : ∀ q : Nat → Bool, (∀ f, q f = true ↔ ¬ Flat thr x S f) →
    (∀ f < n, ¬ Flat thr x S f → f ∈ fs) ∨ 1 ≤ (fs.filter q).length
  all : n ≤ maxF → ∀ f < n, ¬ Flat thr x S f → f ∈ fs

theorem drawn_perm {thr : K} {x : A → Nat → K} {n maxF : Nat} {S S' : List A} (h : S.Perm S') {fs : List Nat}
    (d : Drawn thr x n maxF S fs) : Drawn thr x n maxF S' fs := by
  have e : ∀ f, Flat thr x S f ↔ Flat thr x S' f := fun f => ⟨flat_perm h, flat_perm h.symm⟩
  refine ⟨d.lt, d.nodup, ?_, ?_, ?_, ?_⟩
  · simpa only [← e] using d.some
  · simpa only [← e] using d.few
  · simpa only [← e] using d.enough
  · simpa only [← e] using d.all

/-- the shared arrays are in order for a record with `known` constant features on the samples `S` -/
def Knows (thr : K) (x : A → Nat → K) (n : Nat) (g : Shared) (S : List A) (known : Nat) : Prop :=
  known ≤ n ∧ (∀ k < known, g.features k = g.constants k) ∧ ∀ k < known, Flat thr x S (g.constants k)

/-- `features` is a permutation of the features -/
def Permutes (n : Nat) (g : Shared) : Prop :=
  (∀ k < n, g.features k < n) ∧ ∀ k < n, ∀ j < n, g.features k = g.features j → k = j

theorem surj_of_inj {n : Nat} {h : Nat → Nat} (h1 : ∀ k < n, h k < n) (h2 : ∀ k < n, ∀ j < n, h k = h j → k = j) :
    ∀ f < n, ∃ k < n, h k = f := by
  have hs := Finset.surj_on_of_inj_on_of_card_le (s := Finset.range n) (t := Finset.range n) (fun k _ => h k)
    (fun k hk => Finset.mem_range.mpr (h1 k (Finset.mem_range.mp hk)))
    (fun k j hk hj e => h2 k (Finset.mem_range.mp hk) j (Finset.mem_range.mp hj) e) (le_refl _)
  intro f hf
  obtain ⟨k, hk, e⟩ := hs f (Finset.mem_range.mpr hf)
  exact ⟨k, Finset.mem_range.mp hk, e.symm⟩

theorem nodeSplit_finish (P : Params A K) (C : Criterion A M K V) (x : A → Nat → K) (fs : List Nat) (l : List A) (imp : K) :
    nodeSplit P C x fs l imp =
      finish P C x (fs.foldl (visit P C x) (l, init (reads C.contrib l) 0 l.length, none)) imp := rfl

/-- one `node_split` -/
theorem nodeSplitD_spec {P : Params A K} (hP : SoundParams P) (C : Criterion A M K V) (x : A → Nat → K)
    {n maxF known : Nat} (rand : Nat → Nat) {g : Shared} (l : List A) (imp : K) (hp : Permutes n g)
    (hk : Knows P.thr x n g l known) : ∃ fs : List Nat, Drawn P.thr x n maxF l fs ∧
      (nodeSplitD P C x n maxF known rand g l imp).1 = nodeSplit P C x fs l imp ∧
      known ≤ (nodeSplitD P C x n maxF known rand g l imp).2.1 ∧
      Permutes n (nodeSplitD P C x n maxF known rand g l imp).2.2 ∧
      Knows P.thr x n (nodeSplitD P C x n maxF known rand g l imp).2.2 l
        (nodeSplitD P C x n maxF known rand g l imp).2.1 ∧
      (∀ k < known, (nodeSplitD P C x n maxF known rand g l imp).2.2.features k = g.features k ∧
        (nodeSplitD P C x n maxF known rand g l imp).2.2.constants k = g.constants k) := by
  obtain ⟨k1, k2, k3⟩ := hk
  have h0 : DrawInv P C x n maxF known g.features l (l, init (reads C.contrib l) 0 l.length, none)
      (startDraw C n g l) [] := by
    unfold startDraw
    refine ⟨Nat.zero_le _, k1, le_refl _, by simp, hp.1, hp.2, fun k hk => ⟨k, hk, rfl⟩, fun k hk => ⟨k, hk, rfl⟩, ?_, ?_,
      ?_, List.nodup_nil, by simp, by simp, rfl, List.Perm.refl _⟩
    · intro k h1 h2; simp only at h2; omega
    · intro k h1 h2; simp only at h1; omega
    · intro f
      simp only [List.not_mem_nil, false_iff]
      rintro ⟨k, h1, h2, _⟩
      omega
  obtain ⟨fs, h, hg⟩ := drawLoop_inv hP rand (known + n) g.tick (startDraw C n g l) [] h0 (by
    show (known - 0) + (n - (known + 0)) ≤ known + n
    omega)
  unfold nodeSplitD
  simp only
  generalize drawLoop P C x maxF known rand (known + n) g.tick (startDraw C n g l) = e at *
  obtain ⟨tick, s⟩ := e
  simp only at h hg ⊢
  have e1 := h.hd
  have e2 := h.hf
  have e3 := h.hn
  have e4 := h.vis
  have preFlat : ∀ k < known, Flat P.thr x l (s.features k) := by
    intro k hk
    obtain ⟨j, hj, e⟩ := h.pre' k hk
    rw [e, k2 j hj]
    exact k3 j hj
  -- when all are used up, every feature that varies has been looked at
  have exhaust : s.fi ≤ known + s.found → ∀ f < n, ¬ Flat P.thr x l f → f ∈ fs := by
    intro hall f hf hnf
    obtain ⟨k, hk, e⟩ := surj_of_inj h.rng h.inj f hf
    rw [h.mem]
    refine ⟨k, hk, ?_, e⟩
    by_contra hc
    have : k < known := by omega
    exact hnf (e ▸ preFlat k this)
  have stop : s.fi ≤ known + s.found ∨ (maxF ≤ s.visited ∧ s.found + s.drawn < s.visited) := by
    unfold goesOn at hg
    simp only [Bool.and_eq_false_iff, Bool.or_eq_false_iff, decide_eq_false_iff_not] at hg
    omega
  have hen : ∀ q : Nat → Bool, (∀ f, q f = true ↔ ¬ Flat P.thr x l f) →
      (∀ f < n, ¬ Flat P.thr x l f → f ∈ fs) ∨ 1 ≤ (fs.filter q).length := by
    intro q hq
    rw [h.count q hq]
    rcases stop with hs | ⟨_, hs⟩
    · exact Or.inl (exhaust hs)
    · right; omega
  refine ⟨fs, ⟨?_, h.nodup, ?_, ?_, hen, ?_⟩, ?_, by omega, ?_, ?_, ?_⟩
  · intro f hf
    obtain ⟨k, hk, _, e⟩ := (h.mem f).mp hf
    rw [← e]; exact h.rng k hk
  · rintro ⟨f, hf, hnf⟩
    classical
    rcases hen (fun f => decide (¬ Flat P.thr x l f)) (by simp) with hh | hh
    · exact ⟨f, hh f hf hnf, hnf⟩
    · obtain ⟨a, ha⟩ := List.exists_mem_of_length_pos (Nat.lt_of_lt_of_le Nat.zero_lt_one hh)
      rw [List.mem_filter] at ha
      exact ⟨a, ha.1, by simpa using ha.2⟩
  · intro q hq
    rw [h.count q hq]
    exact h.cap
  · intro hmax
    apply exhaust
    rcases stop with hs | ⟨hs, _⟩ <;> omega
  · rw [h.fold]; rfl
  · constructor
    · intro k hk
      simp only
      split
      · rename_i hkk
        rw [← k2 k hkk]
        exact hp.1 k hk
      · exact h.rng k hk
    · have cross : ∀ k < known, ∀ j < n, known ≤ j → g.constants k ≠ s.features j := by
        intro k hk j hj hkj e
        obtain ⟨i, hi, e'⟩ := h.pre k hk
        rw [k2 k hk, e] at e'
        have := h.inj i (by omega) j hj e'
        omega
      intro k hk j hj e
      simp only at e
      by_cases h1 : k < known <;> by_cases h2 : j < known
      · rw [if_pos h1, if_pos h2, ← k2 k h1, ← k2 j h2] at e
        exact hp.2 k hk j hj e
      · rw [if_pos h1, if_neg h2] at e
        exact absurd e (cross k h1 j hj (by omega))
      · rw [if_neg h1, if_pos h2] at e
        exact absurd e.symm (cross j h2 k hk (by omega))
      · rw [if_neg h1, if_neg h2] at e
        exact h.inj k hk j hj e
  · refine ⟨by omega, ?_, ?_⟩
    · intro k hk
      simp only
      by_cases h1 : k < known
      · rw [if_pos h1, if_neg (by omega)]
      · rw [if_neg h1, if_pos (by omega)]
    · intro k hk
      simp only
      by_cases h1 : k < known
      · rw [if_neg (by omega)]; exact k3 k h1
      · rw [if_pos (by omega), if_neg h1]; exact h.con k (by omega) hk
  · intro k hk
    rw [if_pos hk, if_neg (by omega)]
    exact ⟨(k2 k hk).symm, rfl⟩

/-! ### The builder -/

/-- the records the builder's loop pops, in order -/
def trace (P : Params A K) (C : Criterion A M K V) (x : A → Nat → K) (draw : Nat → List Nat) :
    Nat → Nat → List (Rec A K) → List (Rec A K)
  | 0, _, _ => []
  | _ + 1, _, [] => []
  | fuel + 1, id, r :: stack =>
    match splitOf P C x draw id r with
    | none => r :: trace P C x draw fuel (id + 1) stack
    | some s => r :: trace P C x draw fuel (id + 1) (leftRec id r s :: rightRec id r s :: stack)

theorem trace_grow {P : Params A K} {C : Criterion A M K V} (hP : SoundParams P) (hC : SoundCriterion C)
    (x : A → Nat → K) (draw : Nat → List Nat) : ∀ (fuel : Nat) (r : Rec A K), r.rows.length ≤ fuel →
    ∀ (id : Nat) (stack : List (Rec A K)) (k : Nat),
    trace P C x draw ((grow P C x draw fuel id r).size + k) id (r :: stack) =
      (grow P C x draw fuel id r).recs ++ trace P C x draw k (id + (grow P C x draw fuel id r).size) stack := by
  intro fuel
  have leafcase : ∀ (r : Rec A K) (id : Nat) (stack : List (Rec A K)) (k : Nat), splitOf P C x draw id r = none →
      trace P C x draw ((T.leaf r : T A K).size + k) id (r :: stack) =
        (T.leaf r : T A K).recs ++ trace P C x draw k (id + (T.leaf r : T A K).size) stack := by
    intro r id stack k hs
    show trace P C x draw (1 + k) id (r :: stack) = _
    rw [Nat.add_comm 1 k]
    simp only [trace, hs]
    rfl
  induction fuel with
  | zero =>
    intro r hr id stack k
    exact leafcase r id stack k (splitOf_nil hP hC x draw id r (by omega))
  | succ fuel ih =>
    intro r hr id stack k
    cases hs : splitOf P C x draw id r with
    | none => rw [grow_none hs]; exact leafcase r id stack k hs
    | some s =>
      obtain ⟨l1, l2, l3, _⟩ := split_lengths hP hC x draw id r s hs
      obtain ⟨tl, tr, htl, htr, hgr⟩ := grow_some (fuel := fuel) hs
      rw [hgr]
      show trace P C x draw (1 + tl.size + tr.size + k) id (r :: stack) = _
      rw [show 1 + tl.size + tr.size + k = (tl.size + (tr.size + k)) + 1 by omega]
      simp only [trace, hs]
      have s1 := ih (leftRec id r s) (by omega) (id + 1) (rightRec id r s :: stack) (tr.size + k)
      have s2 := ih (rightRec id r s) (by omega) (id + 1 + tl.size) stack k
      rw [← htl] at s1
      rw [← htr] at s2
      rw [s1, s2]
      simp only [T.recs, T.size, List.cons_append, List.append_assoc]
      rw [show id + 1 + tl.size + tr.size = id + (1 + tl.size + tr.size) by omega]

/-- what holds of the stack and the shared arrays before every round -/
structure BuildInv (thr : K) (x : A → Nat → K) (n : Nat) (g : Shared) (stack : List (Rec A K × Nat)) : Prop where
  perm : Permutes n g
  knows : ∀ r ∈ stack, Knows thr x n g r.1.rows r.2
  mono : stack.Pairwise (fun a b => b.2 ≤ a.2)

theorem loopD_spec {P : Params A K} {C : Criterion A M K V} (hP : SoundParams P) (hC : SoundCriterion C)
    (x : A → Nat → K) (n maxF : Nat) (rand : Nat → Nat) : ∀ (fuel : Nat) (nodes : List (Node K V))
    (stack : List (Rec A K × Nat)) (d : Nat) (g : Shared), BuildInv P.thr x n g stack →
    ∃ log : List (Rec A K × List Nat), (∀ e ∈ log, Drawn P.thr x n maxF e.1.rows e.2) ∧
      ∀ draw : Nat → List Nat, (∀ (j : Nat) (e : Rec A K × List Nat), log[j]? = some e → draw (nodes.length + j) = e.2) →
        loopD P C x n maxF rand fuel nodes stack d g = loop P C x draw fuel nodes (stack.map (fun r => r.1)) d ∧
        trace P C x draw fuel nodes.length (stack.map (fun r => r.1)) = log.map (fun e => e.1) := by
  intro fuel
  induction fuel with
  | zero => intro nodes stack d g _; exact ⟨[], by simp, fun draw _ => ⟨rfl, rfl⟩⟩
  | succ fuel ih =>
    intro nodes stack d g hinv
    cases stack with
    | nil => exact ⟨[], by simp, fun draw _ => ⟨rfl, rfl⟩⟩
    | cons rk stack =>
      obtain ⟨r, known⟩ := rk
      obtain ⟨fs, d1, d2, d3, d4, d5, d6⟩ := nodeSplitD_spec (maxF := maxF) hP C x rand r.rows r.impurity hinv.perm
        (hinv.knows _ List.mem_cons_self)
      have hmono := List.pairwise_cons.mp hinv.mono
      -- the rest of the stack survives this round
      have hrest : ∀ g', (∀ k < known, g'.features k = g.features k ∧ g'.constants k = g.constants k) →
          ∀ r' ∈ stack, Knows P.thr x n g' r'.1.rows r'.2 := by
        intro g' hg' r' hr'
        obtain ⟨q1, q2, q3⟩ := hinv.knows r' (List.mem_cons_of_mem _ hr')
        have hle : r'.2 ≤ known := hmono.1 r' hr'
        refine ⟨q1, fun k hk => ?_, fun k hk => ?_⟩
        · rw [(hg' k (by omega)).1, (hg' k (by omega)).2]; exact q2 k hk
        · rw [(hg' k (by omega)).2]; exact q3 k hk
      -- a round whose node becomes a leaf
      have leafround : ∀ g', BuildInv P.thr x n g' stack →
          (∀ draw : Nat → List Nat, draw nodes.length = fs → splitOf P C x draw nodes.length r = none) →
          ∃ log : List (Rec A K × List Nat), (∀ e ∈ log, Drawn P.thr x n maxF e.1.rows e.2) ∧
          ∀ draw : Nat → List Nat, (∀ (j : Nat) (e : Rec A K × List Nat), log[j]? = some e → draw (nodes.length + j) = e.2) →
            loopD P C x n maxF rand fuel (link nodes r.parent r.isLeft nodes.length ++
              [⟨none, none, 0, 0, r.impurity, r.rows.length, nodeVal C r.rows⟩]) stack (max d r.depth) g' =
              loop P C x draw (fuel + 1) nodes (((r, known) :: stack).map (fun r => r.1)) d ∧
            trace P C x draw (fuel + 1) nodes.length (((r, known) :: stack).map (fun r => r.1)) = log.map (fun e => e.1) := by
        intro g' hb' hnone
        obtain ⟨log, l1, l2⟩ := ih (link nodes r.parent r.isLeft nodes.length ++
              [⟨none, none, 0, 0, r.impurity, r.rows.length, nodeVal C r.rows⟩]) stack (max d r.depth) g' hb'
        refine ⟨(r, fs) :: log, ?_, ?_⟩
        · intro e he
          rcases List.mem_cons.mp he with rfl | he
          · exact d1
          · exact l1 e he
        · intro draw hdraw
          have h0 := hnone draw (hdraw 0 _ rfl)
          obtain ⟨m1, m2⟩ := l2 draw (by
            intro j e he
            rw [List.length_append, link_length, List.length_singleton]
            have := hdraw (j + 1) e (by simpa using he)
            rw [← this]; congr 1; omega)
          constructor
          · rw [m1]
            show _ = loop P C x draw fuel (round P C x draw nodes r).1 ((round P C x draw nodes r).2 ++ stack.map _) _
            unfold round
            simp only [h0]
            rfl
          · simp only [List.map_cons, trace, h0]
            rw [List.length_append, link_length, List.length_singleton] at m2
            rw [m2]
      show ∃ log, _ ∧ ∀ draw, _ → loopD P C x n maxF rand fuel (roundD P C x n maxF rand nodes g (r, known)).1.1
        ((roundD P C x n maxF rand nodes g (r, known)).1.2 ++ stack) (max d r.depth)
        (roundD P C x n maxF rand nodes g (r, known)).2 = _ ∧ _
      unfold roundD
      simp only
      by_cases hst : stops P C r = true
      · rw [if_pos hst]
        refine leafround g ⟨hinv.perm, fun r' hr' => hinv.knows r' (List.mem_cons_of_mem _ hr'), hmono.2⟩ ?_
        intro draw _
        unfold splitOf
        rw [if_pos hst]
      · rw [if_neg hst]
        generalize nodeSplitD P C x n maxF known rand g r.rows r.impurity = E at *
        obtain ⟨found, total, g'⟩ := E
        simp only at d2 d3 d4 d5 d6 ⊢
        have hb' : BuildInv P.thr x n g' stack := ⟨d4, hrest g' d6, hmono.2⟩
        have hsp : ∀ draw : Nat → List Nat, draw nodes.length = fs → splitOf P C x draw nodes.length r = 
            found.bind (fun s => if s.improvement + P.eps < P.minDecrease then none else some s) := by
          intro draw hd
          unfold splitOf
          rw [if_neg hst, hd, ← d2]
          cases found <;> rfl
        clear d2
        cases found with
        | none => exact leafround g' hb' hsp
        | some s =>
          simp only [Option.bind_some] at hsp
          unfold place
          simp only
          by_cases himp : s.improvement + P.eps < P.minDecrease
          · rw [if_pos himp]
            refine leafround g' hb' ?_
            intro draw hd
            rw [hsp draw hd, if_pos himp]
          · rw [if_neg himp]
            have hsp' : ∀ draw : Nat → List Nat, draw nodes.length = fs →
                splitOf P C x draw nodes.length r = some s := by
              intro draw hd; rw [hsp draw hd, if_neg himp]
            have hchild := splitOf_spec hP hC x (fun _ => fs) nodes.length r s (hsp' _ rfl)
            have hsubl : (leftRec nodes.length r s).rows ⊆ r.rows := by
              intro a ha
              exact (List.mem_filter.mp (hchild.2.1.subset ha)).1
            have hsubr : (rightRec nodes.length r s).rows ⊆ r.rows := by
              intro a ha
              exact (List.mem_filter.mp (hchild.2.2.1.subset ha)).1
            obtain ⟨log, l1, l2⟩ := ih (link nodes r.parent r.isLeft nodes.length ++
              [⟨none, none, s.split.feature, s.split.threshold, r.impurity, r.rows.length, nodeVal C r.rows⟩])
              ((leftRec nodes.length r s, total) :: (rightRec nodes.length r s, total) :: stack) (max d r.depth) g' (by
              refine ⟨d4, ?_, ?_⟩
              · intro r' hr'
                rcases List.mem_cons.mp hr' with rfl | hr'
                · exact ⟨d5.1, d5.2.1, fun k hk => flat_sublist hsubl (d5.2.2 k hk)⟩
                rcases List.mem_cons.mp hr' with rfl | hr'
                · exact ⟨d5.1, d5.2.1, fun k hk => flat_sublist hsubr (d5.2.2 k hk)⟩
                exact hrest g' d6 r' hr'
              · have hlow : ∀ r' ∈ stack, r'.2 ≤ total := fun r' hr' => (hmono.1 r' hr').trans d3
                refine List.pairwise_cons.mpr ⟨?_, List.pairwise_cons.mpr ⟨hlow, hmono.2⟩⟩
                intro r' hr'
                rcases List.mem_cons.mp hr' with rfl | hr'
                · exact le_refl _
                · exact hlow r' hr')
            refine ⟨(r, fs) :: log, ?_, ?_⟩
            · intro e he
              rcases List.mem_cons.mp he with rfl | he
              · exact d1
              · exact l1 e he
            · intro draw hdraw
              have h0 := hsp' draw (hdraw 0 _ rfl)
              obtain ⟨m1, m2⟩ := l2 draw (by
                intro j e he
                rw [List.length_append, link_length, List.length_singleton]
                have := hdraw (j + 1) e (by simpa using he)
                rw [← this]; congr 1; omega)
              constructor
              · show loopD P C x n maxF rand fuel (link nodes r.parent r.isLeft nodes.length ++
                  [⟨none, none, s.split.feature, s.split.threshold, r.impurity, r.rows.length, nodeVal C r.rows⟩])
                  ((leftRec nodes.length r s, total) :: (rightRec nodes.length r s, total) :: stack) (max d r.depth) g' = _
                rw [m1]
                show _ = loop P C x draw fuel (round P C x draw nodes r).1 ((round P C x draw nodes r).2 ++ stack.map _) _
                unfold round
                simp only [h0]
                rfl
              · simp only [List.map_cons, trace, h0]
                rw [List.length_append, link_length, List.length_singleton] at m2
                simp only [List.map_cons] at m2
                rw [m2]

/-- **C95.** The tree the builder grows, with its shared bookkeeping of constant features, is the tree grown with a
list of features for every node that is right for the samples of that node: no feature twice, at least one feature that
varies if there is one, at most `max_features` of them (or one), and all of them if `max_features` is the number of
features. -/
theorem C95_draws {P : Params A K} {C : Criterion A M K V} (hP : SoundParams P) (hC : SoundCriterion C)
    (x : A → Nat → K) (w : A → K) (n maxF : Nat) (rand junk : Nat → Nat) (train : List A) :
    ∃ draw : Nat → List Nat, buildD P C x w n maxF rand junk train = build P C x w draw train ∧
      ∀ i < (buildD P C x w n maxF rand junk train).1.length,
        Drawn P.thr x n maxF (through (buildD P C x w n maxF rand junk train).1 x w train i) (draw i) := by
  obtain ⟨log, h1, h2⟩ := loopD_spec hP hC x n maxF rand (2 * (active w train).length + 1) ([] : List (Node K V))
    [(rootRec C (active w train), 0)] 0 (shared0 junk) (by
    refine ⟨⟨fun k hk => hk, fun k _ j _ e => e⟩, ?_, List.pairwise_singleton _ _⟩
    intro r hr
    rw [List.mem_singleton] at hr
    subst hr
    exact ⟨Nat.zero_le _, by simp, by simp⟩)
  obtain ⟨h3, h4⟩ := h2 (fun i => ((log[i]?).map (fun e => e.2)).getD []) (by
    intro j e he
    show ((log[0 + j]?).map (fun e => e.2)).getD [] = e.2
    rw [Nat.zero_add, he]; rfl)
  refine ⟨fun i => ((log[i]?).map (fun e : Rec A K × List Nat => e.2)).getD [], h3, ?_⟩
  generalize hdr : (fun i : Nat => ((log[i]?).map (fun e : Rec A K × List Nat => e.2)).getD []) = draw at *
  have hbd : buildD P C x w n maxF rand junk train = build P C x w draw train := h3
  rw [hbd]
  intro i hi
  obtain ⟨r, nd, b1, b2, b3, b4, b5, b6⟩ := build_node hP hC x w draw train hi
  have htr : log.map (fun e => e.1) = (tree P C x w draw train).recs := by
    rw [← h4]
    have hsz := (grow_size hP hC x draw (active w train).length 0 (rootRec C (active w train))).1
    have := trace_grow hP hC x draw (active w train).length (rootRec C (active w train)) (le_refl _) 0 []
      (2 * (active w train).length + 1 - (grow P C x draw (active w train).length 0 (rootRec C (active w train))).size)
    rw [show (grow P C x draw (active w train).length 0 (rootRec C (active w train))).size +
      (2 * (active w train).length + 1 - (grow P C x draw (active w train).length 0 (rootRec C (active w train))).size) =
      2 * (active w train).length + 1 by
        have : (rootRec C (active w train)).rows.length = (active w train).length := rfl
        omega] at this
    refine this.trans ?_
    have fin : ∀ (k id : Nat), trace P C x draw k id [] = [] := by intro k id; cases k <;> rfl
    rw [fin, List.append_nil]
    rfl
  rw [← htr, List.getElem?_map] at b6
  cases he : log[i]? with
  | none => rw [he] at b6; simp at b6
  | some e =>
    rw [he] at b6
    simp only [Option.map_some, Option.some.injEq] at b6
    have hd := h1 e (List.mem_of_getElem? he)
    have hdi : draw i = e.2 := by rw [← hdr]; simp [he]
    rw [hdi, b6] at *
    exact drawn_perm b2 hd

/-- **C95.** With `max_features` at least the number of features (the default of `CausalTree`), every inner node of the
tree has the admissible cut with the highest score among all cuts along all features. -/
theorem C95_best_of_all {P : Params A K} {C : Criterion A M K V} (hP : SoundParams P) (hC : SoundCriterion C)
    (x : A → Nat → K) (w : A → K) (n maxF : Nat) (hmax : n ≤ maxF) (rand junk : Nat → Nat) (train : List A) {i : Nat}
    {nd : Node K V} (hi : (buildD P C x w n maxF rand junk train).1[i]? = some nd) (hn : nd.left ≠ none) :
    let S := through (buildD P C x w n maxF rand junk train).1 x w train i
    nd.samples = S.length ∧ nd.value = C.value (S.map C.contrib).sum ∧
    Admissible P C x S nd.feature nd.threshold ∧
    ∀ f < n, ∀ t, Admissible P C x S f t → Apart P.thr x S f t →
      score C x S f t ≤ score C x S nd.feature nd.threshold := by
  obtain ⟨draw, h1, h2⟩ := C95_draws hP hC x w n maxF rand junk train
  obtain ⟨hlt, _⟩ := List.getElem?_eq_some_iff.mp hi
  have hd := h2 i hlt
  rw [h1] at hi hd ⊢
  intro S
  obtain ⟨g1, g2, g3, g4⟩ := C83_best_split hP hC x w draw train hi hn
  refine ⟨g1, g2, g3, ?_⟩
  intro f hf t ha hap
  exact g4 f (hd.all hmax f hf (fun hflat => flat_no_cut hflat ha hap)) t ha hap

theorem scan_feature (P : Params A K) (C : Criterion A M K V) (x : A → Nat → K) (f : Nat) (l : List A) :
    ∀ (fuel p : Nat) (c : Crit M) (best : Option (K × Split K)) (b : K × Split K),
    (scan P C x f l fuel p c best).2 = some b → best = some b ∨ b.2.feature = f := by
  intro fuel
  induction fuel with
  | zero => intro p c best b h; exact Or.inl h
  | succ fuel ih =>
    intro p c best b h
    unfold scan at h
    simp only at h
    split at h
    · split at h
      · split at h
        · exact ih _ _ _ _ h
        · split at h
          · exact ih _ _ _ _ h
          · split at h
            · rcases ih _ _ _ _ h with e | e
              · cases e; exact Or.inr rfl
              · exact Or.inr e
            · exact ih _ _ _ _ h
      · exact ih _ _ _ _ h
    · exact Or.inl h

theorem visits_feature (P : Params A K) (C : Criterion A M K V) (x : A → Nat → K) : ∀ (fs : List Nat)
    (st : List A × Crit M × Option (K × Split K)) (b : K × Split K),
    (fs.foldl (visit P C x) st).2.2 = some b → st.2.2 = some b ∨ b.2.feature ∈ fs := by
  intro fs
  induction fs with
  | nil => intro st b h; exact Or.inl h
  | cons f fs ih =>
    intro st b h
    rcases ih _ b h with e | e
    · unfold visit at e
      simp only at e
      split at e
      · exact Or.inl e
      · rcases scan_feature P C x f _ _ _ _ _ _ e with e | e
        · exact Or.inl e
        · exact Or.inr (by rw [e]; exact List.mem_cons_self)
    · exact Or.inr (List.mem_cons_of_mem _ e)

theorem nodeSplit_feature {P : Params A K} {C : Criterion A M K V} {x : A → Nat → K} {fs : List Nat} {l : List A} {imp : K}
    {s : Found A K} (h : nodeSplit P C x fs l imp = some s) : s.split.feature ∈ fs := by
  unfold nodeSplit at h
  have hv := visits_feature P C x fs (l, Crit.init (reads C.contrib l) 0 l.length, none)
  generalize fs.foldl (visit P C x) (l, Crit.init (reads C.contrib l) 0 l.length, none) = st at *
  obtain ⟨l', c, best⟩ := st
  cases best with
  | none => cases h
  | some b =>
    simp only [Option.some.injEq] at h
    rw [← h]
    rcases hv b rfl with e | e
    · cases e
    · exact e

/-- **C95.** Whatever `max_features` and the random numbers, an inner node splits along a feature of the data that
varies on its samples. -/
theorem C95_feature_valid {P : Params A K} {C : Criterion A M K V} (hP : SoundParams P) (hC : SoundCriterion C)
    (x : A → Nat → K) (w : A → K) (n maxF : Nat) (rand junk : Nat → Nat) (train : List A) {i : Nat}
    {nd : Node K V} (hi : (buildD P C x w n maxF rand junk train).1[i]? = some nd) (hn : nd.left ≠ none) :
    nd.feature < n ∧ Admissible P C x (through (buildD P C x w n maxF rand junk train).1 x w train i) nd.feature
      nd.threshold := by
  obtain ⟨draw, h1, h2⟩ := C95_draws hP hC x w n maxF rand junk train
  obtain ⟨hlt, _⟩ := List.getElem?_eq_some_iff.mp hi
  have hd := h2 i hlt
  rw [h1] at hi hd hlt ⊢
  refine ⟨?_, (C83_best_split hP hC x w draw train hi hn).2.2.1⟩
  obtain ⟨r, n', b1, b2, b3, b4, _⟩ := build_node hP hC x w draw train hlt
  rw [hi] at b1
  cases b1
  obtain ⟨f1, f2, f3, f4⟩ := b4
  cases hs : splitOf P C x draw i r with
  | none => rw [hs] at f4; exact absurd f4.1 hn
  | some s =>
    rw [hs] at f4
    rw [f4.2.2.1]
    exact hd.lt _ (nodeSplit_feature (splitOf_spec hP hC x draw i r s hs).2.2.2.2.2.2)

/-- **C95.** With `max_features` at least the number of features, when the depth limit does not bind, a leaf is a leaf
for a documented reason; in particular no admissible cut is missed because of the random draws. -/
theorem C95_leaf_reason {P : Params A K} {C : Criterion A M K V} (hP : SoundParams P) (hC : SoundCriterion C)
    (x : A → Nat → K) (w : A → K) (n maxF : Nat) (hmax : n ≤ maxF) (rand junk : Nat → Nat) (train : List A) {i : Nat}
    {nd : Node K V} (hi : (buildD P C x w n maxF rand junk train).1[i]? = some nd) (hn : nd.left = none)
    (hd : (buildD P C x w n maxF rand junk train).2 < P.maxDepth) :
    let S := through (buildD P C x w n maxF rand junk train).1 x w train i
    S.length < P.minSamplesSplit ∨ S.length < 2 * P.minSamplesLeaf ∨
    (∃ l, l.Perm S ∧ C.weight l < 2 * P.minWeightLeaf) ∨ nd.impurity ≤ P.eps ∨
    (∀ f < n, ∀ t, Admissible P C x S f t → ¬ Apart P.thr x S f t) ∨
    (∃ f t, Admissible P C x S f t ∧
      (∀ g < n, ∀ u, Admissible P C x S g u → Apart P.thr x S g u → score C x S g u ≤ score C x S f t) ∧
      ∃ l r : K, C.improvement nd.impurity l r (cutState C.contrib S (cut x f t)) + P.eps < P.minDecrease) := by
  obtain ⟨draw, h1, h2⟩ := C95_draws hP hC x w n maxF rand junk train
  obtain ⟨hlt, _⟩ := List.getElem?_eq_some_iff.mp hi
  have hdr := h2 i hlt
  rw [h1] at hi hdr hd ⊢
  intro S
  have hin : ∀ f < n, ∀ t, Admissible P C x S f t → Apart P.thr x S f t → f ∈ draw i :=
    fun f hf t ha hap => hdr.all hmax f hf (fun hflat => flat_no_cut hflat ha hap)
  rcases C83_leaf_reason hP hC x w draw train hi hn hd with h | h | h | h | h | ⟨f, t, ha, hb, hc⟩
  · exact Or.inl h
  · exact Or.inr (Or.inl h)
  · exact Or.inr (Or.inr (Or.inl h))
  · exact Or.inr (Or.inr (Or.inr (Or.inl h)))
  · exact Or.inr (Or.inr (Or.inr (Or.inr (Or.inl (fun f hf t ha hap => h f (hin f hf t ha hap) t ha hap)))))
  · exact Or.inr (Or.inr (Or.inr (Or.inr (Or.inr ⟨f, t, ha, fun g hg u hu hu' => hb g (hin g hg u hu hu') u hu hu', hc⟩))))

/-- six samples with three features: the first never varies, the second separates, the third varies on one side -/
def drawRows : List (Sample ℚ) :=
  [⟨fun f => [7, 0, 0].getD f 0, 1, 10⟩, ⟨fun f => [7, 0, 1].getD f 0, 1, 12⟩, ⟨fun f => [7, 0, 1].getD f 0, 1, 12⟩,
   ⟨fun f => [7, 5, 1].getD f 0, 1, 40⟩, ⟨fun f => [7, 5, 1].getD f 0, 1, 40⟩, ⟨fun f => [7, 6, 1].getD f 0, 1, 44⟩]

/-- the tree grown on them with the code's sort, drawing at most `maxF` features per node -/
def drawTree (maxF : Nat) : List (Node ℚ ℚ) × Nat :=
  buildD (Sort.codeParams (fun _ => 4) 2 1 5 0 0 (1 / 1000) (1 / 10000000)) (honestCMSE (1 / 100000) 10000000000)
    (fun a => a.x) (fun a => a.w) 3 maxF (fun k => 5 * k + 1) (fun _ => 99) drawRows

/-- all trees split along features 1 and 2 only, with more than one inner node -/
example : (drawTree 3).1.map (fun n => (n.left, n.feature, n.samples)) =
      [(some 1, 1, 6), (some 2, 2, 3), (none, 0, 1), (none, 0, 2), (some 5, 1, 3), (none, 0, 2), (none, 0, 1)] ∧
    (drawTree 1).1.length = 7 ∧ (drawTree 1).2 = 2 := by decide +kernel

end YL.Props
