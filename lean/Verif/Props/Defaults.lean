import Verif.Props.EffectTable
import Verif.Props.DoubleML
import Verif.Props.Bound

/-!
# C164: what an omitted `treat` or `control` means

Every estimator with discrete treatments takes `treat` and `control` optionally. The documentation promises that the control is the
first and the treatment the second of the encoded values.
-/

set_option linter.unusedSectionVars false

namespace YL.Props

open YL Meta Table
open YL.Permuted (Arg)

variable {V W K : Type} [LinearOrder V]

/-- `u` and `v` are the smallest and the second smallest value of the single treatment in the data -/
structure TwoLeast {O : Type} (u v : V) (rows : List (Row V W O)) : Prop where
  first : ∃ r ∈ rows, r.x = [u]
  second : ∃ r ∈ rows, r.x = [v]
  lt : u < v
  rest : ∀ r ∈ rows, r.x = [u] ∨ ∃ w, r.x = [w] ∧ v ≤ w

theorem two_least_uniq {O : Type} {u v : V} {rows : List (Row V W O)} (h : TwoLeast u v rows) :
    ∃ l, uniq (Meta.column rows 0) = u :: v :: l := by
  have hmem : ∀ w, w ∈ uniq (Meta.column rows 0) ↔ ∃ r ∈ rows, r.x = [w] := fun w => by
    rw [mem_uniq]
    unfold Meta.column
    rw [List.mem_filterMap]
    constructor
    · rintro ⟨r, hr, hw⟩
      refine ⟨r, hr, ?_⟩
      rcases h.rest r hr with h1 | ⟨z, h1, -⟩ <;> · rw [h1] at hw ⊢; simp at hw; rw [hw]
    · rintro ⟨r, hr, hw⟩
      exact ⟨r, hr, by rw [hw]; rfl⟩
  have hs := uniq_sorted (Meta.column rows 0)
  have hu := (hmem u).2 h.first
  have hv := (hmem v).2 h.second
  have hall : ∀ w ∈ uniq (Meta.column rows 0), w = u ∨ v ≤ w := fun w hw => by
    obtain ⟨r, hr, hx⟩ := (hmem w).1 hw
    rcases h.rest r hr with h1 | ⟨z, h1, h2⟩
    · rw [hx] at h1; exact Or.inl (by simpa using h1)
    · rw [hx] at h1; right; rw [show w = z by simpa using h1]; exact h2
  generalize uniq (Meta.column rows 0) = L at hs hu hv hall
  match L, hs, hu, hv, hall with
  | [a], _, hu, hv, _ =>
    simp at hu hv
    exact absurd (hu.trans hv.symm) (ne_of_lt h.lt)
  | a :: b :: l, hs, hu, hv, hall =>
    rw [List.pairwise_cons, List.pairwise_cons] at hs
    obtain ⟨ha, hb, -⟩ := hs
    have e1 : a = u := by
      rcases hall a (by simp) with h1 | h1
      · exact h1
      · exfalso
        rcases List.mem_cons.1 hu with h2 | h2
        · rw [← h2] at h1; exact absurd h.lt (not_lt.2 h1)
        · exact absurd (h1.trans_lt (ha u h2)) (not_lt.2 h.lt.le)
    have e2 : b = v := by
      rcases hall b (by simp) with h1 | h1
      · have := ha b (by simp); rw [h1, e1] at this; exact absurd this (lt_irrefl _)
      · rcases List.mem_cons.1 hv with h2 | h2
        · rw [← e1, h2] at h; exact absurd h.lt (lt_irrefl _)
        · rcases List.mem_cons.1 h2 with h3 | h3
          · exact h3.symm
          · exact absurd (hb v h3) (not_lt.2 h1)
    exact ⟨l, by rw [e1, e2]⟩

theorem two_least_enc {O : Type} {u v : V} {rows : List (Row V W O)} (h : TwoLeast u v rows) (b : Bool) :
    ∃ l, fitEncoder b 1 rows = .ok ⟨[u :: v :: l], none⟩ ∧ (u :: v :: l).Nodup := by
  obtain ⟨l, hl⟩ := two_least_uniq h
  exact ⟨l, by simp [fitEncoder, hl], hl ▸ uniq_nodup _⟩

theorem arm_fill (lit : Nat → V) {u v : V} {l : List V} (hn : (u :: v :: l).Nodup) (a : Option (Arg V)) :
    getTrCtrl lit ⟨[u :: v :: l], none⟩ true a = getTrCtrl lit ⟨[u :: v :: l], none⟩ true (some (a.getD (.one v))) ∧
    getTrCtrl lit ⟨[u :: v :: l], none⟩ false a = getTrCtrl lit ⟨[u :: v :: l], none⟩ false (some (a.getD (.one u))) := by
  cases a with
  | some a => exact ⟨rfl, rfl⟩
  | none =>
    refine ⟨?_, ?_⟩
    · simp only [getTrCtrl, transform, Option.getD_none, if_true]
      exact (position_of_get hn rfl).symm
    · simp only [getTrCtrl, transform, Option.getD_none, Bool.false_eq_true, if_false]
      exact (position_of_get hn rfl).symm

/-- a new `SLearner` is fitted on data with `d` treatments, then `estimate` is called for one row -/
def sRun [Sub K] (lit : Nat → V) (fitM : List ((W × List Nat) × K) → (W × List Nat → K)) (d : Nat) (rows : List (Row V W K))
    (ta tb : Option (Arg V)) (wv : W) : Except Err (K × S V W K) :=
  match sFit fitM lit d none rows ta tb with
  | .error e => .error e
  | .ok s => sEstimate lit s wv

/-- **C164**, `SLearner`: for any data with one treatment whose two smallest values are `u < v`, any base model and any arguments, leaving
out `treat` is the same as writing `v`, and leaving out `control` the same as writing `u`: the fits end alike and the first estimates
(and the stored arms) are equal. -/
theorem C164_slearner [Sub K] (lit : Nat → V) (fitM : List ((W × List Nat) × K) → (W × List Nat → K)) {rows : List (Row V W K)} {u v : V}
    (h : TwoLeast u v rows) (ta tb : Option (Arg V)) (wv : W) :
    sRun lit fitM 1 rows ta tb wv = sRun lit fitM 1 rows (some (ta.getD (.one v))) (some (tb.getD (.one u))) wv := by
  obtain ⟨l, he, hn⟩ := two_least_enc h true
  have h1 := (arm_fill lit hn ta).1
  have h2 := (arm_fill lit hn tb).2
  unfold sRun sFit useEncoder
  simp only [he]
  rcases encodeRows lit ⟨[u :: v :: l], none⟩ rows with e | xs
  · rfl
  · dsimp only
    generalize fitBase fitM _ = R
    rcases R with e | f
    · rfl
    · dsimp only
      unfold sEstimate
      dsimp only
      rw [h1, h2]

/-- **C164**, `TLearner` with any base models -/
theorem C164_tlearner (lit : Nat → V) (fitM : List (W × K) → W → K) {rows : List (Row V W K)} {u v : V} (h : TwoLeast u v rows)
    (ta tb : Option (Arg V)) :
    tFit fitM lit 1 none rows ta tb = tFit fitM lit 1 none rows (some (ta.getD (.one v))) (some (tb.getD (.one u))) := by
  obtain ⟨l, he, hn⟩ := two_least_enc h false
  unfold tFit useEncoder
  simp only [he]
  rw [(arm_fill lit hn ta).1, (arm_fill lit hn tb).2]

/-- **C164**, `XLearner` with any base models -/
theorem C164_xlearner [Sub K] (lit : Nat → V) (fitM fitK : List (W × K) → W → K) {rows : List (Row V W K)} {u v : V} (h : TwoLeast u v rows)
    (ta tb : Option (Arg V)) :
    xFit fitM fitK lit 1 none rows ta tb = xFit fitM fitK lit 1 none rows (some (ta.getD (.one v))) (some (tb.getD (.one u))) := by
  obtain ⟨l, he, hn⟩ := two_least_enc h false
  unfold xFit useEncoder
  simp only [he]
  rw [(arm_fill lit hn ta).1, (arm_fill lit hn tb).2]

/-- **C164**, `TLearner` and `XLearner` with a discrete outcome -/
theorem C164_discrete_outcome {O : Type} [LinearOrder O] [Sub K] [Zero K] [One K] (lit : Nat → V) (fitC : List (W × O) → Clf W O K)
    (fitK : List (W × List K) → W → List K) {rows : List (Row V W O)} {u v : V} (h : TwoLeast u v rows) (ta tb : Option (Arg V)) :
    tFitP fitC lit 1 rows ta tb = tFitP fitC lit 1 rows (some (ta.getD (.one v))) (some (tb.getD (.one u))) ∧
    xFitP fitC fitK lit 1 rows ta tb = xFitP fitC fitK lit 1 rows (some (ta.getD (.one v))) (some (tb.getD (.one u))) := by
  obtain ⟨l, he, hn⟩ := two_least_enc h false
  unfold tFitP xFitP useEncoder
  simp only [he]
  rw [(arm_fill lit hn ta).1, (arm_fill lit hn tb).2]
  exact ⟨rfl, rfl⟩

/-- **C164**, `DoublyRobust`: any first and second stage models, any number of folds -/
theorem C164_doubly_robust {Z : Type} [Field K] [LinearOrder K] (lit : Nat → V) (eps : K) (fitX : List (W × Nat) → W → List K)
    (fitY : List ((W × List Nat) × K) → (W × List Nat → K)) (fitV : List (Z × K) → Z → K) (cov : Option (W → Z)) (cf : Nat)
    {rows : List (Row V W K)} {u v : V} (h : TwoLeast u v rows) (ta tb : Option (Arg V)) :
    DR.fit eps fitX fitY fitV cov cf lit 1 none rows ta tb =
      DR.fit eps fitX fitY fitV cov cf lit 1 none rows (some (ta.getD (.one v))) (some (tb.getD (.one u))) := by
  obtain ⟨l, he, hn⟩ := two_least_enc h true
  unfold DR.fit useEncoder
  simp only [he]
  rw [(arm_fill lit hn ta).1, (arm_fill lit hn tb).2]

/-- **C164**, `DoubleML`: on a freshly fitted estimator -/
theorem C164_doubleml [Field K] (lit : Nat → V) {fitX : List (W × Nat) → W → List K} {fitY : List (W × K) → W → K}
    {fitR : List (List K) → List K → List K} {cov : Option (W → List K)} {cf : Nat} {rows : List (Row V W K)} {enc : Encoder V}
    {coef : List K} (hf : DML.fitDisc fitX fitY fitR cov cf lit 1 none rows = .ok (enc, coef)) {u v : V} (h : TwoLeast u v rows)
    (z : List K) (ta tb : Option (Arg V)) :
    DML.estDisc lit enc coef none z ta tb = DML.estDisc lit enc coef none z (some (ta.getD (.one v))) (some (tb.getD (.one u))) := by
  obtain ⟨l, he, hn⟩ := two_least_enc h true
  have := fitDisc_enc lit hf
  rw [he] at this
  cases this
  unfold DML.estDisc
  have e : (match ta, (none : Option Nat) with
    | none, some t => some (Arg.one (lit t))
    | a, _ => a) = ta := by cases ta <;> rfl
  dsimp only
  rw [(arm_fill lit hn tb).2]
  cases ta with
  | none =>
    dsimp only
    rw [(arm_fill lit hn none).1]
  | some a => rfl

/-- **C164**, `ApproxBound`: any data, any assumption and bounds of the outcome -/
theorem C164_bound [Field K] [LinearOrder K] [IsStrictOrderedRing K] [DecidableEq W] (lit : Nat → V) {fitX : List (W × Nat) → W → List K}
    {fitY : List ((Option W × List Nat) × K) → (Option W × List Nat → K)} {cov : Bool} {xp : Option (List (List K))}
    {rows : List (Row V W K)} {s : Bound.Fitted V W K} (hf : Bound.fit fitX fitY lit 1 cov ⟨xp, none⟩ rows = .ok s) {u v : V}
    (h : TwoLeast u v rows) (data : Option (List (Row V W K))) (ta tb : Option (Arg V)) (yU yL : Option K) (a : Bound.Assump) :
    Bound.estimate lit s data ta tb yU yL a =
      Bound.estimate lit s data (some (ta.getD (.one v))) (some (tb.getD (.one u))) yU yL a := by
  obtain ⟨l, he, hn⟩ := two_least_enc h true
  have hs : s.enc = ⟨[u :: v :: l], none⟩ := by
    unfold Bound.fit useEncoder at hf
    simp only [he] at hf
    split at hf
    · cases hf
    · split at hf
      · cases hf
      · cases hf; rfl
  unfold Bound.estimate Bound.prepare
  rw [hs, (arm_fill lit hn ta).1, (arm_fill lit hn tb).2]

/-! ### several treatments, estimators that count all combinations -/

/-- `v` is the smallest value of treatment `j` -/
def LeastIn {O : Type} (rows : List (Row V W O)) (j : Nat) (v : V) : Prop :=
  v ∈ Meta.column rows j ∧ ∀ z ∈ Meta.column rows j, v ≤ z

/-- `w` is the second smallest value of treatment `j`, whose smallest is `v` -/
def SecondIn {O : Type} (rows : List (Row V W O)) (j : Nat) (v w : V) : Prop :=
  w ∈ Meta.column rows j ∧ v < w ∧ ∀ z ∈ Meta.column rows j, z = v ∨ w ≤ z

instance {O : Type} (rows : List (Row V W O)) (j : Nat) (v : V) : Decidable (LeastIn rows j v) := inferInstanceAs (Decidable (_ ∧ _))

instance {O : Type} (rows : List (Row V W O)) (j : Nat) (v w : V) : Decidable (SecondIn rows j v w) := inferInstanceAs (Decidable (_ ∧ _ ∧ _))

theorem least_uniq {O : Type} {rows : List (Row V W O)} {j : Nat} {v : V} (h : LeastIn rows j v) :
    ∃ l, uniq (Meta.column rows j) = v :: l := by
  have hs := uniq_sorted (Meta.column rows j)
  have hm : ∀ z, z ∈ uniq (Meta.column rows j) ↔ z ∈ Meta.column rows j := fun z => mem_uniq
  generalize uniq (Meta.column rows j) = L at hs hm
  match L, hs, hm with
  | [], _, hm => exact absurd ((hm v).2 h.1) (by simp)
  | a :: l, hs, hm =>
    rw [List.pairwise_cons] at hs
    have h1 := h.2 a ((hm a).1 (by simp))
    rcases List.mem_cons.1 ((hm v).2 h.1) with h2 | h2
    · exact ⟨l, by rw [h2]⟩
    · exact absurd (hs.1 v h2) (not_lt.2 h1)

theorem second_uniq {O : Type} {rows : List (Row V W O)} {j : Nat} {v w : V} (h : LeastIn rows j v) (h2 : SecondIn rows j v w) :
    ∃ l, uniq (Meta.column rows j) = v :: w :: l := by
  obtain ⟨l, hl⟩ := least_uniq h
  have hs := uniq_sorted (Meta.column rows j)
  have hm : ∀ z, z ∈ uniq (Meta.column rows j) ↔ z ∈ Meta.column rows j := fun z => mem_uniq
  rw [hl] at hs hm
  rw [hl]
  rw [List.pairwise_cons] at hs
  have hw : w ∈ l := by
    rcases List.mem_cons.1 ((hm w).2 h2.1) with h3 | h3
    · exact absurd h2.2.1 (by rw [h3]; exact lt_irrefl _)
    · exact h3
  match l, hs, hm, hw with
  | b :: l, hs, hm, hw =>
    have hb := hs.1 b (by simp)
    rcases h2.2.2 b ((hm b).1 (by simp)) with h3 | h3
    · rw [h3] at hb; exact absurd hb (lt_irrefl _)
    · rcases List.mem_cons.1 hw with h4 | h4
      · exact ⟨l, by rw [h4]⟩
      · exact absurd ((List.pairwise_cons.1 hs.2).1 w h4) (not_lt.2 h3)

theorem range_cons (n : Nat) : ∃ l, List.range (n + 1) = 0 :: l := ⟨_, List.range_succ_eq_map⟩

theorem position_head (v : V) (l : List V) : position (v :: l) v = .ok 0 := position_ok.2 ⟨by simp, by simp⟩

theorem ordinals_firsts : ∀ {cats : List (List V)} {m : List V}, List.Forall₂ (fun v c => ∃ l, c = v :: l) m cats →
    ordinals cats m = .ok (List.replicate cats.length 0) ∧ ∃ L, tails (cats.map (fun c => List.range c.length)) =
      List.replicate cats.length 0 :: L := by
  intro cats m h
  induction h with
  | nil => exact ⟨rfl, [], rfl⟩
  | @cons v c m cats h1 h2 ih =>
    obtain ⟨l, rfl⟩ := h1
    obtain ⟨i1, L, i2⟩ := ih
    refine ⟨?_, ?_⟩
    · simp only [ordinals]
      rw [i1, position_head]
      rfl
    · obtain ⟨r, hr⟩ := range_cons l.length
      simp only [List.map_cons, tails, i2, List.flatMap_cons, List.length_cons, hr, List.map_cons, List.cons_append, List.replicate_succ]
      exact ⟨_, rfl⟩

theorem code_firsts {a b c : V} {l l' : List V} {cats : List (List V)} {m : List V}
    (h : List.Forall₂ (fun v c => ∃ l, c = v :: l) m cats) (hne : b ≠ c) :
    code ((a :: l) :: (b :: c :: l') :: cats) (a :: b :: m) = .ok 0 ∧
    code ((a :: l) :: (b :: c :: l') :: cats) (a :: c :: m) = .ok 1 ∧
    2 ≤ (labels ((a :: l) :: (b :: c :: l') :: cats)).length := by
  obtain ⟨h1, L, h2⟩ := ordinals_firsts h
  have o0 : ordinals ((a :: l) :: (b :: c :: l') :: cats) (a :: b :: m) = .ok (0 :: 0 :: List.replicate cats.length 0) := by
    simp only [ordinals, h1, position_head]
  have p1 : position (b :: c :: l') c = .ok 1 := position_ok.2 ⟨by simp, by simp [List.idxOf_cons, hne]⟩
  have o1 : ordinals ((a :: l) :: (b :: c :: l') :: cats) (a :: c :: m) = .ok (0 :: 1 :: List.replicate cats.length 0) := by
    simp only [ordinals, h1, position_head, p1]
  obtain ⟨r, hr⟩ := range_cons l.length
  have hr2 : ∃ r', List.range (l'.length + 1 + 1) = 0 :: 1 :: r' :=
    ⟨_, by rw [List.range_succ_eq_map, List.range_succ_eq_map]; rfl⟩
  obtain ⟨r', hr'⟩ := hr2
  have hl : ∃ R, labels ((a :: l) :: (b :: c :: l') :: cats) =
      (0 :: 0 :: List.replicate cats.length 0) :: (0 :: 1 :: List.replicate cats.length 0) :: R := by
    unfold labels
    simp only [List.map_cons, cartesian, h2, List.flatMap_cons, List.length_cons, hr, hr', List.cons_append]
    exact ⟨_, rfl⟩
  obtain ⟨R, hR⟩ := hl
  have hn := labels_nodup ((a :: l) :: (b :: c :: l') :: cats)
  refine ⟨?_, ?_, by rw [hR]; simp⟩
  · unfold code
    rw [o0]
    dsimp only
    rw [position_of_get hn (i := 0) (by rw [hR]; rfl)]
  · unfold code
    rw [o1]
    dsimp only
    rw [position_of_get hn (i := 1) (by rw [hR]; rfl)]

/-- the arms an estimator that counts all combinations takes by default: `a` has the smallest value of every treatment, `b` differs from
it in the *second* treatment only, where it has the second smallest value -/
structure DefaultArms {O : Type} (rows : List (Row V W O)) (d : Nat) (a b : List V) : Prop where
  two : 2 ≤ d
  lena : a.length = d
  least : ∀ j v, a[j]? = some v → LeastIn rows j v
  next : ∃ v w, a[1]? = some v ∧ b = a.set 1 w ∧ SecondIn rows 1 v w

theorem default_arms_enc {O : Type} (lit : Nat → V) {rows : List (Row V W O)} {d : Nat} {a b : List V} (h : DefaultArms rows d a b) :
    ∃ enc, fitEncoder true d rows = .ok enc ∧ transform lit enc a = .ok 0 ∧ transform lit enc b = .ok 1 := by
  obtain ⟨h2, hl, hleast, v, w, hv, hb, hw⟩ := h
  match a, hl, hleast, hv, hb with
  | p :: q :: m, hl, hleast, hv, hb =>
    simp only [List.getElem?_cons_succ, List.getElem?_cons_zero, Option.some.injEq] at hv
    subst hv
    simp only [List.set_cons_succ, List.set_cons_zero] at hb
    subst hb
    have e0 : (List.range d).map (fun j => uniq (Meta.column rows j)) =
        uniq (Meta.column rows 0) :: uniq (Meta.column rows 1) ::
          (List.range m.length).map (fun j => uniq (Meta.column rows (j + 2))) := by
      rw [← hl, List.length_cons, List.length_cons, List.range_succ_eq_map, List.range_succ_eq_map]
      simp [Function.comp_def]
    obtain ⟨l, hp⟩ := least_uniq (hleast 0 p rfl)
    obtain ⟨l', hq⟩ := second_uniq (hleast 1 q rfl) hw
    have hf : List.Forall₂ (fun v c => ∃ l, c = v :: l) m ((List.range m.length).map (fun j => uniq (Meta.column rows (j + 2)))) := by
      rw [List.forall₂_iff_get]
      refine ⟨by simp, fun i h1 h2 => ?_⟩
      obtain ⟨l'', h''⟩ := least_uniq (hleast (i + 2) m[i] (by simp [h1]))
      exact ⟨l'', by simpa using h''⟩
    obtain ⟨c0, c1, c2⟩ := code_firsts (a := p) (l := l) (l' := l') hf (ne_of_lt hw.2.1)
    refine ⟨⟨(p :: l) :: (q :: w :: l') :: (List.range m.length).map (fun j => uniq (Meta.column rows (j + 2))), some (List.range
      (labels ((p :: l) :: (q :: w :: l') :: (List.range m.length).map (fun j => uniq (Meta.column rows (j + 2))))).length)⟩, ?_, ?_, ?_⟩
    · unfold fitEncoder
      rw [e0, hp, hq]
      dsimp only
      rw [if_neg (by omega), if_pos rfl]
    · unfold transform
      dsimp only
      rw [c0]
      dsimp only
      exact position_of_get List.nodup_range (List.getElem?_range (by omega))
    · unfold transform
      dsimp only
      rw [c1]
      dsimp only
      exact position_of_get List.nodup_range (List.getElem?_range (by omega))

theorem arm_fill_many (lit : Nat → V) {enc : Encoder V} {a b : List V} (h0 : transform lit enc a = .ok 0) (h1 : transform lit enc b = .ok 1)
    (t : Option (Arg V)) :
    getTrCtrl lit enc true t = getTrCtrl lit enc true (some (t.getD (.many b))) ∧
    getTrCtrl lit enc false t = getTrCtrl lit enc false (some (t.getD (.many a))) := by
  cases t with
  | some a => exact ⟨rfl, rfl⟩
  | none => exact ⟨by simp [getTrCtrl, h1], by simp [getTrCtrl, h0]⟩

/-- **C164**, several treatments, the estimators that count all combinations (`SLearner`, `DoublyRobust`): leaving out `control` means the
combination of all smallest values, leaving out `treat` the same combination with the second smallest value of the second treatment,
whether or not a row has these combinations. -/
theorem C164_several [Field K] [LinearOrder K] {Z : Type} (lit : Nat → V) {rows : List (Row V W K)} {d : Nat} {a b : List V}
    (h : DefaultArms rows d a b) (ta tb : Option (Arg V)) :
    (∀ fitM wv, sRun lit fitM d rows ta tb wv = sRun lit fitM d rows (some (ta.getD (.many b))) (some (tb.getD (.many a))) wv) ∧
    (∀ (eps : K) fitX fitY (fitV : List (Z × K) → Z → K) cov cf, DR.fit eps fitX fitY fitV cov cf lit d none rows ta tb =
      DR.fit eps fitX fitY fitV cov cf lit d none rows (some (ta.getD (.many b))) (some (tb.getD (.many a)))) := by
  obtain ⟨enc, he, t0, t1⟩ := default_arms_enc lit h
  have h1 := (arm_fill_many lit t0 t1 ta).1
  have h2 := (arm_fill_many lit t0 t1 tb).2
  refine ⟨fun fitM wv => ?_, fun eps fitX fitY fitV cov cf => ?_⟩
  · unfold sRun sFit useEncoder
    simp only [he]
    rcases encodeRows lit enc rows with e | xs
    · rfl
    · dsimp only
      generalize fitBase fitM _ = R
      rcases R with e | f
      · rfl
      · dsimp only
        unfold sEstimate
        dsimp only
        rw [h1, h2]
  · unfold DR.fit useEncoder
    simp only [he]
    rw [h1, h2]

/-- **C164**, several treatments: `DoubleML` on a freshly fitted estimator and `ApproxBound` take the same default arms. -/
theorem C164_several_dml_bound [Field K] [LinearOrder K] [IsStrictOrderedRing K] [DecidableEq W] (lit : Nat → V) {rows : List (Row V W K)}
    {d : Nat} {a b : List V} (h : DefaultArms rows d a b) (ta tb : Option (Arg V)) :
    (∀ fitX fitY fitR cov cf enc (coef : List K) z, DML.fitDisc fitX fitY fitR cov cf lit d none rows = .ok (enc, coef) →
      DML.estDisc lit enc coef none z ta tb =
        DML.estDisc lit enc coef none z (some (ta.getD (.many b))) (some (tb.getD (.many a)))) ∧
    (∀ fitX fitY cov xp s data yU yL asm, Bound.fit fitX fitY lit d cov ⟨xp, none⟩ rows = .ok s →
      Bound.estimate lit s data ta tb yU yL asm =
        Bound.estimate lit s data (some (ta.getD (.many b))) (some (tb.getD (.many a))) yU yL asm) := by
  obtain ⟨enc, he, t0, t1⟩ := default_arms_enc lit h
  refine ⟨fun fitX fitY fitR cov cf enc' coef z hf => ?_, fun fitX fitY cov xp s data yU yL asm hf => ?_⟩
  · have := fitDisc_enc lit hf
    rw [he] at this
    cases this
    unfold DML.estDisc
    dsimp only
    rw [(arm_fill_many lit t0 t1 tb).2]
    cases ta with
    | none =>
      dsimp only
      rw [(arm_fill_many lit t0 t1 none).1]
    | some a => rfl
  · have hs : s.enc = enc := by
      unfold Bound.fit useEncoder at hf
      simp only [he] at hf
      split at hf
      · cases hf
      · split at hf
        · cases hf
        · cases hf; rfl
    unfold Bound.estimate Bound.prepare
    rw [hs, (arm_fill_many lit t0 t1 ta).1, (arm_fill_many lit t0 t1 tb).2]

/-! ### non-vacuity -/

/-- one treatment with the values 2, 5 and 7 -/
def oneTreat : List (Row Nat Nat Int) := [⟨0, [5], 10⟩, ⟨1, [7], 4⟩, ⟨2, [2], 7⟩, ⟨3, [5], 1⟩, ⟨4, [2], 2⟩, ⟨5, [7], 3⟩]

example : TwoLeast 2 5 oneTreat := ⟨by decide, by decide, by decide, fun r hr => by
  simp only [oneTreat, List.mem_cons, List.not_mem_nil, or_false] at hr
  rcases hr with rfl | rfl | rfl | rfl | rfl | rfl <;> simp⟩

example : (tFit sumModel id 1 none oneTreat none none).toOption.map (fun s => tEstimate s 9) = some (11 - 9) := by decide

/-- two treatments, two of the four combinations observed -/
def twoTreats : List (Row Nat Nat Int) := [(⟨0, [3, 6], 4⟩ : Row Nat Nat Int), ⟨1, [4, 5], 7⟩, ⟨2, [3, 6], 1⟩, ⟨3, [4, 5], 2⟩]

example : DefaultArms twoTreats 2 [3, 5] [3, 6] := by
  refine ⟨le_refl _, rfl, fun j v h => ?_, 5, 6, rfl, rfl, by decide⟩
  match j, h with
  | 0, h => cases h; exact (by decide : LeastIn twoTreats 0 3)
  | 1, h => cases h; exact (by decide : LeastIn twoTreats 1 5)

/-- What does not hold: with several treatments the default arms depend on the estimator. `SLearner` counts all combinations of values,
observed or not, `TLearner` and `XLearner` the observed ones: on the same data and the same (omitted) arguments `SLearner` compares
(3, 6) with (3, 5), a combination no row has, `TLearner` compares (4, 5) with (3, 6). -/
theorem C164_several_refuted :
    (tFit sumModel id 2 none twoTreats none none).toOption.map
        (fun s => (s.treat, s.control)) =
      (tFit sumModel id 2 none twoTreats
        (some (.many [4, 5])) (some (.many [3, 6]))).toOption.map (fun s => (s.treat, s.control)) ∧
    (∀ (fitM : List ((Nat × List Nat) × Int) → (Nat × List Nat → Int)) (wv : Nat),
      sRun id fitM 2 twoTreats none none wv = sRun id fitM 2 twoTreats (some (.many [3, 6])) (some (.many [3, 5])) wv) ∧
    ∀ r ∈ twoTreats, r.x ≠ [3, 5] := by
  refine ⟨by decide, fun fitM wv => rfl, by decide⟩

end YL.Props
