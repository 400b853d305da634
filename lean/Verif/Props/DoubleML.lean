import Verif.Model.DoubleML
import Verif.Props.DoublyRobust
import Mathlib.Tactic.LinearCombination

/-!
# C44, C56, C58: DoubleML
-/

set_option linter.unusedSectionVars false

namespace YL.Props

open YL Meta
open YL.Permuted (Arg)

variable {V W K : Type} [LinearOrder V] [Field K] (lit : Nat → V)

theorem fij_length (coef : List K) (xd : Nat) (v : List K) : (DML.fij coef xd v).length = xd := by simp [DML.fij]

theorem fij_get {coef : List K} {xd : Nat} {v : List K} {i : Nat} (h : i < xd) :
    (DML.fij coef xd v)[i]? = some (DML.dot (DML.coefRow coef (v.length + 1) i) (1 :: v)) := by
  unfold DML.fij
  rw [List.getElem?_map, List.getElem?_range h]
  rfl

theorem fitDisc_enc {fitX : List (W × Nat) → W → List K} {fitY : List (W × K) → W → K} {fitR : List (List K) → List K → List K}
    {cov : Option (W → List K)} {cf d : Nat} {rows : List (Row V W K)} {enc : Encoder V} {coef : List K}
    (h : DML.fitDisc fitX fitY fitR cov cf lit d none rows = .ok (enc, coef)) : fitEncoder true d rows = .ok enc := by
  unfold DML.fitDisc at h
  simp only [useEncoder] at h
  split at h
  · cases h
  · rename_i e he
    repeat' (split at h <;> try cases h)
    exact he

/-- **C44**, discrete treatment: after any successful fit there is a function `F` of treatment vector and covariates, affine
in the covariates, such that for all arms with observed components, on every row and after any history, `estimate` returns
`F treat - F control`. -/
theorem C44_discrete {fitX : List (W × Nat) → W → List K} {fitY : List (W × K) → W → K} {fitR : List (List K) → List K → List K}
    {cov : Option (W → List K)} {cf d : Nat} (hd1 : 1 ≤ d) {rows : List (Row V W K)} {enc : Encoder V} {coef : List K}
    (h : DML.fitDisc fitX fitY fitR cov cf lit d none rows = .ok (enc, coef)) :
    ∃ F : List V → List K → K,
      (∀ u p, ∃ c : List K, ∀ v, v.length = p → F u v = DML.dot c (1 :: v)) ∧
      ∀ a b ta tb, Observed d rows a → Observed d rows b → ArgFor a ta → ArgFor b tb → ∀ stored v,
        ∃ st, DML.estDisc lit enc coef stored v ta tb = .ok (F a v - F b v, st) := by
  obtain ⟨hw, ht⟩ := transform_position lit hd1 (fitDisc_enc lit h)
  refine ⟨fun u v => DML.dot (DML.coefRow coef (v.length + 1) (armIdx d rows u)) (1 :: v), fun u p => ⟨DML.coefRow coef (p + 1) (armIdx d rows u), fun v hv => by simp only [hv]⟩, ?_⟩
  intro a b ta tb ha hb hta htb stored v
  have ht1 : ∃ arg, ta = some arg := by
    rcases hta with rfl | ⟨z, hz, rfl⟩ <;> exact ⟨_, rfl⟩
  obtain ⟨arg, rfl⟩ := ht1
  have l1 : armIdx d rows a < width enc := by rw [hw]; exact (List.getElem?_eq_some_iff.1 (armIdx_get (ht a ha).2)).1
  have l2 : armIdx d rows b < width enc := by rw [hw]; exact (List.getElem?_eq_some_iff.1 (armIdx_get (ht b hb).2)).1
  refine ⟨some (armIdx d rows a), ?_⟩
  unfold DML.estDisc
  simp only
  rw [getTrCtrl_arg lit hta, getTrCtrl_arg lit htb, (ht a ha).1, (ht b hb).1]
  simp only
  rw [fij_get l1, fij_get l2]

/-- **C44**, discrete treatment: equal arms have no effect, swapping negates it, and effects add up along chains of arms. -/
theorem C44_discrete_chain {fitX : List (W × Nat) → W → List K} {fitY : List (W × K) → W → K} {fitR : List (List K) → List K → List K}
    {cov : Option (W → List K)} {cf d : Nat} (hd1 : 1 ≤ d) {rows : List (Row V W K)} {enc : Encoder V} {coef : List K}
    (h : DML.fitDisc fitX fitY fitR cov cf lit d none rows = .ok (enc, coef)) {a b c : List V} (ha : Observed d rows a)
    (hb : Observed d rows b) (hc : Observed d rows c) (v : List K) :
    ∃ eab eba ebc eac s₁ s₂ s₃ s₄,
      DML.estDisc lit enc coef none v (some (.many a)) (some (.many b)) = .ok (eab, s₁) ∧
      DML.estDisc lit enc coef none v (some (.many b)) (some (.many a)) = .ok (eba, s₂) ∧
      DML.estDisc lit enc coef none v (some (.many b)) (some (.many c)) = .ok (ebc, s₃) ∧
      DML.estDisc lit enc coef none v (some (.many a)) (some (.many c)) = .ok (eac, s₄) ∧
      eba = -eab ∧ eac = eab + ebc ∧ (a = b → eab = 0) := by
  obtain ⟨F, -, hF⟩ := C44_discrete lit hd1 h
  obtain ⟨s₁, h1⟩ := hF a b _ _ ha hb (Or.inl rfl) (Or.inl rfl) none v
  obtain ⟨s₂, h2⟩ := hF b a _ _ hb ha (Or.inl rfl) (Or.inl rfl) none v
  obtain ⟨s₃, h3⟩ := hF b c _ _ hb hc (Or.inl rfl) (Or.inl rfl) none v
  obtain ⟨s₄, h4⟩ := hF a c _ _ ha hc (Or.inl rfl) (Or.inl rfl) none v
  exact ⟨_, _, _, _, s₁, s₂, s₃, s₄, h1, h2, h3, h4, by ring, by ring, fun hab => by rw [hab, sub_self]⟩

/-- **C44**, continuous treatment with scalar arms: the effect of every treatment column is proportional to the difference
of the arms, hence zero for equal arms, antisymmetric and additive. -/
theorem C44_continuous (coef : List K) (xd : Nat) (stored : Option K) (v : List K) (a b c : K) :
    (DML.estCont coef xd stored v (some a) (some a)).1 = List.replicate xd 0 ∧
    (DML.estCont coef xd stored v (some b) (some a)).1 = (DML.estCont coef xd stored v (some a) (some b)).1.map (fun k => -k) ∧
    (DML.estCont coef xd stored v (some a) (some c)).1 =
      List.zipWith (· + ·) (DML.estCont coef xd stored v (some a) (some b)).1 (DML.estCont coef xd stored v (some b) (some c)).1 ∧
    (DML.estCont coef xd stored v (some a) (some b)).1.length = xd := by
  refine ⟨?_, ?_, ?_, ?_⟩
  · simp only [DML.estCont, Option.getD_some, sub_self, mul_zero, List.map_const', fij_length]
  · simp only [DML.estCont, Option.getD_some, List.map_map]
    apply List.map_congr_left
    intro f _
    simp only [Function.comp_apply]
    ring
  · simp only [DML.estCont, Option.getD_some]
    generalize DML.fij coef xd v = l
    induction l with
    | nil => rfl
    | cons f l ih =>
      simp only [List.map_cons, List.zipWith_cons_cons, ih]
      congr 1
      ring
  · simp [DML.estCont, fij_length]

/-! ### histories -/

/-- **C56**, DoubleML with a discrete treatment: with both arms given in the call, the answer does not depend on earlier
calls. -/
theorem C56_doubleml_explicit (enc : Encoder V) (coef : List K) (st st' : Option Nat) (v : List K) (a : Arg V) (control : Option (Arg V)) :
    DML.estDisc lit enc coef st v (some a) control = DML.estDisc lit enc coef st' v (some a) control := by
  unfold DML.estDisc
  rfl

/-- **C56**, DoubleML, refuted in general: with labels 1, 2, 3 the call `estimate(treat=3)` answers 3 against 1 (the control
default is the smallest value); the next call `estimate()` answers 2 against 1 for a fresh object too, but the same call
repeated takes the stored position for a label and answers 1 against 1, that is 0. -/
theorem C56_doubleml_refuted :
    DML.callsDisc (V := Nat) (K := Rat) id ⟨[[1, 2, 3]], none⟩ [1, 10, 100] [] none [(some (.one 3), none), (none, none), (none, none)] =
      [.ok 99, .ok 9, .ok 0] ∧
    DML.callsDisc (V := Nat) (K := Rat) id ⟨[[1, 2, 3]], none⟩ [1, 10, 100] [] none [(none, none), (none, none)] =
      [.ok 9, .ok 0] := by
  decide +kernel

/-- **C56**, DoubleML with a discrete treatment labelled `0..k-1`: a call with a treated value makes this value the default
of later calls; repeating calls without a treated value does not change the answer. -/
theorem C56_doubleml_standard_labels (hlit : Function.Injective lit) {k : Nat} (coef : List K) (v : List K) {st : Nat} (hst : st < k)
    (control : Option (Arg V)) (m : Nat) :
    ∃ r, DML.callsDisc lit ⟨[(List.range k).map lit], none⟩ coef v (some st) (List.replicate m (none, control)) = List.replicate m r := by
  have hback : transform lit ⟨[(List.range k).map lit], none⟩ [lit st] = .ok st := by
    simp only [transform]
    apply position_of_get ((List.nodup_range).map hlit)
    rw [List.getElem?_map, List.getElem?_range (by omega)]
    rfl
  have hone : ∃ r : Except Err K, DML.estDisc lit ⟨[(List.range k).map lit], none⟩ coef (some st) v none control =
      r.map (fun x => (x, some st)) := by
    unfold DML.estDisc
    simp only [getTrCtrl, hback]
    split
    · rename_i e _; exact ⟨.error e, rfl⟩
    · rename_i e _ _; exact ⟨.error e, rfl⟩
    · rename_i t c h1 h2
      cases h1
      split
      · rename_i ft fc _ _
        exact ⟨.ok (ft - fc), rfl⟩
      · exact ⟨.error .index, rfl⟩
  obtain ⟨r, hr⟩ := hone
  refine ⟨r, ?_⟩
  induction m with
  | zero => rfl
  | succ m ih =>
    simp only [List.replicate_succ, DML.callsDisc, hr]
    cases r with
    | error e => simp only [Except.map, ih]
    | ok x => simp only [Except.map, ih]

/-! ### exact recovery -/

theorem dot_append (a b c : List K) : DML.dot (a ++ b) c = DML.dot a (c.take a.length) + DML.dot b (c.drop a.length) := by
  induction a generalizing c with
  | nil => simp [DML.dot]
  | cons x a ih =>
    cases c with
    | nil => simp [DML.dot]
    | cons y c =>
      have := ih c
      simp only [DML.dot] at this
      simp only [DML.dot, List.cons_append, List.zipWith_cons_cons, List.sum_cons, List.length_cons, List.take_succ_cons,
        List.drop_succ_cons, this]
      ring

theorem dot_smul (x : K) (u c : List K) : DML.dot (u.map (fun vj => x * vj)) c = x * DML.dot c u := by
  induction u generalizing c with
  | nil => simp [DML.dot]
  | cons a u ih =>
    cases c with
    | nil => simp [DML.dot]
    | cons y c =>
      have := ih c
      simp only [DML.dot] at this
      simp only [DML.dot, List.map_cons, List.zipWith_cons_cons, List.sum_cons, this]
      ring

theorem dot_take (u c : List K) : DML.dot (c.take u.length) u = DML.dot c u := by
  induction u generalizing c with
  | nil => simp [DML.dot]
  | cons a u ih =>
    cases c with
    | nil => simp [DML.dot]
    | cons y c =>
      have := ih c
      simp only [DML.dot] at this
      simp only [DML.dot, List.length_cons, List.take_succ_cons, List.zipWith_cons_cons, List.sum_cons, this]

/-- a row of the design times a coefficient vector: the sum over treatments of the residual times the treatment's coefficient
vector applied to the covariates -/
theorem dot_kron (x u c : List K) : DML.dot (DML.kron x u) c =
    ((List.range x.length).map (fun i => (x[i]?).getD 0 * DML.dot (DML.coefRow c u.length i) u)).sum := by
  induction x generalizing c with
  | nil => simp [DML.kron, DML.dot]
  | cons a x ih =>
    have hk : DML.kron (a :: x) u = u.map (fun vj => a * vj) ++ DML.kron x u := rfl
    rw [hk, dot_append, dot_smul, List.length_map, ih, List.length_cons, List.range_succ_eq_map, List.map_cons, List.sum_cons, List.map_map]
    congr 1
    · simp only [List.getElem?_cons_zero, Option.getD_some, DML.coefRow, Nat.zero_mul, List.drop_zero]
    · congr 1
      apply List.map_congr_left
      intro i _
      simp only [Function.comp_apply, List.getElem?_cons_succ, DML.coefRow, List.drop_drop, Nat.succ_mul]
      rw [Nat.add_comm]

theorem dot_sub {c c' u : List K} (h : c.length = c'.length) : DML.dot u (List.zipWith (· - ·) c c') = DML.dot u c - DML.dot u c' := by
  induction u generalizing c c' with
  | nil => simp [DML.dot]
  | cons a u ih =>
    cases c with
    | nil =>
      cases c' with
      | nil => simp [DML.dot]
      | cons y c' => simp at h
    | cons x c =>
      cases c' with
      | nil => simp at h
      | cons y c' =>
        have := ih (c := c) (c' := c') (by simpa using h)
        simp only [DML.dot] at this
        simp only [DML.dot, List.zipWith_cons_cons, List.sum_cons, this]
        ring

theorem coefRow_sub (c c' : List K) (vd i : Nat) :
    DML.coefRow (List.zipWith (· - ·) c c') vd i = List.zipWith (· - ·) (DML.coefRow c vd i) (DML.coefRow c' vd i) := by
  unfold DML.coefRow
  rw [List.drop_zipWith, List.take_zipWith]

theorem dot_comm (a b : List K) : DML.dot a b = DML.dot b a := by
  unfold DML.dot
  rw [List.zipWith_comm]
  congr 1
  congr 1
  funext x y
  ring

/-- The design identifies the contrast between treatments `a` and `b`: a coefficient vector that fits zero (with some
intercept) has equal coefficients for both. -/
def Identified (design : List (List K)) (vd len a b : Nat) : Prop :=
  ∀ (c : K) (δ : List K), δ.length = len → (∀ r ∈ design, c + DML.dot r δ = 0) → DML.coefRow δ vd a = DML.coefRow δ vd b

/-- The design identifies the coefficients of treatment `a`. -/
def IdentifiedColumn (design : List (List K)) (vd len a : Nat) : Prop :=
  ∀ (c : K) (δ : List K), δ.length = len → (∀ r ∈ design, c + DML.dot r δ = 0) → ∀ k ∈ DML.coefRow δ vd a, k = 0

/-- The final model fits exactly when that is possible: least squares with intercept. -/
def FitsExactly (fitR : List (List K) → List K → List K) : Prop :=
  ∀ (L : List (List K × K)) (β : List K), L ≠ [] → (∀ p ∈ L, p.1.length = β.length ∧ p.2 = DML.dot p.1 β) →
    (fitR (L.map (·.1)) (L.map (·.2))).length = β.length ∧ ∃ c, ∀ p ∈ L, p.2 = c + DML.dot p.1 (fitR (L.map (·.1)) (L.map (·.2)))

theorem kron_length (x u : List K) : (DML.kron x u).length = x.length * u.length := by
  induction x with
  | nil => simp [DML.kron]
  | cons a x ih =>
    have hk : DML.kron (a :: x) u = u.map (fun vj => a * vj) ++ DML.kron x u := rfl
    rw [hk, List.length_append, ih, List.length_map, List.length_cons, Nat.succ_mul, Nat.add_comm]

theorem coefRow_flatMap {θ : Nat → List K} {vd : Nat} (hθ : ∀ j, (θ j).length = vd) {xd j : Nat} (hj : j < xd) :
    DML.coefRow ((List.range xd).flatMap θ) vd j = θ j := by
  unfold DML.coefRow
  have key : ∀ (l : List Nat) (j : Nat) (hj : j < l.length), ((l.flatMap θ).drop (j * vd)).take vd = θ l[j] := by
    intro l
    induction l with
    | nil => intro j hj; simp at hj
    | cons a l ih =>
      intro j hj
      rw [List.flatMap_cons]
      cases j with
      | zero =>
        simp only [Nat.zero_mul, List.drop_zero, List.getElem_cons_zero]
        rw [← hθ a, List.take_left]
      | succ j =>
        have hd : (θ a ++ l.flatMap θ).drop ((j + 1) * vd) = (l.flatMap θ).drop (j * vd) := by
          rw [Nat.succ_mul, Nat.add_comm, ← List.drop_drop, ← hθ a, List.drop_left]
        rw [hd, List.getElem_cons_succ]
        exact ih j (by simpa using hj)
  rw [key _ j (by simpa using hj), List.getElem_range]

theorem flatMap_length {θ : Nat → List K} {vd : Nat} (hθ : ∀ j, (θ j).length = vd) (xd : Nat) :
    ((List.range xd).flatMap θ).length = xd * vd := by
  induction xd with
  | zero => simp
  | succ n ih =>
    rw [List.range_succ, List.flatMap_append, List.length_append, ih]
    simp [hθ, Nat.succ_mul]

theorem sum_range_sub (n : Nat) (f g : Nat → K) :
    ((List.range n).map (fun i => f i - g i)).sum = ((List.range n).map f).sum - ((List.range n).map g).sum := by
  exact sum_map_sub' f g _

/-- the combination of the treatments' effect functions with weights `x` at covariates `v` -/
def mix (θ : Nat → List K) (x : List K) (v : List K) : K :=
  ((List.range x.length).map (fun j => (x[j]?).getD 0 * DML.dot (θ j) (1 :: v))).sum

theorem exact_null {ι : Type} (l : List ι) (hne : l ≠ []) (X P v : ι → List K) (y yh g : ι → K) (θ : Nat → List K) {p xd : Nat}
    (hθ : ∀ j, (θ j).length = p + 1) (hX : ∀ r ∈ l, (X r).length = xd) (hP : ∀ r ∈ l, (P r).length = xd) (hv : ∀ r ∈ l, (v r).length = p)
    (hy : ∀ r ∈ l, y r = mix θ (X r) (v r) + g r) (hyh : ∀ r ∈ l, yh r = mix θ (P r) (v r) + g r)
    {fitR : List (List K) → List K → List K} (hR : FitsExactly fitR) :
    let coef := fitR (l.map (fun r => DML.xPrime (X r) (P r) (v r))) (l.map (fun r => y r - yh r))
    coef.length = xd * (p + 1) ∧ (∀ j < xd, (DML.coefRow coef (p + 1) j).length = p + 1) ∧ ∃ (c : K) (δ : List K), δ.length = xd * (p + 1) ∧
      (∀ r ∈ l.map (fun r => DML.xPrime (X r) (P r) (v r)), c + DML.dot r δ = 0) ∧
      ∀ j < xd, DML.coefRow δ (p + 1) j = List.zipWith (· - ·) (DML.coefRow coef (p + 1) j) (θ j) := by
  intro coef
  let β := (List.range xd).flatMap θ
  have hβ : β.length = xd * (p + 1) := flatMap_length hθ xd
  have hlen : ∀ r ∈ l, (List.zipWith (fun a b : K => a - b) (X r) (P r)).length = xd := by
    intro r hr
    rw [List.length_zipWith, hX r hr, hP r hr, min_self]
  have hdes : ∀ r ∈ l, (DML.xPrime (X r) (P r) (v r)).length = β.length ∧ y r - yh r = DML.dot (DML.xPrime (X r) (P r) (v r)) β := by
    intro r hr
    constructor
    · unfold DML.xPrime
      rw [kron_length, hlen r hr, hβ, List.length_cons, hv r hr]
    · unfold DML.xPrime
      rw [dot_kron, hlen r hr, hy r hr, hyh r hr]
      unfold mix
      rw [hX r hr, hP r hr, add_sub_add_right_eq_sub, ← sum_range_sub]
      congr 1
      apply List.map_congr_left
      intro j hj
      have hj' : j < xd := by simpa using hj
      have h1 : j < (X r).length := by rw [hX r hr]; exact hj'
      have h2 : j < (P r).length := by rw [hP r hr]; exact hj'
      rw [List.length_cons, hv r hr, coefRow_flatMap hθ hj', List.getElem?_zipWith, List.getElem?_eq_getElem h1, List.getElem?_eq_getElem h2]
      simp only [Option.getD_some]
      ring
  have hmap1 : (l.map (fun r => (DML.xPrime (X r) (P r) (v r), y r - yh r))).map (·.1) = l.map (fun r => DML.xPrime (X r) (P r) (v r)) := by
    rw [List.map_map]; rfl
  have hmap2 : (l.map (fun r => (DML.xPrime (X r) (P r) (v r), y r - yh r))).map (·.2) = l.map (fun r => y r - yh r) := by
    rw [List.map_map]; rfl
  obtain ⟨hcl, c, hc⟩ := hR (l.map (fun r => (DML.xPrime (X r) (P r) (v r), y r - yh r))) β (by simpa using hne) (by
    intro q hq
    simp only [List.mem_map] at hq
    obtain ⟨r, hr, rfl⟩ := hq
    exact hdes r hr)
  rw [hmap1, hmap2] at hcl hc
  have hcl' : coef.length = β.length := hcl
  have hzl : (List.zipWith (fun a b : K => a - b) coef β).length = xd * (p + 1) := by
    rw [List.length_zipWith, hcl', min_self, hβ]
  refine ⟨by rw [hcl', hβ], ?_, c, List.zipWith (· - ·) coef β, hzl, ?_, ?_⟩
  · intro j hj
    unfold DML.coefRow
    rw [List.length_take, List.length_drop, hcl', hβ]
    have : (j + 1) * (p + 1) ≤ xd * (p + 1) := Nat.mul_le_mul_right _ hj
    rw [Nat.succ_mul] at this
    omega
  · intro d hd
    simp only [List.mem_map] at hd
    obtain ⟨r, hr, rfl⟩ := hd
    rw [dot_sub hcl', ← (hdes r hr).2]
    have := hc (DML.xPrime (X r) (P r) (v r), y r - yh r) (List.mem_map.2 ⟨r, hr, rfl⟩)
    simp only at this
    linear_combination -this
  · intro j hj
    rw [coefRow_sub, coefRow_flatMap hθ hj]

theorem exact_core {ι : Type} (l : List ι) (hne : l ≠ []) (X P v : ι → List K) (y yh g : ι → K) (θ : Nat → List K) {p xd : Nat}
    (hθ : ∀ j, (θ j).length = p + 1) (hX : ∀ r ∈ l, (X r).length = xd) (hP : ∀ r ∈ l, (P r).length = xd) (hv : ∀ r ∈ l, (v r).length = p)
    (hy : ∀ r ∈ l, y r = mix θ (X r) (v r) + g r) (hyh : ∀ r ∈ l, yh r = mix θ (P r) (v r) + g r)
    {fitR : List (List K) → List K → List K} (hR : FitsExactly fitR) {a b : Nat} (ha : a < xd) (hb : b < xd)
    (hid : Identified (l.map (fun r => DML.xPrime (X r) (P r) (v r))) (p + 1) (xd * (p + 1)) a b) (u : List K) :
    let coef := fitR (l.map (fun r => DML.xPrime (X r) (P r) (v r))) (l.map (fun r => y r - yh r))
    DML.dot (DML.coefRow coef (p + 1) a) (1 :: u) - DML.dot (DML.coefRow coef (p + 1) b) (1 :: u) =
      DML.dot (θ a) (1 :: u) - DML.dot (θ b) (1 :: u) := by
  obtain ⟨-, hrow, c, δ, hδ, hz, hr⟩ := exact_null l hne X P v y yh g θ hθ hX hP hv hy hyh hR
  have h := hid c δ hδ hz
  rw [hr a ha, hr b hb] at h
  intro coef
  have key := congrArg (fun q => DML.dot (1 :: u) q) h
  rw [dot_sub (by rw [hrow a ha, hθ]), dot_sub (by rw [hrow b hb, hθ])] at key
  rw [dot_comm _ (1 :: u), dot_comm _ (1 :: u), dot_comm (θ a), dot_comm (θ b)]
  linear_combination key

theorem sub_zero_eq {l m : List K} (hl : l.length = m.length) (h : ∀ k ∈ List.zipWith (· - ·) l m, k = 0) : l = m := by
  apply List.ext_getElem hl
  intro i h1 h2
  have := h (l[i] - m[i]) (by
    rw [List.mem_iff_getElem]
    exact ⟨i, by simp [h1, h2], by simp⟩)
  exact sub_eq_zero.1 this

theorem exact_column {ι : Type} (l : List ι) (hne : l ≠ []) (X P v : ι → List K) (y yh g : ι → K) (θ : Nat → List K) {p xd : Nat}
    (hθ : ∀ j, (θ j).length = p + 1) (hX : ∀ r ∈ l, (X r).length = xd) (hP : ∀ r ∈ l, (P r).length = xd) (hv : ∀ r ∈ l, (v r).length = p)
    (hy : ∀ r ∈ l, y r = mix θ (X r) (v r) + g r) (hyh : ∀ r ∈ l, yh r = mix θ (P r) (v r) + g r)
    {fitR : List (List K) → List K → List K} (hR : FitsExactly fitR) {a : Nat} (ha : a < xd)
    (hid : IdentifiedColumn (l.map (fun r => DML.xPrime (X r) (P r) (v r))) (p + 1) (xd * (p + 1)) a) :
    DML.coefRow (fitR (l.map (fun r => DML.xPrime (X r) (P r) (v r))) (l.map (fun r => y r - yh r))) (p + 1) a = θ a := by
  obtain ⟨-, hrow, c, δ, hδ, hz, hr⟩ := exact_null l hne X P v y yh g θ hθ hX hP hv hy hyh hR
  have h := hid c δ hδ hz
  rw [hr a ha] at h
  exact sub_zero_eq (by rw [hrow a ha, hθ]) h

theorem collectX_map {ι : Type} (l : List ι) (P : ι → List K) {xd : Nat} (h : ∀ r ∈ l, (P r).length = xd) :
    DML.collectX xd (l.map (fun r => some (P r))) = .ok (l.map P) := by
  unfold DML.collectX
  apply mapE_map
  intro r hr
  simp [h r hr]

theorem collectY_map {ι : Type} (l : List ι) (P : ι → K) : DML.collectY (l.map (fun r => some (P r))) = .ok (l.map P) := by
  unfold DML.collectY
  apply mapE_map
  intro r _
  rfl

/-- **C58**, discrete treatment: the outcome is the effect function of the row's arm at the covariates plus a function of
`wv`, without noise; the first stage predicts treatment probabilities `pr` and the matching conditional outcome; the final
model is an exact least squares fit with intercept. Then `DoubleML` recovers the contrast of any two arms that the design
identifies, for every number of folds and at every covariate vector. -/
theorem C58_exact_discrete {fitX : List (W × Nat) → W → List K} {fitY : List (W × K) → W → K} {fitR : List (List K) → List K → List K}
    (hR : FitsExactly fitR) (f : W → List K) {cf d p : Nat} (hd1 : 1 ≤ d) {rows : List (Row V W K)} (hd : ∀ r ∈ rows, r.x.length = d)
    (hf : ∀ r ∈ rows, (f r.wv).length = p) (θ : List V → List K) (hθ : ∀ v, (θ v).length = p + 1) (g : W → K) (pr : W → List K)
    (hpr : ∀ r ∈ rows, (pr r.wv).length = (treatVectors d rows).length)
    (hy : ∀ r ∈ rows, r.y = DML.dot (θ r.x) (1 :: f r.wv) + g r.wv)
    (hfx : CF.crossFit fitX cf (trainX d rows) = .ok (rows.map (fun r => some (pr r.wv))))
    (hfy : CF.crossFit fitY cf (rows.map (fun r => (r.wv, r.y))) =
      .ok (rows.map (fun r => some (mix (fun j => θ ((treatVectors d rows)[j]?.getD [])) (pr r.wv) (f r.wv) + g r.wv))))
    {a b : List V} (ha : Observed d rows a) (hb : Observed d rows b)
    (hid : Identified (rows.map (fun r => DML.xPrime ((oneHot (treatVectors d rows).length (armIdx d rows r.x)).map (fun n : Nat => (n : K)))
      (pr r.wv) (f r.wv))) (p + 1) ((treatVectors d rows).length * (p + 1)) (armIdx d rows a) (armIdx d rows b)) :
    ∃ enc coef, DML.fitDisc fitX fitY fitR (some f) cf lit d none rows = .ok (enc, coef) ∧
      ∀ stored v, v.length = p → ∃ st, DML.estDisc lit enc coef stored v (some (.many a)) (some (.many b)) =
        .ok (DML.dot (θ a) (1 :: v) - DML.dot (θ b) (1 :: v), st) := by
  have hne : rows ≠ [] := by
    obtain ⟨r, hr, -⟩ := ha.2 0 hd1
    exact List.ne_nil_of_mem hr
  obtain ⟨enc, h1, -, -, -, -, -⟩ := fitEncoder_ok lit (allCodes := true) hd1 hd
  obtain ⟨hw, ht⟩ := transform_position lit hd1 h1
  have henc := encodeRows_eq lit hd1 hd h1
  set N := (treatVectors d rows).length with hN
  have hlt : ∀ v, Observed d rows v → armIdx d rows v < N := fun v hv => (List.getElem?_eq_some_iff.1 (armIdx_get (ht v hv).2)).1
  have hzX : (rows.zip (rows.map (fun r => oneHot N (armIdx d rows r.x)))).map (fun p => (p.1.wv, convert4onehot p.2)) = trainX d rows := by
    rw [zip_map_eq, List.map_map]
    unfold trainX
    apply List.map_congr_left
    intro r hr
    simp only [Function.comp_apply]
    rw [convert_oneHot (hlt r.x (observed_row hd hr))]
  let X : Row V W K → List K := fun r => (oneHot N (armIdx d rows r.x)).map (fun n : Nat => (n : K))
  let yh : Row V W K → K := fun r => mix (fun j => θ ((treatVectors d rows)[j]?.getD [])) (pr r.wv) (f r.wv) + g r.wv
  let coef := fitR (rows.map (fun r => DML.xPrime (X r) (pr r.wv) (f r.wv))) (rows.map (fun r => r.y - yh r))
  have hfit : DML.fitDisc fitX fitY fitR (some f) cf lit d none rows = .ok (enc, coef) := by
    unfold DML.fitDisc
    simp only [useEncoder, h1, henc, hzX, hfx, hfy]
    rw [hw, collectX_map rows (fun r => pr r.wv) hpr, collectY_map rows yh]
    simp only [DML.secondStage]
    have e1 : (((rows.map (fun r => r.wv)).zip ((rows.map (fun r => oneHot N (armIdx d rows r.x))).map (fun x => x.map (fun n : Nat => (n : K))))).zip
        (rows.map (fun r => pr r.wv))).map (fun p => DML.xPrime p.1.2 p.2 (f p.1.1)) = rows.map (fun r => DML.xPrime (X r) (pr r.wv) (f r.wv)) := by
      rw [List.map_map, List.zip_map', List.zip_map', List.map_map]
      rfl
    have e2 : List.zipWith (fun a b : K => a - b) (rows.map (fun r => r.y)) (rows.map yh) = rows.map (fun r => r.y - yh r) := by
      rw [List.zipWith_map, List.zipWith_self]
    rw [e1]
    show Except.ok (enc, fitR _ (List.zipWith (fun a b : K => a - b) (rows.map (fun r => r.y)) (rows.map yh))) = _
    rw [e2]
  refine ⟨enc, coef, hfit, fun stored v hv => ⟨some (armIdx d rows a), ?_⟩⟩
  have l1 : armIdx d rows a < width enc := by rw [hw]; exact hlt a ha
  have l2 : armIdx d rows b < width enc := by rw [hw]; exact hlt b hb
  unfold DML.estDisc
  simp only
  rw [getTrCtrl_arg lit (Or.inl rfl), getTrCtrl_arg lit (Or.inl rfl), (ht a ha).1, (ht b hb).1]
  simp only
  rw [fij_get l1, fij_get l2]
  simp only
  have hmixX : ∀ r ∈ rows, mix (fun j => θ ((treatVectors d rows)[j]?.getD [])) (X r) (f r.wv) = DML.dot (θ r.x) (1 :: f r.wv) := by
    intro r hr
    unfold mix
    have hXl : (X r).length = N := by simp [X, oneHot]
    rw [hXl]
    have hi := hlt r.x (observed_row hd hr)
    have hsum : ∀ (F : Nat → K) (n i : Nat), ((List.range n).map (fun j => (if j = i then (1 : K) else 0) * F j)).sum = if i < n then F i else 0 := by
      intro F n i
      induction n with
      | zero => simp
      | succ n ih =>
        rw [List.range_succ, List.map_append, List.sum_append, ih]
        simp only [List.map_cons, List.map_nil, List.sum_cons, List.sum_nil, add_zero]
        by_cases h : n = i
        · subst h; simp
        · by_cases h2 : i < n
          · simp [h, h2, Nat.lt_succ_of_lt h2]
          · have : ¬ i < n + 1 := by omega
            simp [h, h2, this]
    have := hsum (fun j => DML.dot (θ ((treatVectors d rows)[j]?.getD [])) (1 :: f r.wv)) N (armIdx d rows r.x)
    rw [if_pos hi, armIdx_get (ht r.x (observed_row hd hr)).2, Option.getD_some] at this
    rw [← this]
    congr 1
    apply List.map_congr_left
    intro j hj
    have hj' : j < N := by simpa using hj
    simp only [X]
    rw [List.getElem?_map, oneHot_getElem hj']
    simp only [Option.map_some, Option.getD_some]
    by_cases h : j = armIdx d rows r.x <;> simp [h]
  have core := exact_core rows hne X (fun r => pr r.wv) (fun r => f r.wv) (fun r => r.y) yh (fun r => g r.wv)
    (fun j => θ ((treatVectors d rows)[j]?.getD [])) (p := p) (xd := N) (fun j => hθ _) (fun r _ => by simp [X, oneHot]) hpr hf
    (fun r hr => by rw [hmixX r hr]; exact hy r hr) (fun r _ => rfl) hR (hlt a ha) (hlt b hb) hid v
  simp only [armIdx_get (ht a ha).2, armIdx_get (ht b hb).2, Option.getD_some] at core
  rw [hv]
  show Except.ok (DML.dot (DML.coefRow coef (p + 1) (armIdx d rows a)) (1 :: v) - DML.dot (DML.coefRow coef (p + 1) (armIdx d rows b)) (1 :: v), _) = _
  rw [core]

/-- **C58**, continuous treatment with `xd` columns: the outcome is the sum over the treatment columns of the treatment value
times its effect function at the covariates, plus a function of `wv`; the first stage predicts `pr` and the matching
conditional outcome. Then the fitted coefficients are the true ones and `estimate` returns, at every covariate vector and for
all scalar arms, the true effect of every column that the design identifies. -/
theorem C58_exact_continuous {fitX : List (W × List K) → W → List K} {fitY : List (W × K) → W → K} {fitR : List (List K) → List K → List K}
    (hR : FitsExactly fitR) (f : W → List K) {cf p xd : Nat} {rows : List (W × List K × K)} (hne : rows ≠ []) (hx : ∀ r ∈ rows, r.2.1.length = xd)
    (hf : ∀ r ∈ rows, (f r.1).length = p) (θ : Nat → List K) (hθ : ∀ j, (θ j).length = p + 1) (g : W → K) (pr : W → List K)
    (hpr : ∀ r ∈ rows, (pr r.1).length = xd)
    (hy : ∀ r ∈ rows, r.2.2 = mix θ r.2.1 (f r.1) + g r.1)
    (hfx : CF.crossFit fitX cf (rows.map (fun r => (r.1, r.2.1))) = .ok (rows.map (fun r => some (pr r.1))))
    (hfy : CF.crossFit fitY cf (rows.map (fun r => (r.1, r.2.2))) = .ok (rows.map (fun r => some (mix θ (pr r.1) (f r.1) + g r.1))))
    {a : Nat} (ha : a < xd) (hid : IdentifiedColumn (rows.map (fun r => DML.xPrime r.2.1 (pr r.1) (f r.1))) (p + 1) (xd * (p + 1)) a) :
    ∃ coef, DML.fitCont fitX fitY fitR (some f) cf xd rows = .ok coef ∧ ∀ stored v t c, v.length = p →
      (DML.estCont coef xd stored v (some t) (some c)).1[a]? = some (DML.dot (θ a) (1 :: v) * (t - c)) := by
  let yh : W × List K × K → K := fun r => mix θ (pr r.1) (f r.1) + g r.1
  refine ⟨fitR (rows.map (fun r => DML.xPrime r.2.1 (pr r.1) (f r.1))) (rows.map (fun r => r.2.2 - yh r)), ?_, ?_⟩
  · unfold DML.fitCont
    simp only [hfx, hfy]
    rw [collectX_map rows (fun r => pr r.1) hpr, collectY_map rows yh]
    simp only [DML.secondStage]
    rw [List.zip_map', List.zip_map', List.map_map, List.zipWith_map, List.zipWith_self]
    rfl
  · intro stored v t c hv
    have := exact_column rows hne (fun r => r.2.1) (fun r => pr r.1) (fun r => f r.1) (fun r => r.2.2) yh (fun r => g r.1) θ hθ hx hpr hf hy
      (fun _ _ => rfl) hR ha hid
    simp only [DML.estCont, List.getElem?_map, fij_get ha, Option.map_some, Option.getD_some, hv, this]

/-- **C58 (limit)**: without covariates, that is with adjustment variables only, `DoubleML.fit` never succeeds although the
arguments are accepted. -/
theorem C58_needs_covariates (fitX : List (W × List K) → W → List K) (fitY : List (W × K) → W → K) (fitR : List (List K) → List K → List K)
    (cf xd : Nat) (rows : List (W × List K × K)) : ∃ e, DML.fitCont fitX fitY fitR none cf xd rows = .error e := by
  unfold DML.fitCont
  split
  · exact ⟨_, rfl⟩
  · exact ⟨_, rfl⟩
  · split
    · exact ⟨_, rfl⟩
    · exact ⟨_, rfl⟩
    · exact ⟨_, rfl⟩

/-- the same for a discrete treatment -/
theorem C58_needs_covariates_discrete (fitX : List (W × Nat) → W → List K) (fitY : List (W × K) → W → K) (fitR : List (List K) → List K → List K)
    (cf d : Nat) (old : Option (Encoder V)) (rows : List (Row V W K)) : ∃ e, DML.fitDisc fitX fitY fitR none cf lit d old rows = .error e := by
  unfold DML.fitDisc
  simp only [DML.secondStage]
  repeat' (split <;> try exact ⟨_, rfl⟩)

/-- There is a final model as `C58` requires. -/
theorem fitsExactly_exists : ∃ fitR : List (List K) → List K → List K, FitsExactly fitR := by
  classical
  refine ⟨fun D T => if h : ∃ (L : List (List K × K)) (β : List K), L ≠ [] ∧ L.map (·.1) = D ∧ L.map (·.2) = T ∧
    (∀ p ∈ L, p.1.length = β.length ∧ p.2 = DML.dot p.1 β) then Classical.choose (Classical.choose_spec h) else [], ?_⟩
  intro L β hL hβ
  have h : ∃ (L' : List (List K × K)) (β : List K), L' ≠ [] ∧ L'.map (·.1) = L.map (·.1) ∧ L'.map (·.2) = L.map (·.2) ∧
    (∀ p ∈ L', p.1.length = β.length ∧ p.2 = DML.dot p.1 β) := ⟨L, β, hL, rfl, rfl, hβ⟩
  simp only [dif_pos h]
  obtain ⟨h1, h2, h3, h4⟩ := Classical.choose_spec (Classical.choose_spec h)
  generalize Classical.choose (Classical.choose_spec h) = β' at *
  generalize Classical.choose h = L' at *
  have hLL : L' = L := by
    have l1 : L'.length = L.length := by simpa using congrArg List.length h2
    apply List.ext_getElem l1
    intro i hi hi'
    have e1 := congrArg (fun q => q[i]?) h2
    have e2 := congrArg (fun q => q[i]?) h3
    simp only [List.getElem?_map, List.getElem?_eq_getElem hi, List.getElem?_eq_getElem hi', Option.map_some, Option.some.injEq] at e1 e2
    exact Prod.ext e1 e2
  subst hLL
  obtain ⟨q, hq⟩ := List.exists_mem_of_ne_nil _ hL
  exact ⟨by rw [← (h4 q hq).1, (hβ q hq).1], 0, fun p hp => by rw [zero_add]; exact (h4 p hp).2⟩

/-! ### a concrete case -/

/-- two arms 5 and 6 at two covariate values; the effect of arm 6 is `1 + 2 w` -/
def dmlRows : List (Row Nat Nat Rat) := [⟨0, [5], 0⟩, ⟨0, [6], 1⟩, ⟨1, [5], 1⟩, ⟨1, [6], 4⟩]

def dmlTheta (v : List Nat) : List Rat := if v = [6] then [1, 2] else [0, 0]

/-- the hypotheses of `C58_exact_discrete` hold for this data, a constant treatment model and a linear outcome model, and its
conclusion gives the effect `1 + 2 w` -/
example {fitR : List (List Rat) → List Rat → List Rat} (hR : FitsExactly fitR) :
    ∃ enc coef, DML.fitDisc (fun _ _ => [1 / 2, 1 / 2]) (fun _ (w : Nat) => 1 / 2 + 2 * (w : Rat)) fitR (some fun w => [(w : Rat)]) 2 id 1 none dmlRows = .ok (enc, coef) ∧
      ∀ stored (w : Rat), ∃ st, DML.estDisc id enc coef stored [w] (some (.many [6])) (some (.many [5])) = .ok (1 + 2 * w, st) := by
  obtain ⟨enc, coef, h1, h2⟩ := C58_exact_discrete (V := Nat) id (fitX := fun _ _ => [1 / 2, 1 / 2]) (fitY := fun _ (w : Nat) => 1 / 2 + 2 * (w : Rat)) hR
    (fun w : Nat => [(w : Rat)]) (cf := 2) (p := 1) (by decide) (rows := dmlRows) (d := 1) (by decide) (by decide) dmlTheta
    (fun v => by unfold dmlTheta; split <;> rfl) (fun w => (w : Rat)) (fun _ => [1 / 2, 1 / 2]) (by decide +kernel) (by decide +kernel) (by decide +kernel)
    (by decide +kernel) (a := [6]) (b := [5]) (by unfold Observed; decide) (by unfold Observed; decide) (by
      intro c δ hδ h
      have hl : (treatVectors 1 dmlRows).length * (1 + 1) = 4 := by decide
      rw [hl] at hδ
      match δ, hδ with
      | [a, b, c', d], _ =>
        have e : (dmlRows.map (fun r => DML.xPrime ((oneHot (treatVectors 1 dmlRows).length (armIdx 1 dmlRows r.x)).map (fun n : Nat => (n : Rat)))
          [1 / 2, 1 / 2] [(r.wv : Rat)])) = [[1/2, 0, -1/2, 0], [-1/2, 0, 1/2, 0], [1/2, 1/2, -1/2, -1/2], [-1/2, -1/2, 1/2, 1/2]] := by decide +kernel
        rw [e] at h
        have i1 : armIdx 1 dmlRows [6] = 1 := by decide
        have i2 : armIdx 1 dmlRows [5] = 0 := by decide
        rw [i1, i2]
        simp only [List.mem_cons, List.not_mem_nil, or_false, forall_eq_or_imp, forall_eq, DML.dot, List.zipWith_cons_cons, List.zipWith_nil_right,
          List.sum_cons, List.sum_nil] at h
        obtain ⟨q1, q2, q3, q4⟩ := h
        have r1 : a = c' := by linear_combination q1 - q2
        have r2 : b = d := by linear_combination q3 - q4 - q1 + q2
        subst r1 r2
        rfl)
  refine ⟨enc, coef, h1, fun stored w => ?_⟩
  obtain ⟨st, h⟩ := h2 stored [w] rfl
  refine ⟨st, ?_⟩
  rw [h]
  congr 2
  simp [DML.dot, dmlTheta]

/-- the hypotheses of `C58_exact_continuous` hold for a concrete case with one treatment column, and the effect is `3` per unit -/
example {fitR : List (List Rat) → List Rat → List Rat} (hR : FitsExactly fitR) :
    ∃ coef, DML.fitCont (W := Nat) (K := Rat) (fun _ _ => [1]) (fun _ w => 3 + 10 * (w : Rat)) fitR (some fun _ => []) 1 1
        [(0, [0], 0), (0, [2], 6), (1, [0], 10), (1, [2], 16)] = .ok coef ∧
      ∀ stored t c, (DML.estCont coef 1 stored [] (some t) (some c)).1[0]? = some (3 * (t - c)) := by
  obtain ⟨coef, h1, h2⟩ := C58_exact_continuous (W := Nat) (fitX := fun _ _ => [1]) (fitY := fun _ w => 3 + 10 * (w : Rat)) hR (fun _ => []) (cf := 1) (p := 0)
    (xd := 1) (rows := [(0, [0], 0), (0, [2], 6), (1, [0], 10), (1, [2], 16)]) (by decide) (by decide) (by decide) (fun _ => [3]) (fun _ => rfl)
    (fun w => 10 * (w : Rat)) (fun _ => [1]) (by decide) (by decide +kernel) (by decide +kernel) (by decide +kernel) (a := 0) (by decide) (by
      intro c δ hδ h
      match δ, hδ with
      | [a], _ =>
        have e : (([(0, [0], 0), (0, [2], 6), (1, [0], 10), (1, [2], 16)] : List (Nat × List Rat × Rat)).map (fun r => DML.xPrime r.2.1 [1] [])) =
          [[-1], [1], [-1], [1]] := by decide +kernel
        rw [e] at h
        simp only [List.mem_cons, List.not_mem_nil, or_false, forall_eq_or_imp, forall_eq, DML.dot, List.zipWith_cons_cons, List.zipWith_nil_right,
          List.sum_cons, List.sum_nil] at h
        obtain ⟨q1, q2, -, -⟩ := h
        have r1 : a = 0 := by linear_combination (1 / 2 : Rat) * q2 - (1 / 2 : Rat) * q1
        subst r1
        intro k hk
        simpa [DML.coefRow] using hk)
  refine ⟨coef, h1, fun stored t c => ?_⟩
  rw [h2 stored [] t c rfl]
  simp [DML.dot]

end YL.Props
