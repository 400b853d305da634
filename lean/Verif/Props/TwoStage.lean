import Verif.Model.TwoStage
import Verif.Props.DoubleML
import Mathlib.Algebra.Order.Ring.Rat
import Mathlib.Algebra.Order.BigOperators.Group.List
import Mathlib.Tactic.Linarith
import Mathlib.Tactic.Positivity

/-!
# `NP2SLS`: C102 (exactness), C103 (effects are contrasts), C104 (which calls answer)
-/

set_option linter.unusedSectionVars false

namespace YL.Props
open YL YL.TwoStage

variable {K : Type} [Field K] [DecidableEq K]

/-! ### least squares -/

/-- `f` is affine: an intercept plus a scalar product with coefficients -/
def Affine (f : List K → K) : Prop := ∃ (b : K) (c : List K), ∀ r : List K, f r = b + DML.dot c r

/-- `f` is a least squares fit of the data: affine, and the residuals are orthogonal to every affine function of the
regressors (the normal equations, `isOLS_of_columns`) -/
def IsOLS (data : List (List K × K)) (f : List K → K) : Prop :=
  Affine f ∧ ∀ (b : K) (c : List K), (data.map (fun p => (b + DML.dot c p.1) * (p.2 - f p.1))).sum = 0

/-- the same for vectors of `m` outcomes, coordinate by coordinate -/
def IsOLSVec (m : Nat) (data : List (List K × List K)) (f : List K → List K) : Prop :=
  (∀ r, (f r).length = m) ∧ ∀ k < m, IsOLS (data.map (fun p => (p.1, p.2.getD k 0))) (fun r => (f r).getD k 0)

theorem dot_range (c x : List K) :
    DML.dot c x = ((List.range x.length).map (fun k => c.getD k 0 * x.getD k 0)).sum := by
  induction x generalizing c with
  | nil => simp [DML.dot]
  | cons a x ih =>
    cases c with
    | nil => simp [DML.dot]
    | cons y c =>
      have := ih c
      simp only [DML.dot] at this
      simp only [DML.dot, List.zipWith_cons_cons, List.sum_cons, List.length_cons, List.range_succ_eq_map, List.map_cons,
        List.map_map, this]
      rfl

theorem sum_range_comm {ι : Type} (l : List ι) (m : Nat) (g : ι → Nat → K) :
    (l.map (fun i => ((List.range m).map (g i)).sum)).sum = ((List.range m).map (fun k => (l.map (fun i => g i k)).sum)).sum := by
  induction l with
  | nil => simp
  | cons a l ih => simp only [List.map_cons, List.sum_cons, ih, ← List.sum_map_add]

theorem sum_const_mul {ι : Type} (l : List ι) (k : K) (g : ι → K) :
    (l.map (fun i => k * g i)).sum = k * (l.map g).sum := by
  induction l with
  | nil => simp
  | cons a l ih => simp only [List.map_cons, List.sum_cons, ih]; ring

theorem sum_mul_const {ι : Type} (l : List ι) (k : K) (g : ι → K) :
    (l.map g).sum * k = (l.map (fun i => g i * k)).sum := by
  induction l with
  | nil => simp
  | cons a l ih => simp only [List.map_cons, List.sum_cons, ← ih]; ring

theorem dot_append_right (c a b : List K) : DML.dot c (a ++ b) = DML.dot c a + DML.dot (c.drop a.length) b := by
  rw [dot_comm, dot_append, dot_comm a, dot_take, dot_comm b]

theorem sum_eq_zero_of {ι : Type} (l : List ι) (g : ι → K) (h : ∀ i ∈ l, g i = 0) : (l.map g).sum = 0 := by
  induction l with
  | nil => simp
  | cons a l ih =>
    simp only [List.map_cons, List.sum_cons, h a (by simp), ih (fun i hi => h i (List.mem_cons_of_mem _ hi)), add_zero]

/-- the normal equations column by column -/
theorem isOLS_of_columns {data : List (List K × K)} {f : List K → K} (m : Nat) (ha : Affine f)
    (hlen : ∀ p ∈ data, p.1.length = m) (h0 : (data.map (fun p => p.2 - f p.1)).sum = 0)
    (hk : ∀ k < m, (data.map (fun p => p.1.getD k 0 * (p.2 - f p.1))).sum = 0) : IsOLS data f := by
  refine ⟨ha, fun b c => ?_⟩
  have hs : (data.map (fun p => (b + DML.dot c p.1) * (p.2 - f p.1))).sum =
      (data.map (fun p => b * (p.2 - f p.1) +
        ((List.range m).map (fun k => c.getD k 0 * (p.1.getD k 0 * (p.2 - f p.1)))).sum)).sum := by
    congr 1
    apply List.map_congr_left
    intro p hp
    rw [dot_range, hlen p hp, add_mul, sum_mul_const]
    congr 2
    apply List.map_congr_left
    intro k _
    ring
  rw [hs, List.sum_map_add, sum_const_mul, h0, sum_range_comm]
  rw [sum_eq_zero_of _ _ (fun k hk' => by rw [sum_const_mul, hk k (by simpa using hk'), mul_zero])]
  ring

/-- a sum of products vanishes on all affine functions of `F` -/
def Orthogonal {ι : Type} (l : List ι) (F : ι → List K) (e : ι → K) : Prop :=
  ∀ (b : K) (c : List K), (l.map (fun i => (b + DML.dot c (F i)) * e i)).sum = 0

section ordered
variable [LinearOrder K] [IsStrictOrderedRing K]

theorem sum_sq_zero {ι : Type} (l : List ι) (g : ι → K) (h : (l.map (fun i => g i * g i)).sum = 0) : ∀ i ∈ l, g i = 0 := by
  induction l with
  | nil => simp
  | cons a l ih =>
    simp only [List.map_cons, List.sum_cons] at h
    have h1 : 0 ≤ g a * g a := mul_self_nonneg _
    have h2 : 0 ≤ (l.map (fun i => g i * g i)).sum := by
      apply List.sum_nonneg
      intro x hx
      obtain ⟨i, _, rfl⟩ := List.mem_map.1 hx
      exact mul_self_nonneg _
    intro i hi
    rcases List.mem_cons.1 hi with rfl | hi
    · exact mul_self_eq_zero.1 (by linarith)
    · exact ih (by linarith) i hi

/-- least squares finds an affine truth if the rest is orthogonal to the regressors -/
theorem ols_exact {ι : Type} (l : List ι) (F : ι → List K) (y e : ι → K) {f : List K → K}
    (h : IsOLS (l.map (fun i => (F i, y i))) f) (b : K) (θ : List K) (hy : ∀ i ∈ l, y i = b + DML.dot θ (F i) + e i)
    (he : Orthogonal l F e) : ∀ i ∈ l, f (F i) = b + DML.dot θ (F i) := by
  obtain ⟨⟨a, c, hf⟩, ho⟩ := h
  have key : (l.map (fun i => (f (F i) - (b + DML.dot θ (F i))) * (f (F i) - (b + DML.dot θ (F i))))).sum = 0 := by
    have h1 := ho a c
    have h2 := ho b θ
    have h3 := he a c
    have h4 := he b θ
    rw [List.map_map] at h1 h2
    have hs : (l.map (fun i => (f (F i) - (b + DML.dot θ (F i))) * (f (F i) - (b + DML.dot θ (F i))))).sum =
        (l.map (fun i => ((a + DML.dot c (F i)) * e i + (-1) * ((b + DML.dot θ (F i)) * e i)) +
          ((-1) * ((a + DML.dot c (F i)) * (y i - f (F i))) + (b + DML.dot θ (F i)) * (y i - f (F i))))).sum := by
      congr 1
      apply List.map_congr_left
      intro i hi
      rw [hy i hi, hf (F i)]
      ring
    rw [hs, List.sum_map_add, List.sum_map_add, List.sum_map_add, sum_const_mul, sum_const_mul, h3, h4]
    rw [show (l.map (fun i => (a + DML.dot c (F i)) * (y i - f (F i)))).sum = 0 from h1,
      show (l.map (fun i => (b + DML.dot θ (F i)) * (y i - f (F i)))).sum = 0 from h2]
    ring
  intro i hi
  exact sub_eq_zero.1 (sum_sq_zero l _ key i hi)

end ordered

/-! ### C103: effects are contrasts -/

theorem design_dot (c : List K) (a : List K) (v w : Option (List K)) :
    DML.dot c (design a v w) = DML.dot c (design a v none |>.dropLast) +
      DML.dot (c.drop (design a v none).dropLast.length) (w.getD [] ++ [1]) := by
  have : design a v w = (design a v none).dropLast ++ (w.getD [] ++ [1]) := by
    unfold design
    simp
  rw [this, dot_append_right]

/-- the treatment part of a design row -/
def effectPart (a : List K) (v : Option (List K)) : List K := (design a v none).dropLast

theorem effectPart_length {a a' : List K} (h : a.length = a'.length) (v : Option (List K)) :
    (effectPart a v).length = (effectPart a' v).length := by
  cases v with
  | none => simp [effectPart, design, h]
  | some v => simp [effectPart, design, kron_length, h]

theorem affine_contrast {f : List K → K} (hf : Affine f) {a a' : List K} (h : a.length = a'.length) :
    ∃ c : List K, (∀ r : List K, f r = f [] + DML.dot c r) ∧ ∀ v w : Option (List K),
      f (design a v w) - f (design a' v w) = DML.dot c (effectPart a v) - DML.dot c (effectPart a' v) := by
  obtain ⟨b, c, hc⟩ := hf
  refine ⟨c, fun r => by rw [hc, hc []]; simp [DML.dot], fun v w => ?_⟩
  rw [hc, hc, design_dot c a, design_dot c a']
  rw [show (design a v none).dropLast.length = (design a' v none).dropLast.length from effectPart_length h v]
  unfold effectPart
  ring

theorem reshape_one {xd : Nat} (hx : 0 < xd) {t : List K} (ht : t.length = xd) : reshape xd t = .ok [t] := by
  unfold reshape
  rw [ht, if_pos (Nat.mod_self xd), Nat.div_self hx]
  simp [ht]

theorem armRows_one {xd n : Nat} (hx : 0 < xd) {t : List K} (ht : t.length = xd) (dflt : K) :
    armRows xd n dflt (some t) = .ok (List.replicate n t) := by
  unfold armRows
  simp only [reshape_one hx ht]

theorem mapE_replicate {α β : Type} {f : α → Except Err β} {a : α} {b : β} (h : f a = .ok b) (n : Nat) :
    Meta.mapE f (List.replicate n a) = .ok (List.replicate n b) := by
  induction n with
  | zero => rfl
  | succ n ih => simp only [List.replicate_succ, Meta.mapE, h, ih]

theorem arms_one {f : Fitted K} {n : Nat} (hx : 0 < f.xd) {t t' : List K} (ht : t.length = f.xd)
    (he : encodeX f.cats t = .ok t') (dflt : K) : arms f n dflt (some t) = .ok (List.replicate n t') := by
  unfold arms
  rw [armRows_one hx ht]
  exact mapE_replicate he n

theorem predictAt_replicate (f : Fitted K) (vw : List (Option (List K) × Option (List K))) (t : List K) :
    predictAt f vw (List.replicate vw.length t) = vw.map (fun p => f.yModel (design (f.bx.rows t) p.1 p.2)) := by
  unfold predictAt
  induction vw with
  | nil => rfl
  | cons a l ih => simp only [List.length_cons, List.replicate_succ, List.zip_cons_cons, List.map_cons, ih]

/-- the estimate for one value of treat and control: the difference of the second stage's predictions, row by row -/
theorem estimate_one {f : Fitted K} (hx : 0 < f.xd) {t t' c c' : List K} (ht : t.length = f.xd) (hc : c.length = f.xd)
    (het : encodeX f.cats t = .ok t') (hec : encodeX f.cats c = .ok c') (data : Option (List (Obs K))) :
    estimate f data (some t) (some c) .none = .ok ((checkData f data).map (fun p =>
      f.yModel (design (f.bx.rows t') p.1 p.2) - f.yModel (design (f.bx.rows c') p.1 p.2))) := by
  have h : prepare f data (some t) (some c) = .ok
      ((checkData f data).map (fun p => f.yModel (design (f.bx.rows t') p.1 p.2)),
       (checkData f data).map (fun p => f.yModel (design (f.bx.rows c') p.1 p.2))) := by
    unfold prepare
    rw [arms_one hx ht het, arms_one hx hc hec]
    simp only [predictAt_replicate]
  unfold estimate
  rw [h]
  simp only [List.zipWith_map_left, List.zipWith_map_right, List.zipWith_self]

/-- The values of the treatment the fitted object can be asked about: the right number of columns and, for a discrete
treatment, known values. -/
def Askable (f : Fitted K) (t : List K) : Prop := t.length = f.xd ∧ ∃ t', encodeX f.cats t = .ok t'

/-- C103. For all askable values, effects are zero between equal values, change sign with the direction and add up along
intermediate values, for every row and whatever the second stage model is. -/
theorem C103_contrasts {f : Fitted K} (hx : 0 < f.xd) {a b c : List K} (ha : Askable f a) (hb : Askable f b)
    (hc : Askable f c) (data : Option (List (Obs K))) :
    ∃ ab bc ac ba aa : List K,
      estimate f data (some a) (some b) .none = .ok ab ∧ estimate f data (some b) (some c) .none = .ok bc ∧
      estimate f data (some a) (some c) .none = .ok ac ∧ estimate f data (some b) (some a) .none = .ok ba ∧
      estimate f data (some a) (some a) .none = .ok aa ∧
      ab.length = (checkData f data).length ∧ (∀ e ∈ aa, e = 0) ∧ ba = ab.map (fun e => -e) ∧
      ac = List.zipWith (· + ·) ab bc := by
  obtain ⟨ha, a', hea⟩ := ha
  obtain ⟨hb, b', heb⟩ := hb
  obtain ⟨hc, c', hec⟩ := hc
  refine ⟨_, _, _, _, _, estimate_one hx ha hb hea heb data, estimate_one hx hb hc heb hec data,
    estimate_one hx ha hc hea hec data, estimate_one hx hb ha heb hea data, estimate_one hx ha ha hea hea data, by simp,
    ?_, ?_, ?_⟩
  · intro e he
    obtain ⟨p, _, rfl⟩ := List.mem_map.1 he
    ring
  · rw [List.map_map]
    apply List.map_congr_left
    intro p _
    simp only [Function.comp_apply]
    ring
  · rw [List.zipWith_map_left, List.zipWith_map_right, List.zipWith_self]
    apply List.map_congr_left
    intro p _
    ring

/-- C103. With a linear second stage the effect of a row depends on its covariates only: the adjustment variables cancel. -/
theorem C103_adjustment_cancels {f : Fitted K} (hx : 0 < f.xd) (hf : Affine f.yModel) {m : Nat}
    (hm : ∀ r : List K, r.length = f.xd → (f.bx.rows r).length = m) (hcat : f.cats = none)
    {t c : List K} (ht : t.length = f.xd) (hc : c.length = f.xd) :
    ∃ g : Option (List K) → K, ∀ data : Option (List (Obs K)),
      estimate f data (some t) (some c) .none = .ok ((checkData f data).map (fun p => g p.1)) := by
  have hen : ∀ r : List K, encodeX f.cats r = .ok r := fun r => by rw [hcat]; rfl
  obtain ⟨k, _, hk⟩ := affine_contrast hf (a := f.bx.rows t) (a' := f.bx.rows c) (by rw [hm t ht, hm c hc])
  refine ⟨fun v => DML.dot k (effectPart (f.bx.rows t) v) - DML.dot k (effectPart (f.bx.rows c) v), fun data => ?_⟩
  rw [estimate_one hx ht hc (hen t) (hen c)]
  congr 1
  apply List.map_congr_left
  intro p _
  exact hk p.1 p.2

/-- C103, consequence: two data sets with the same covariates get the same effects. -/
theorem C103_same_covariates {f : Fitted K} (hx : 0 < f.xd) (hf : Affine f.yModel) {m : Nat}
    (hm : ∀ r : List K, r.length = f.xd → (f.bx.rows r).length = m) (hcat : f.cats = none)
    {t c : List K} (ht : t.length = f.xd) (hc : c.length = f.xd) {d d' : List (Obs K)}
    (hd : d.map (fun r => r.v) = d'.map (fun r => r.v)) :
    estimate f (some d) (some t) (some c) .none = estimate f (some d') (some t) (some c) .none := by
  obtain ⟨g, hg⟩ := C103_adjustment_cancels hx hf hm hcat ht hc
  rw [hg, hg]
  congr 1
  have : ∀ l : List (Obs K), (checkData f (some l)).map (fun p => g p.1) =
      (l.map (fun r => r.v)).map (fun v => g (if f.hasV then some (f.bv.rows v) else none)) := by
    intro l
    simp only [checkData, List.map_map]
    rfl
  rw [this, this, hd]

/-- the hypotheses of the C103 theorems: an affine second stage with an identity treatment basis; the effect of raising the
treatment from 0 to 1 is `2 + 3 v` and the adjustment 7 or 9 plays no role -/
example : ∃ f : Fitted Rat, f.xd = 1 ∧ Affine f.yModel ∧ Askable f [1] ∧ Askable f [0] ∧ f.cats = none ∧
    (∀ r : List Rat, r.length = f.xd → (f.bx.rows r).length = 1) ∧
    estimate f (some [⟨[0], [0], [7], [4], 0⟩, ⟨[1], [0], [9], [5], 0⟩]) (some [1]) (some [0]) .none = .ok [8, 10] :=
  ⟨⟨none, ⟨fun r => r, false⟩, ⟨fun r => r, false⟩, 1, true, true, fun r => 1 + DML.dot [2, 3] r, []⟩, rfl, ⟨1, [2, 3], fun _ => rfl⟩,
    ⟨rfl, _, rfl⟩, ⟨rfl, _, rfl⟩, rfl, fun _ h => h, by decide +kernel⟩

/-! ### C103: the arms -/

/-- The position of a value among the categories of its column. -/
def IsCode (cat : List K) (v c : K) : Prop := ∃ i : Nat, cat[i]? = some v ∧ (∀ j < i, cat[j]? ≠ some v) ∧ c = (i : K)

/-- C103, labels of discrete treatments: a row is accepted exactly if it has one known value per treatment, and then each
value is replaced by its position among the categories; otherwise `ValueError`. -/
theorem C103_labels (cats : List (List K)) (t : List K) :
    (∀ t', encodeX (some cats) t = .ok t' ↔
      t.length = cats.length ∧ List.Forall₂ (fun (p : List K × K) c => IsCode p.1 p.2 c) (cats.zip t) t') ∧
    (encodeX (some cats) t = .error .value ↔ t.length ≠ cats.length ∨ ∃ p ∈ cats.zip t, p.2 ∉ p.1) := by
  have hone : ∀ (p : List K × K), p.2 ∈ p.1 → IsCode p.1 p.2 ((p.1.findIdx (fun c => c = p.2) : Nat) : K) := by
    intro p hp
    have hlt : p.1.findIdx (fun c => c = p.2) < p.1.length := List.findIdx_lt_length_of_exists ⟨p.2, hp, by simp⟩
    refine ⟨_, ?_, ?_, rfl⟩
    · rw [List.getElem?_eq_getElem hlt]
      have := List.findIdx_getElem (w := hlt)
      simpa using this
    · intro j hj hc
      have hjl : j < p.1.length := by omega
      rw [List.getElem?_eq_getElem hjl] at hc
      have := List.not_of_lt_findIdx hj
      simp at this hc
      exact this hc
  have huniq : ∀ (p : List K × K) (c : K), IsCode p.1 p.2 c → p.2 ∈ p.1 ∧ c = ((p.1.findIdx (fun c => c = p.2) : Nat) : K) := by
    rintro p c ⟨i, h1, h2, rfl⟩
    have hm : p.2 ∈ p.1 := List.mem_of_getElem? h1
    obtain ⟨i', g1, g2, g3⟩ := hone p hm
    refine ⟨hm, ?_⟩
    rw [g3]
    congr 1
    rcases lt_trichotomy i i' with hlt | heq | hgt
    · exact absurd h1 (g2 i hlt)
    · exact heq
    · exact absurd g1 (h2 i' hgt)
  have hf : ∀ (p : List K × K) (c : K), (if p.2 ∈ p.1 then (.ok ((p.1.findIdx (fun c => c = p.2) : Nat) : K) : Except Err K)
      else .error .value) = .ok c ↔ IsCode p.1 p.2 c := by
    intro p c
    by_cases hp : p.2 ∈ p.1
    · rw [if_pos hp]
      constructor
      · intro h
        injection h with h
        rw [← h]; exact hone p hp
      · intro h
        rw [(huniq p c h).2]
    · rw [if_neg hp]
      constructor
      · intro h; cases h
      · intro h; exact absurd (huniq p c h).1 hp
  constructor
  · intro t'
    show ordinal cats t = .ok t' ↔ _
    unfold ordinal
    by_cases hl : t.length = cats.length
    · rw [if_neg (not_not.2 hl), mapE_ok]
      simp only [hf, hl, true_and]
    · rw [if_pos hl]
      constructor
      · intro h; cases h
      · intro h; exact absurd h.1 hl
  · show ordinal cats t = .error .value ↔ _
    unfold ordinal
    by_cases hl : t.length = cats.length
    · rw [if_neg (not_not.2 hl)]
      simp only [hl, ne_eq, not_true, false_or]
      generalize cats.zip t = l
      induction l with
      | nil => simp [Meta.mapE]
      | cons p l ih =>
        simp only [Meta.mapE, List.mem_cons, exists_eq_or_imp]
        by_cases hp : p.2 ∈ p.1
        · simp only [if_pos hp, hp, not_true, false_or]
          rw [← ih]
          cases Meta.mapE _ l with
          | ok a => simp
          | error e => simp
        · simp [if_neg hp, hp]
    · rw [if_pos hl]
      simp [hl]

/-- C103, default arms: `treat=None` means 1 and `control=None` means 0 in every treatment column. -/
theorem C103_defaults (f : Fitted K) (hx : 0 < f.xd) (data : Option (List (Obs K))) (treat control : Option (List K)) (q : Quantity) :
    estimate f data none control q = estimate f data (some (List.replicate f.xd 1)) control q ∧
    estimate f data treat none q = estimate f data treat (some (List.replicate f.xd 0)) q := by
  have h : ∀ (n : Nat) (d e : K), arms f n d none = arms f n e (some (List.replicate f.xd d)) := by
    intro n d e
    unfold arms
    rw [armRows_one hx (by simp)]
    rfl
  have h1 : prepare f data none control = prepare f data (some (List.replicate f.xd 1)) control := by
    unfold prepare; rw [h _ 1 1]
  have h2 : prepare f data treat none = prepare f data treat (some (List.replicate f.xd 0)) := by
    unfold prepare; rw [h _ 0 0]
  constructor
  · unfold estimate; rw [h1]
  · unfold estimate; rw [h2]

theorem reshape_flatten {xd : Nat} (hx : 0 < xd) (ts : List (List K)) (h : ∀ t ∈ ts, t.length = xd) :
    reshape xd ts.flatten = .ok ts := by
  have hlen : ts.flatten.length = ts.length * xd := by
    rw [List.length_flatten]
    rw [List.map_congr_left (g := fun _ => xd) (fun t ht => h t ht)]
    simp
  unfold reshape
  rw [hlen, if_pos (Nat.mul_mod_left _ _), Nat.mul_div_cancel _ hx]
  congr 1
  apply List.ext_getElem (by simp)
  intro i h1 h2
  simp only [List.getElem_map, List.getElem_range]
  clear h1 hlen
  induction ts generalizing i with
  | nil => simp at h2
  | cons t ts ih =>
    have ht := h t (by simp)
    cases i with
    | zero => simp [ht]
    | succ i =>
      rw [List.flatten_cons, show (i + 1) * xd = t.length + i * xd by rw [ht]; ring, List.drop_append]
      simp only [Nat.add_sub_cancel_left]
      rw [List.drop_eq_nil_of_le (by omega), List.nil_append]
      simpa using ih (fun t ht => h t (by simp [ht])) i (by simpa using h2)

/-- C103, one arm per sample: an array with one row per sample asks about row `i` of the array in sample `i`; any other number of
rows (but one) is refused with `AssertionError`. -/
theorem C103_arms_per_row (f : Fitted K) (hx : 0 < f.xd) (n : Nat) (dflt : K) (ts : List (List K))
    (h : ∀ t ∈ ts, t.length = f.xd) (h1 : ts.length ≠ 1) :
    arms f n dflt (some ts.flatten) = if ts.length = n then Meta.mapE (encodeX f.cats) ts else .error .assertion := by
  unfold arms armRows
  simp only [reshape_flatten hx ts h]
  match ts, h1 with
  | [], _ => by_cases hn : 0 = n <;> simp [hn]
  | [_], h1 => simp at h1
  | a :: b :: l, _ => by_cases hn : (a :: b :: l).length = n <;> simp only [hn, if_true, if_false]

example : arms (⟨some [[5, 6], [2, 3, 4]], ⟨id, true⟩, ⟨id, true⟩, 2, false, false, fun _ => 0, []⟩ : Fitted Rat) 2 0
    (some [5, 4, 6, 2]) = .ok [[0, 2], [1, 0]] := by decide +kernel

/-! ### C102: exactness -/

/-- two affine functions that agree on the second stage's regressors agree on the contrast asked for -/
def Identifies {ι : Type} (l : List ι) (F : ι → List K) (p q : List K) : Prop :=
  ∀ (b b' : K) (c c' : List K), (∀ i ∈ l, b + DML.dot c (F i) = b' + DML.dot c' (F i)) →
    DML.dot c p - DML.dot c q = DML.dot c' p - DML.dot c' q

/-- the regressors of the first stage for one row -/
def stage1 (bz bv : Basis K) (hasW : Bool) (r : Obs K) : List K := design (bz.rows r.z) (some (bv.rows r.v)) (adj hasW r.w)

/-- the structural outcome: an affine function of treatment basis times covariate basis, and of the adjustments -/
def structural (bx bv : Basis K) (hasW : Bool) (b : K) (θ : List K) (x v w : List K) : K :=
  b + DML.dot θ (design (bx.rows x) (some (bv.rows v)) (adj hasW w))

/-- the regressors of the second stage: the treatment basis replaced by its prediction -/
def stage2 (bz bv : Basis K) (hasW : Bool) (xh : List K → List K) (r : Obs K) : List K :=
  design (xh (stage1 bz bv hasW r)) (some (bv.rows r.v)) (adj hasW r.w)

/-- C102, the regressors spelled out: products of the instrument (or treatment) basis with the covariate basis, then the
adjustments if there are any, then the constant. -/
theorem C102_regressors (bx bz bv : Basis K) (xh : List K → List K) (b : K) (θ : List K) (r : Obs K) :
    (stage1 bz bv true r = DML.kron (bz.rows r.z) (bv.rows r.v) ++ r.w ++ [1] ∧
      stage1 bz bv false r = DML.kron (bz.rows r.z) (bv.rows r.v) ++ [1]) ∧
    (stage2 bz bv true xh r = DML.kron (xh (stage1 bz bv true r)) (bv.rows r.v) ++ r.w ++ [1] ∧
      stage2 bz bv false xh r = DML.kron (xh (stage1 bz bv false r)) (bv.rows r.v) ++ [1]) ∧
    (structural bx bv true b θ r.x r.v r.w = b + DML.dot θ (DML.kron (bx.rows r.x) (bv.rows r.v) ++ r.w ++ [1]) ∧
      structural bx bv false b θ r.x r.v r.w = b + DML.dot θ (DML.kron (bx.rows r.x) (bv.rows r.v) ++ [1])) := by
  refine ⟨⟨rfl, ?_⟩, ⟨rfl, ?_⟩, rfl, ?_⟩ <;> simp [stage1, stage2, structural, design, adj]

/-- continuous treatments with covariates: what `fit` computes -/
theorem fit_eq {poly : Nat → List K → List K} {fitX : List (List K × List K) → List K → List K}
    {fitY : List (List K × K) → List K → K} {a : FitArgs K} {bx bz bv : Basis K} {xd : Nat} {rows : List (Obs K)}
    (hx : basisOf poly a.treatmentBasis = .ok (some bx)) (hz : basisOf poly a.instrumentBasis = .ok (some bz))
    (hv : covarBasisOf poly a.covarBasis = .ok (some bv)) (hcov : a.hasCovariate = true) :
    fit poly fitX fitY a none xd rows =
      let xh := fitX (rows.map (fun r => (stage1 bz bv a.hasAdjustment r, bx.rows r.x)))
      .ok ⟨none, bx, bv, xd, a.hasAdjustment, true,
        fitY (rows.map (fun r => (stage2 bz bv a.hasAdjustment xh r, r.y))),
        rows.map (fun r => (some (bv.rows r.v), adj a.hasAdjustment r.w))⟩ := by
  have hne : (a.treatmentBasis.isAbsent && a.instrumentBasis.isAbsent && a.covarBasis.isAbsent) = false := by
    cases ht : a.treatmentBasis with
    | absent => rw [ht] at hx; simp [basisOf] at hx
    | tuple => rfl
    | list => rfl
    | object => rfl
  have hp : prepared bx bz bv a none rows =
      .ok (rows.map (fun r => (bx.rows r.x, bz.rows r.z, some (bv.rows r.v), adj a.hasAdjustment r.w, r.y))) := by
    unfold prepared
    induction rows with
    | nil => rfl
    | cons r rows ih =>
      simp only [Meta.mapE, ih, List.map_cons]
      simp only [encodeX, covarOf, hcov, if_true]
  unfold fit
  rw [hne, hx, hz, hv]
  simp only [Bool.false_eq_true, if_false, hp, List.map_map, hcov]
  rfl

section ordered
variable [LinearOrder K] [IsStrictOrderedRing K]

/-- C102, general form. The outcome is structural plus noise, the second stage is least squares, and noise plus first
stage error are orthogonal to the second stage's regressors: then the estimated effect is the structural effect, in every
row whose contrast the regressors identify. -/
theorem C102_clean_partial {poly : Nat → List K → List K} {fitX : List (List K × List K) → List K → List K}
    {fitY : List (List K × K) → List K → K} {a : FitArgs K} {bx bz bv : Basis K} {xd : Nat} {rows : List (Obs K)}
    (hx : basisOf poly a.treatmentBasis = .ok (some bx)) (hz : basisOf poly a.instrumentBasis = .ok (some bz))
    (hv : covarBasisOf poly a.covarBasis = .ok (some bv)) (hcov : a.hasCovariate = true) (hxd : 0 < xd)
    {xh : List K → List K} (hxh : xh = fitX (rows.map (fun r => (stage1 bz bv a.hasAdjustment r, bx.rows r.x))))
    (hY : IsOLS (rows.map (fun r => (stage2 bz bv a.hasAdjustment xh r, r.y)))
      (fitY (rows.map (fun r => (stage2 bz bv a.hasAdjustment xh r, r.y)))))
    (b : K) (θ : List K)
    (hclean : Orthogonal rows (stage2 bz bv a.hasAdjustment xh)
      (fun r => r.y - (b + DML.dot θ (stage2 bz bv a.hasAdjustment xh r))))
    {t c : List K} (ht : t.length = xd) (hc : c.length = xd) :
    ∃ f : Fitted K, fit poly fitX fitY a none xd rows = .ok f ∧
      ∀ d : List (Obs K), (∀ r ∈ d, Identifies rows (stage2 bz bv a.hasAdjustment xh)
          (design (bx.rows t) (some (bv.rows r.v)) (adj a.hasAdjustment r.w))
          (design (bx.rows c) (some (bv.rows r.v)) (adj a.hasAdjustment r.w))) →
        estimate f (some d) (some t) (some c) .none =
          .ok (d.map (fun r => structural bx bv a.hasAdjustment b θ t r.v r.w - structural bx bv a.hasAdjustment b θ c r.v r.w)) := by
  have hfit := fit_eq (fitX := fitX) (fitY := fitY) (xd := xd) (rows := rows) hx hz hv hcov
  simp only [← hxh] at hfit
  refine ⟨_, hfit, fun d hid => ?_⟩
  have hex := ols_exact rows (stage2 bz bv a.hasAdjustment xh) (fun r => r.y) _ hY b θ
    (fun r _ => by ring) hclean
  obtain ⟨b', c', hc'⟩ := hY.1
  rw [estimate_one (t' := t) (c' := c) hxd ht hc rfl rfl]
  simp only [checkData, List.map_map, if_true]
  congr 1
  apply List.map_congr_left
  intro r hr
  have := hid r hr b' b c' θ (fun i hi => by rw [← hex i hi, hc'])
  simp only [Function.comp_apply, hc', structural]
  linear_combination this

/-! #### the covariate basis is constant: `covar_basis=("Poly", 0)` -/

theorem kron_one (x : List K) : DML.kron x [1] = x := by
  induction x with
  | nil => rfl
  | cons a x ih =>
    rw [show DML.kron (a :: x) [1] = [1].map (fun vj => a * vj) ++ DML.kron x [1] from rfl, ih]
    simp

theorem orth_coord {ι : Type} {l : List ι} {Z : ι → List K} {e : ι → K} (h : Orthogonal l Z e) {g : List K → K}
    (hg : Affine g) : (l.map (fun i => g (Z i) * e i)).sum = 0 := by
  obtain ⟨b, c, hc⟩ := hg
  have := h b c
  rw [← this]
  congr 1
  apply List.map_congr_left
  intro i _
  rw [hc]

/-- orthogonality to the first stage's regressors gives orthogonality to the second stage's, if these are predictions of the
first stage followed by the same adjustments -/
theorem orth_stage2 {ι : Type} {l : List ι} {zs ws : ι → List K} {e : ι → K} {xh : List K → List K} {m p : Nat}
    (hz : ∀ i ∈ l, (zs i).length = p) (hm : ∀ r, (xh r).length = m) (ha : ∀ k < m, Affine (fun r => (xh r).getD k 0))
    (h : Orthogonal l (fun i => zs i ++ ws i) e) : Orthogonal l (fun i => xh (zs i ++ ws i) ++ ws i) e := by
  intro b c
  have hs : (l.map (fun i => (b + DML.dot c (xh (zs i ++ ws i) ++ ws i)) * e i)).sum =
      (l.map (fun i => (b + DML.dot (List.replicate p 0 ++ c.drop m) (zs i ++ ws i)) * e i +
        ((List.range m).map (fun k => c.getD k 0 * ((xh (zs i ++ ws i)).getD k 0 * e i))).sum)).sum := by
    congr 1
    apply List.map_congr_left
    intro i hi
    have h1 : DML.dot c (xh (zs i ++ ws i) ++ ws i) =
        DML.dot c (xh (zs i ++ ws i)) + DML.dot (c.drop m) (ws i) := by
      rw [dot_append_right, hm]
    have h2 : DML.dot (List.replicate p 0 ++ c.drop m) (zs i ++ ws i) = DML.dot (c.drop m) (ws i) := by
      rw [dot_append]
      have hz0 : ∀ (q : Nat) (u : List K), DML.dot (List.replicate q 0) u = 0 := by
        intro q
        induction q with
        | zero => intro u; simp [DML.dot]
        | succ q ih =>
          intro u
          cases u with
          | nil => simp [DML.dot]
          | cons x u =>
            have := ih u
            simp only [DML.dot] at this
            simp [DML.dot, List.replicate_succ, this]
      rw [hz0, zero_add, List.length_replicate]
      congr 1
      rw [← hz i hi]
      simp
    rw [h1, h2, dot_range, hm]
    have : ∀ S : K, (b + (S + DML.dot (c.drop m) (ws i))) * e i = (b + DML.dot (c.drop m) (ws i)) * e i + S * e i := by
      intro S; ring
    rw [this, sum_mul_const]
    congr 2
    apply List.map_congr_left
    intro k _
    ring
  rw [hs, List.sum_map_add, h, sum_range_comm, zero_add]
  apply sum_eq_zero_of
  intro k hk
  rw [sum_const_mul, orth_coord h (ha k (by simpa using hk)), mul_zero]

/-- C102. Valid instruments, no effect modification: the outcome is an affine function of the treatment basis and the
adjustments plus a disturbance; the disturbance is uncorrelated with instruments and adjustments (it may be correlated
with the treatment), both stages are least squares, and the contrast is identified. Then the estimate is the structural
effect in every row. -/
theorem C102_valid_instruments {poly : Nat → List K → List K} {fitX : List (List K × List K) → List K → List K}
    {fitY : List (List K × K) → List K → K} {a : FitArgs K} {bx bz bv : Basis K} {xd : Nat} {rows : List (Obs K)}
    (hx : basisOf poly a.treatmentBasis = .ok (some bx)) (hz : basisOf poly a.instrumentBasis = .ok (some bz))
    (hv : covarBasisOf poly a.covarBasis = .ok (some bv)) (hcov : a.hasCovariate = true) (hxd : 0 < xd)
    (hconst : ∀ v : List K, bv.rows v = [1])
    {m p : Nat} (hlx : ∀ r ∈ rows, (bx.rows r.x).length = m) (hlz : ∀ r ∈ rows, (bz.rows r.z).length = p)
    {xh : List K → List K} (hxh : xh = fitX (rows.map (fun r => (stage1 bz bv a.hasAdjustment r, bx.rows r.x))))
    (hX : IsOLSVec m (rows.map (fun r => (stage1 bz bv a.hasAdjustment r, bx.rows r.x))) xh)
    (hY : IsOLS (rows.map (fun r => (stage2 bz bv a.hasAdjustment xh r, r.y)))
      (fitY (rows.map (fun r => (stage2 bz bv a.hasAdjustment xh r, r.y)))))
    (b : K) (θ : List K) (e : Obs K → K)
    (hstruct : ∀ r ∈ rows, r.y = structural bx bv a.hasAdjustment b θ r.x r.v r.w + e r)
    (hvalid : Orthogonal rows (stage1 bz bv a.hasAdjustment) e)
    {t c : List K} (ht : t.length = xd) (hc : c.length = xd) :
    ∃ f : Fitted K, fit poly fitX fitY a none xd rows = .ok f ∧
      ∀ d : List (Obs K), (∀ r ∈ d, Identifies rows (stage2 bz bv a.hasAdjustment xh)
          (design (bx.rows t) (some (bv.rows r.v)) (adj a.hasAdjustment r.w))
          (design (bx.rows c) (some (bv.rows r.v)) (adj a.hasAdjustment r.w))) →
        estimate f (some d) (some t) (some c) .none =
          .ok (d.map (fun r => structural bx bv a.hasAdjustment b θ t r.v r.w - structural bx bv a.hasAdjustment b θ c r.v r.w)) := by
  refine C102_clean_partial hx hz hv hcov hxd hxh hY b θ ?_ ht hc
  have hdes : ∀ (u v w : List K), design u (some (bv.rows v)) (adj a.hasAdjustment w) =
      u ++ ((adj a.hasAdjustment w).getD [] ++ [1]) := by
    intro u v w
    unfold design
    simp only [hconst, kron_one, List.append_assoc]
  have hs1 : stage1 bz bv a.hasAdjustment = fun r => bz.rows r.z ++ ((adj a.hasAdjustment r.w).getD [] ++ [1]) := by
    funext r; exact hdes _ _ _
  have hs2 : stage2 bz bv a.hasAdjustment xh = fun r => xh (bz.rows r.z ++ ((adj a.hasAdjustment r.w).getD [] ++ [1])) ++
      ((adj a.hasAdjustment r.w).getD [] ++ [1]) := by
    funext r
    rw [show stage2 bz bv a.hasAdjustment xh r = design (xh (stage1 bz bv a.hasAdjustment r)) (some (bv.rows r.v))
      (adj a.hasAdjustment r.w) from rfl, hdes, hs1]
  have hlift : ∀ g : Obs K → K, Orthogonal rows (stage1 bz bv a.hasAdjustment) g →
      Orthogonal rows (stage2 bz bv a.hasAdjustment xh) g := by
    intro g hg
    rw [hs2]
    rw [hs1] at hg
    exact orth_stage2 (zs := fun r : Obs K => bz.rows r.z) (ws := fun r : Obs K => (adj a.hasAdjustment r.w).getD [] ++ [1])
      (fun r hr => hlz r hr) hX.1 (fun k hk => (hX.2 k hk).1) hg
  have herr : ∀ k < m, Orthogonal rows (stage2 bz bv a.hasAdjustment xh)
      (fun r => (bx.rows r.x).getD k 0 - (xh (stage1 bz bv a.hasAdjustment r)).getD k 0) := by
    intro k hk
    apply hlift
    intro b' c'
    have := (hX.2 k hk).2 b' c'
    simp only [List.map_map] at this
    exact this
  intro b' c'
  have he := hlift e hvalid b' c'
  have hs : (rows.map (fun r => (b' + DML.dot c' (stage2 bz bv a.hasAdjustment xh r)) *
        (r.y - (b + DML.dot θ (stage2 bz bv a.hasAdjustment xh r))))).sum =
      (rows.map (fun r => (b' + DML.dot c' (stage2 bz bv a.hasAdjustment xh r)) * e r +
        ((List.range m).map (fun k => θ.getD k 0 * ((b' + DML.dot c' (stage2 bz bv a.hasAdjustment xh r)) *
          ((bx.rows r.x).getD k 0 - (xh (stage1 bz bv a.hasAdjustment r)).getD k 0)))).sum)).sum := by
    congr 1
    apply List.map_congr_left
    intro r hr
    have h1 : ∀ u : List K, u.length = m → DML.dot θ (u ++ ((adj a.hasAdjustment r.w).getD [] ++ [1])) =
        ((List.range m).map (fun k => θ.getD k 0 * u.getD k 0)).sum +
          DML.dot (θ.drop m) ((adj a.hasAdjustment r.w).getD [] ++ [1]) := by
      intro u hu
      rw [dot_append_right, hu, dot_range, hu]
    have h2 : r.y - (b + DML.dot θ (stage2 bz bv a.hasAdjustment xh r)) = e r +
        ((List.range m).map (fun k => θ.getD k 0 * ((bx.rows r.x).getD k 0 -
          (xh (stage1 bz bv a.hasAdjustment r)).getD k 0))).sum := by
      rw [hstruct r hr]
      unfold structural
      rw [hdes, h1 _ (hlx r hr), hs2]
      rw [h1 _ (hX.1 _), hs1]
      have : ∀ f g : Nat → K, ((List.range m).map (fun k => θ.getD k 0 * (f k - g k))).sum =
          ((List.range m).map (fun k => θ.getD k 0 * f k)).sum - ((List.range m).map (fun k => θ.getD k 0 * g k)).sum := by
        intro f g
        rw [← sum_range_sub]
        congr 1
        apply List.map_congr_left
        intro k _
        ring
      rw [this]
      ring
    rw [h2, mul_add, ← sum_const_mul]
    congr 2
    apply List.map_congr_left
    intro k _
    ring
  rw [hs, List.sum_map_add, he, sum_range_comm, zero_add]
  apply sum_eq_zero_of
  intro k hk
  rw [sum_const_mul, herr k (by simpa using hk), mul_zero]

end ordered

/-! #### a concrete case: endogenous treatment, binary instrument -/

/-- `PolynomialFeatures` of degree 0 and 1 -/
def ivPoly (n : Nat) (x : List Rat) : List Rat := if n = 0 then [1] else 1 :: x

/-- four rows; the outcome is `2 x + e` with `e = 1, -1, 1, -1` -/
def ivRows : List (Obs Rat) :=
  [⟨[0], [0], [], [7], 1⟩, ⟨[1], [0], [], [8], 1⟩, ⟨[2], [1], [], [7], 5⟩, ⟨[3], [1], [], [9], 5⟩]

/-- the disturbance -/
def ivE (r : Obs Rat) : Rat := r.y - 2 * r.x.getD 0 0

/-- the arguments of `fit`: no effect modification -/
def ivArgs : FitArgs Rat := ⟨.tuple "Poly" 1, .list "Poly" 1, .tuple "Poly" 0, false, true⟩

/-- least squares of the first stage -/
def ivX (_ : List (List Rat × List Rat)) (r : List Rat) : List Rat := [1, 1 / 2 + 2 * r.getD 1 0]

/-- least squares of the second stage -/
def ivY (_ : List (List Rat × Rat)) (r : List Rat) : Rat := 2 * r.getD 1 0

theorem affine_getD (b k : Rat) (j : Nat) : Affine (fun r : List Rat => b + k * r.getD j 0) := by
  refine ⟨b, List.replicate j 0 ++ [k], fun r => ?_⟩
  congr 1
  induction j generalizing r with
  | zero => cases r <;> simp [DML.dot]
  | succ j ih =>
    cases r with
    | nil => simp [DML.dot]
    | cons x r =>
      have := ih r
      simp only [DML.dot, add_right_inj] at this
      simp only [DML.dot, List.replicate_succ, List.cons_append, List.zipWith_cons_cons, List.sum_cons, zero_mul, zero_add,
        ← this, List.getD_cons_succ]

theorem ivX_ols : IsOLSVec 2 (ivRows.map (fun r => (stage1 ⟨ivPoly 1, false⟩ ⟨ivPoly 0, false⟩ false r, ivPoly 1 r.x))) (ivX []) := by
  refine ⟨fun r => rfl, fun k hk => ?_⟩
  apply isOLS_of_columns 3
  · have h : k = 0 ∨ k = 1 := by omega
    rcases h with rfl | rfl
    · exact ⟨1, [], fun r => by simp [ivX, DML.dot]⟩
    · exact affine_getD (1 / 2) 2 1
  · revert k; decide
  · revert k; decide +kernel
  · revert k; decide +kernel

theorem ivY_ols : IsOLS (ivRows.map (fun r => (stage2 ⟨ivPoly 1, false⟩ ⟨ivPoly 0, false⟩ false (ivX []) r, r.y))) (ivY []) := by
  apply isOLS_of_columns 3
  · obtain ⟨b, c, h⟩ := affine_getD 0 2 1
    exact ⟨b, c, fun r => by rw [← h]; simp [ivY]⟩
  · decide
  · decide +kernel
  · decide +kernel

example : ∃ f, fit ivPoly ivX ivY ivArgs none 1 ivRows = .ok f ∧
    estimate f (some ivRows) (some [1]) (some [0]) .none = .ok [2, 2, 2, 2] := by
  obtain ⟨f, hf, h⟩ := C102_valid_instruments (poly := ivPoly) (fitX := ivX) (fitY := ivY) (a := ivArgs) (xd := 1)
    (rows := ivRows) (bx := ⟨ivPoly 1, false⟩) (bz := ⟨ivPoly 1, false⟩) (bv := ⟨ivPoly 0, false⟩) rfl rfl rfl rfl
    (by decide) (fun _ => rfl) (m := 2) (p := 2) (by decide) (by decide) rfl ivX_ols ivY_ols 0 [0, 2, 0] ivE
    (by decide +kernel)
    (by
      have := isOLS_of_columns (data := ivRows.map (fun r => (stage1 ⟨ivPoly 1, false⟩ ⟨ivPoly 0, false⟩ false r, ivE r)))
        (f := fun _ => 0) 3 ⟨0, [], fun r => by simp [DML.dot]⟩ (by decide) (by decide +kernel) (by decide +kernel)
      intro b c
      have h := this.2 b c
      simp only [List.map_map, sub_zero] at h
      exact h)
    (t := [1]) (c := [0]) rfl rfl
  refine ⟨f, hf, (h ivRows ?_).trans (by decide +kernel)⟩
  intro r hr b b' c c' hag
  have h1 := hag ⟨[0], [0], [], [7], 1⟩ (by simp [ivRows])
  have h2 := hag ⟨[2], [1], [], [7], 5⟩ (by simp [ivRows])
  simp only [dot_range] at h1 h2 ⊢
  simp [stage2, stage1, design, ivPoly, ivX, adj, DML.kron, List.range_succ, ivArgs] at h1 h2 ⊢
  linarith

/-- the endogeneity matters: ordinary least squares of the outcome on the treatment finds a slope other than 2 -/
example : ¬ IsOLS (ivRows.map (fun r => (r.x, r.y))) (fun r => 2 * r.getD 0 0) := by
  intro h
  have := h.2 0 [1]
  exact absurd this (by decide +kernel)

/-! #### effect modification: the default bases -/

/-- six rows: instrument 0 or 1, covariate -1, 0 or 1, the outcome is the treatment -/
def forbiddenRows : List (Obs Rat) :=
  [⟨[0], [0], [], [-1], 0⟩, ⟨[2], [0], [], [0], 2⟩, ⟨[1], [0], [], [1], 1⟩,
   ⟨[2], [1], [], [-1], 2⟩, ⟨[0], [1], [], [0], 0⟩, ⟨[1], [1], [], [1], 1⟩]

/-- least squares of the first stage -/
def forbiddenX (_ : List (List Rat × List Rat)) (r : List Rat) : List Rat :=
  [1, 1 + 1 / 2 * r.getD 1 0 - r.getD 3 0]

/-- least squares of the second stage -/
def forbiddenY (_ : List (List Rat × Rat)) (r : List Rat) : Rat := r.getD 1 0 + r.getD 2 0 - r.getD 3 0

/-- interactions of treatment and instrument with the covariate -/
def forbiddenArgs : FitArgs Rat := ⟨.tuple "Poly" 1, .tuple "Poly" 1, .tuple "Poly" 1, false, true⟩

theorem affine_four (a b c d e : Rat) :
    Affine (fun r : List Rat => a + (b * r.getD 0 0 + c * r.getD 1 0 + d * r.getD 2 0 + e * r.getD 3 0)) := by
  refine ⟨a, [b, c, d, e], fun r => ?_⟩
  rcases r with _ | ⟨x, _ | ⟨y, _ | ⟨z, _ | ⟨w, r⟩⟩⟩⟩ <;> simp [DML.dot] <;> ring

theorem forbiddenX_ols : IsOLSVec 2 (forbiddenRows.map (fun r =>
    (stage1 ⟨ivPoly 1, false⟩ ⟨ivPoly 1, false⟩ false r, ivPoly 1 r.x))) (forbiddenX []) := by
  refine ⟨fun r => rfl, fun k hk => ?_⟩
  apply isOLS_of_columns 5
  · have h : k = 0 ∨ k = 1 := by omega
    rcases h with rfl | rfl
    · exact ⟨1, [], fun r => by simp [forbiddenX, DML.dot]⟩
    · obtain ⟨b, c, h⟩ := affine_four 1 0 (1 / 2) 0 (-1)
      refine ⟨b, c, fun r => ?_⟩
      rw [← h]
      show 1 + 1 / 2 * r.getD 1 0 - r.getD 3 0 = _
      ring
  · revert k; decide
  · revert k; decide +kernel
  · revert k; decide +kernel

theorem forbiddenY_ols : IsOLS (forbiddenRows.map (fun r =>
    (stage2 ⟨ivPoly 1, false⟩ ⟨ivPoly 1, false⟩ false (forbiddenX []) r, r.y))) (forbiddenY []) := by
  apply isOLS_of_columns 5
  · obtain ⟨b, c, h⟩ := affine_four 0 0 1 1 (-1)
    refine ⟨b, c, fun r => ?_⟩
    rw [← h]
    show r.getD 1 0 + r.getD 2 0 - r.getD 3 0 = _
    ring
  · decide
  · decide +kernel
  · decide +kernel

/-- C102 fails as soon as the covariate basis is not constant (the default): there is data whose outcome *is* the
treatment, without any disturbance, both stages are least squares, the contrast is identified, and the estimated effect
of raising the treatment from 0 to 1 is 2 instead of 1. The reason: the first stage's error times a covariate is not
orthogonal to the second stage's regressors. -/
theorem C102_covariates_refuted : ∃ f,
    (∀ r ∈ forbiddenRows, r.x = [r.y]) ∧
    IsOLSVec 2 (forbiddenRows.map (fun r => (stage1 ⟨ivPoly 1, false⟩ ⟨ivPoly 1, false⟩ false r, ivPoly 1 r.x))) (forbiddenX []) ∧
    IsOLS (forbiddenRows.map (fun r => (stage2 ⟨ivPoly 1, false⟩ ⟨ivPoly 1, false⟩ false (forbiddenX []) r, r.y))) (forbiddenY []) ∧
    Identifies forbiddenRows (stage2 ⟨ivPoly 1, false⟩ ⟨ivPoly 1, false⟩ false (forbiddenX []))
      (design (ivPoly 1 [1]) (some (ivPoly 1 [-1])) none) (design (ivPoly 1 [0]) (some (ivPoly 1 [-1])) none) ∧
    fit ivPoly forbiddenX forbiddenY forbiddenArgs none 1 forbiddenRows = .ok f ∧
    estimate f (some [⟨[0], [0], [], [-1], 0⟩]) (some [1]) (some [0]) .none = .ok [2] := by
  have hfit := fit_eq (poly := ivPoly) (fitX := forbiddenX) (fitY := forbiddenY) (a := forbiddenArgs) (xd := 1)
    (rows := forbiddenRows) (bx := ⟨ivPoly 1, false⟩) (bz := ⟨ivPoly 1, false⟩) (bv := ⟨ivPoly 1, false⟩) rfl rfl rfl rfl
  refine ⟨_, by decide, forbiddenX_ols, forbiddenY_ols, ?_, hfit, by decide +kernel⟩
  intro b b' c c' hag
  have h1 := hag ⟨[0], [0], [], [-1], 0⟩ (by simp [forbiddenRows])
  have h2 := hag ⟨[2], [1], [], [-1], 2⟩ (by simp [forbiddenRows])
  simp only [dot_range] at h1 h2 ⊢
  simp [stage2, stage1, design, ivPoly, forbiddenX, adj, DML.kron, List.range_succ] at h1 h2 ⊢
  linarith

/-! ### C104: which calls answer -/

/-- C104. Without covariates `fit` fails, whatever the built-in basis (the default included). -/
theorem C104_needs_covariates (poly : Nat → List K → List K) (fitX : List (List K × List K) → List K → List K)
    (fitY : List (List K × K) → List K → K) (a : FitArgs K) (cats : Option (List (List K))) (xd : Nat) (rows : List (Obs K))
    (hne : rows ≠ []) (hcov : a.hasCovariate = false) (hb : ∀ b : Basis K, a.covarBasis = .object b → b.acceptsNone = false) :
    ∃ e, fit poly fitX fitY a cats xd rows = .error e := by
  unfold fit
  split
  · exact ⟨_, rfl⟩
  · cases hx : basisOf poly a.treatmentBasis with
    | error e => exact ⟨e, rfl⟩
    | ok bx =>
      cases hz : basisOf poly a.instrumentBasis with
      | error e => exact ⟨e, rfl⟩
      | ok bz =>
        cases hv : covarBasisOf poly a.covarBasis with
        | error e => exact ⟨e, rfl⟩
        | ok bv =>
          rcases bx with _ | bx
          · cases bz <;> cases bv <;> exact ⟨_, rfl⟩
          · rcases bz with _ | bz
            · cases bv <;> exact ⟨_, rfl⟩
            · rcases bv with _ | bv
              · exact ⟨_, rfl⟩
              · have hnone : bv.acceptsNone = false := by
                  cases hcb : a.covarBasis with
                  | absent => rw [hcb] at hv; simp [covarBasisOf] at hv
                  | list m d => rw [hcb] at hv; simp [covarBasisOf] at hv
                  | object b =>
                    rw [hcb] at hv
                    simp only [covarBasisOf, Except.ok.injEq, Option.some.injEq] at hv
                    rw [← hv]
                    exact hb b hcb
                  | tuple m d =>
                    rw [hcb] at hv
                    simp only [covarBasisOf] at hv
                    have hg : getBasis poly m d = .ok bv := by
                      cases hg : getBasis poly m d with
                      | error e => rw [hg] at hv; cases hv
                      | ok b => rw [hg] at hv; cases hv; rfl
                    unfold getBasis at hg
                    split at hg
                    · cases hg; rfl
                    · split at hg <;> cases hg
                obtain ⟨r, rs, rfl⟩ := List.exists_cons_of_ne_nil hne
                have hp : ∃ e, prepared bx bz bv a cats (r :: rs) = .error e := by
                  unfold prepared
                  simp only [Meta.mapE]
                  cases hen : encodeX cats r.x with
                  | error e => exact ⟨e, rfl⟩
                  | ok x =>
                    have : covarOf bv a.hasCovariate r.v = .error .value := by
                      unfold covarOf
                      rw [hcov, hnone]
                      rfl
                    simp only [this]
                    exact ⟨_, rfl⟩
                obtain ⟨e, he⟩ := hp
                simp only [he]
                exact ⟨e, rfl⟩

/-- C104. Every basis has to be given, the one for the covariates not as a list. -/
theorem C104_needs_bases (poly : Nat → List K → List K) (fitX : List (List K × List K) → List K → List K)
    (fitY : List (List K × K) → List K → K) (a : FitArgs K) (cats : Option (List (List K))) (xd : Nat) (rows : List (Obs K))
    (h : a.treatmentBasis = .absent ∨ a.instrumentBasis = .absent ∨ a.covarBasis = .absent ∨
      ∃ m d, a.covarBasis = .list m d) :
    ∃ e, fit poly fitX fitY a cats xd rows = .error e := by
  unfold fit
  split
  · exact ⟨_, rfl⟩
  · cases hx : basisOf poly a.treatmentBasis with
    | error e => exact ⟨e, rfl⟩
    | ok bx =>
      cases hz : basisOf poly a.instrumentBasis with
      | error e => exact ⟨e, rfl⟩
      | ok bz =>
        cases hv : covarBasisOf poly a.covarBasis with
        | error e => exact ⟨e, rfl⟩
        | ok bv =>
          rcases h with h | h | h | ⟨m, d, h⟩
          · rw [h] at hx; simp only [basisOf, Except.ok.injEq] at hx; subst hx
            cases bz <;> cases bv <;> exact ⟨_, rfl⟩
          · rw [h] at hz; simp only [basisOf, Except.ok.injEq] at hz; subst hz
            cases bx <;> cases bv <;> exact ⟨_, rfl⟩
          · rw [h] at hv; simp only [covarBasisOf, Except.ok.injEq] at hv; subst hv
            cases bx <;> cases bz <;> exact ⟨_, rfl⟩
          · rw [h] at hv; simp only [covarBasisOf, Except.ok.injEq] at hv; subst hv
            cases bx <;> cases bz <;> exact ⟨_, rfl⟩

/-- C104. With all bases, covariates and a continuous treatment `fit` succeeds. -/
theorem C104_fit_succeeds {poly : Nat → List K → List K} {fitX : List (List K × List K) → List K → List K}
    {fitY : List (List K × K) → List K → K} {a : FitArgs K} {bx bz bv : Basis K} {xd : Nat} {rows : List (Obs K)}
    (hx : basisOf poly a.treatmentBasis = .ok (some bx)) (hz : basisOf poly a.instrumentBasis = .ok (some bz))
    (hv : covarBasisOf poly a.covarBasis = .ok (some bv)) (hcov : a.hasCovariate = true) :
    ∃ f, fit poly fitX fitY a none xd rows = .ok f ∧ f.train.length = rows.length :=
  ⟨_, fit_eq hx hz hv hcov, by simp⟩

/-- C104, finding: the documented averages are never returned. -/
theorem C104_averages_refuted (f : Fitted K) (data : Option (List (Obs K))) (treat control : Option (List K)) (r : List K) :
    estimate f data treat control .ate ≠ .ok r ∧ estimate f data treat control .cate ≠ .ok r := by
  unfold estimate
  cases hp : prepare f data treat control with
  | error e => exact ⟨(fun h => by cases h), (fun h => by cases h)⟩
  | ok p =>
    refine ⟨fun h => (by cases h), fun h => ?_⟩
    dsimp only at h
    split at h <;> cases h

/-- C104. Counterfactuals: the prediction of every row of the data at its own treatment (continuous treatment). -/
theorem C104_counterfactual (f : Fitted K) (hcat : f.cats = none) (d : List (Obs K)) (hd : ∀ r ∈ d, r.x.length = f.xd)
    (hx : 0 < f.xd) (treat control : Option (List K)) :
    ∃ cf, estimate f (some d) treat control .cf = .ok cf ∧ cf.length = d.length ∧
      ∀ (i : Nat) (h : i < d.length), ∃ y0 e : K, estimate f (some [d[i]]) (some (d[i].x)) (some (List.replicate f.xd 0)) .none = .ok [e] ∧
        estimate f (some [{ d[i] with x := List.replicate f.xd 0 }]) none none .cf = .ok [y0] ∧ cf[i]? = some (y0 + e) := by
  refine ⟨_, rfl, ?_, ?_⟩
  · simp [predictAt, checkData]
  · intro i h
    have hen : ∀ r : List K, encodeX f.cats r = .ok r := fun r => by rw [hcat]; rfl
    have he := estimate_one (f := f) (t := d[i].x) (c := List.replicate f.xd 0) hx (hd _ (List.getElem_mem h)) (by simp)
      (hen _) (hen _) (some [d[i]])
    simp only [checkData, List.map_cons, List.map_nil] at he
    refine ⟨_, _, he, rfl, ?_⟩
    simp [predictAt, checkData, h]

/-- C104, finding: without data there is no counterfactual. -/
theorem C104_counterfactual_needs_data (f : Fitted K) (treat control : Option (List K)) :
    estimate f none treat control .cf = .error .value := rfl

/-- C104, finding: for a discrete treatment counterfactuals are predicted at the raw label instead of its code. Here the
labels are 5 and 6 and the second stage predicts the code: the counterfactual of label 6 is 6, although the effect
of label 6 against label 5 is 1 and the prediction at label 5 is 0. -/
theorem C104_labels_refuted : ∃ f : Fitted Rat, f.cats = some [[5, 6]] ∧
    estimate f (some [⟨[6], [0], [], [0], 0⟩]) none none .cf = .ok [6] ∧
    estimate f (some [⟨[6], [0], [], [0], 0⟩]) (some [6]) (some [5]) .none = .ok [1] ∧
    f.yModel (design (f.bx.rows [0]) none none) = 0 :=
  ⟨⟨some [[5, 6]], ⟨fun r => r, false⟩, ⟨fun _ => [1], false⟩, 1, false, true, fun r => r.getD 0 0, []⟩,
    rfl, by decide +kernel, by decide +kernel, rfl⟩

/-- C104, finding: `effect_nji` always fails for continuous treatments and for one discrete treatment. -/
theorem C104_nji_refuted (f : Fitted K) (h : f.cats = none ∨ f.xd = 1) (data : Option (List (Obs K))) :
    effectNji f data = .error .type := by
  unfold effectNji
  cases hc : f.cats with
  | none => rfl
  | some c =>
    rcases h with h | h
    · rw [h] at hc; cases hc
    · simp only [h, if_true]

/-- C104. `effect_nji` for several discrete treatments: one row per sample; the entry of a combination of values is the
estimated effect of these values against the first combination. -/
theorem C104_nji (f : Fitted K) {cats : List (List K)} (hcat : f.cats = some cats) (hx : 1 < f.xd) (data : Option (List (Obs K))) :
    ∃ M : List (List K), effectNji f data = .ok M ∧ M.length = (checkData f data).length ∧
      ∀ (k : Nat) (t c t' c' : List K), t.length = f.xd → c.length = f.xd →
        encodeX f.cats t = .ok t' → encodeX f.cats c = .ok c' →
        ((Meta.cartesian (cats.map (fun c => List.range c.length))).map (fun c => c.map (fun n : Nat => (n : K))))[k]? = some t' →
        ((Meta.cartesian (cats.map (fun c => List.range c.length))).map (fun c => c.map (fun n : Nat => (n : K))))[0]? = some c' →
        estimate f data (some t) (some c) .none = .ok (M.map (fun r => r.getD k 0)) := by
  have hne : f.xd ≠ 1 := by omega
  refine ⟨_, by unfold effectNji; rw [hcat]; exact if_neg hne, by simp, ?_⟩
  intro k t c t' c' ht hc het hec hk h0
  rw [estimate_one (by omega) ht hc het hec]
  congr 1
  rw [List.map_map]
  apply List.map_congr_left
  intro p _
  simp only [Function.comp_apply]
  rw [List.getD_eq_getElem?_getD, List.getElem?_map, hk]
  simp only [Option.map_some, Option.getD_some]
  rw [List.headD_eq_head?_getD, List.head?_eq_getElem?, h0]
  rfl

example : ∃ M, effectNji (K := Rat) ⟨some [[5, 6], [1, 2, 4]], ⟨fun r => r, false⟩, ⟨fun _ => [1], false⟩, 2, false, true,
    fun r => r.getD 0 0 + 10 * r.getD 1 0, [(some [1], none)]⟩ none = .ok M ∧ M = [[0, 10, 20, 1, 11, 21]] :=
  ⟨_, rfl, by decide +kernel⟩

end YL.Props
