import Verif.Model.SkEx
import Mathlib.Algebra.Order.Floor.Ring
import Mathlib.Tactic.Linarith
import Mathlib.Data.List.Range

/-!
# C50, C52: encoders and feature selection
-/

set_option linter.unusedSectionVars false

namespace YL.Props

open YL SkEx

section
variable {V : Type} [DecidableEq V]

theorem dictGet_none {x : V} {i : Nat} {cs : List V} : dictGet x i cs = none ↔ x ∉ cs := by
  induction cs generalizing i with
  | nil => simp [dictGet]
  | cons c cs ih =>
    unfold dictGet
    cases h : dictGet x (i + 1) cs with
    | some j =>
      have : ¬ dictGet x (i + 1) cs = none := by simp [h]
      rw [ih] at this
      simp only [reduceCtorEq, List.mem_cons, not_or, false_iff, not_and]
      exact fun _ => this
    | none =>
      have := ih.1 h
      by_cases hx : x = c
      · simp [hx]
      · simp [hx, this]

theorem dictGet_some {x : V} {i j : Nat} {cs : List V} (h : dictGet x i cs = some j) : i ≤ j ∧ cs[j - i]? = some x := by
  induction cs generalizing i with
  | nil => simp [dictGet] at h
  | cons c cs ih =>
    unfold dictGet at h
    split at h
    · rename_i k hk
      cases h
      obtain ⟨h1, h2⟩ := ih hk
      refine ⟨by omega, ?_⟩
      rw [show j - i = (j - (i + 1)) + 1 by omega, List.getElem?_cons_succ]
      exact h2
    · split at h
      · rename_i hx
        cases h
        simp [hx]
      · cases h

/-- **C50**: a known value gets a code below the number of categories, from which it can be read off. -/
theorem C50_known {cs : List V} {x : V} (h : x ∈ cs) : encode cs x < cs.length ∧ cs[encode cs x]? = some x := by
  unfold encode
  cases hd : dictGet x 0 cs with
  | none => exact absurd h (dictGet_none.1 hd)
  | some j =>
    obtain ⟨-, h2⟩ := dictGet_some hd
    simp only [Nat.sub_zero] at h2
    exact ⟨(List.getElem?_eq_some_iff.1 h2).1, h2⟩

/-- **C50**: all unknown values get one code, the number of categories, which no known value has; it decodes to the default value
of the column. -/
theorem C50_unseen {cs : List V} {x : V} (h : x ∉ cs) (t : CodeType) (default : V) :
    encode cs x = cs.length ∧ (∀ y ∈ cs, encode cs y ≠ encode cs x) ∧ decode t default cs (encode cs x : Nat) = .ok default := by
  have h1 : encode cs x = cs.length := by
    unfold encode
    rw [dictGet_none.2 h]
    rfl
  refine ⟨h1, fun y hy => ?_, ?_⟩
  · have := (C50_known hy).1
    omega
  · unfold decode
    rw [if_neg (by rw [h1]; omega)]

/-- **C50**: with an integer code type a known value comes back. -/
theorem C50_roundtrip_int {cs : List V} {x : V} (h : x ∈ cs) (default : V) : decode .int default cs (encode cs x : Nat) = .ok x := by
  obtain ⟨h1, h2⟩ := C50_known h
  unfold decode
  rw [if_pos ⟨by exact_mod_cast h1, by omega⟩]
  simp [h2]

/-- **C50, refuted for the default code type**: `SafeOrdinalEncoder()` produces float codes, and decoding a known value's code
then raises `IndexError`; only unknown values can be decoded. -/
theorem C50_roundtrip_float_refuted {cs : List V} {x : V} (h : x ∈ cs) (default : V) : decode .float default cs (encode cs x : Nat) = .error .index := by
  obtain ⟨h1, -⟩ := C50_known h
  unfold decode
  rw [if_pos ⟨by exact_mod_cast h1, by omega⟩]

/-- **C50**, whole rows: `transform` never fails on rows with at most as many columns as were fitted, it keeps the number of
columns, and rows of known values come back with integer codes. -/
theorem C50_rows (cols : List (List V × V)) (xs : List V) :
    (xs.length ≤ cols.length → ∃ r, transformRow (cols.map (·.1)) xs = .ok r ∧ r.length = xs.length ∧
      ((∀ (i : Nat) (x : V) (c : List V × V), xs[i]? = some x → cols[i]? = some c → x ∈ c.1) → inverseRow .int cols (r.map (fun n : Nat => (n : Int))) = .ok xs)) ∧
    (cols.length < xs.length → transformRow (cols.map (·.1)) xs = .error .index) := by
  induction cols generalizing xs with
  | nil =>
    cases xs with
    | nil => exact ⟨fun _ => ⟨[], rfl, rfl, fun _ => rfl⟩, fun h => by simp at h⟩
    | cons x xs => exact ⟨fun h => by simp at h, fun _ => rfl⟩
  | cons c cols ih =>
    cases xs with
    | nil => exact ⟨fun _ => ⟨[], rfl, rfl, fun _ => rfl⟩, fun h => by simp at h⟩
    | cons x xs =>
      constructor
      · intro h
        obtain ⟨r, h1, h2, h3⟩ := (ih xs).1 (by simpa using h)
        refine ⟨encode c.1 x :: r, ?_, by simp [h2], fun hk => ?_⟩
        · simp only [List.map_cons, transformRow, h1]
        · have hx := hk 0 x c rfl rfl
          simp only [List.map_cons, inverseRow, C50_roundtrip_int hx, h3 (fun i x' c' a b => hk (i + 1) x' c' a b)]
      · intro h
        have := (ih xs).2 (by simpa using h)
        simp only [List.map_cons, transformRow, this]

example : transformRow [[3, 5], [1]] [5, 7] = .ok [1, 1] ∧ inverseRow .int [([3, 5], 0), ([1], 0)] [1, 1] = .ok [5, 0] ∧
    inverseRow .float [([3, 5], 0), ([1], 0)] [1, 1] = .error .index := by decide

end

/-! ### C52: feature selection -/

/-- what `np.argsort` guarantees: a permutation of the positions along which the values do not decrease (the order of equal
values is unspecified) -/
def IsArgsort {K : Type} [LE K] (l : List K) (a : List Nat) : Prop :=
  a.Perm (List.range l.length) ∧ ∀ (i j x y : Nat), i < j → a[i]? = some x → a[j]? = some y → ∀ u v, l[x]? = some u → l[y]? = some v → u ≤ v

theorem argsort_inverse {a r : List Nat} (ha : a.Perm (List.range a.length)) (hr : IsArgsort a r) {i : Nat} (hi : i < a.length) :
    ∃ p, r[i]? = some p ∧ a[p]? = some i := by
  obtain ⟨hp, hs⟩ := hr
  have hlen : r.length = a.length := by simpa using hp.length_eq
  -- the values of `a` along `r`
  let b := r.map (fun p => (a[p]?).getD 0)
  have hb : b.Perm a := by
    have h1 : b.Perm ((List.range a.length).map (fun p => (a[p]?).getD 0)) := hp.map _
    have h2 : (List.range a.length).map (fun p => (a[p]?).getD 0) = a := by
      apply List.ext_getElem (by simp)
      intro k h1 h2
      simp [h2]
    rwa [h2] at h1
  have hsb : b.Pairwise (· ≤ ·) := by
    rw [List.pairwise_iff_getElem]
    intro x y hx hy hxy
    have hx' : x < r.length := by simpa [b] using hx
    have hy' : y < r.length := by simpa [b] using hy
    have e1 : r[x] < a.length := by
      have : r[x] ∈ List.range a.length := hp.mem_iff.1 (List.getElem_mem hx')
      simpa using this
    have e2 : r[y] < a.length := by
      have : r[y] ∈ List.range a.length := hp.mem_iff.1 (List.getElem_mem hy')
      simpa using this
    simp only [b, List.getElem_map, List.getElem?_eq_getElem e1, List.getElem?_eq_getElem e2, Option.getD_some]
    exact hs x y _ _ hxy (List.getElem?_eq_getElem hx') (List.getElem?_eq_getElem hy') _ _ (List.getElem?_eq_getElem e1) (List.getElem?_eq_getElem e2)
  have hbr : b = List.range a.length :=
    (hb.trans ha).eq_of_pairwise (fun x y _ _ h1 h2 => Nat.le_antisymm h1 h2) hsb List.pairwise_le_range
  have hi' : i < r.length := by omega
  refine ⟨r[i], List.getElem?_eq_getElem hi', ?_⟩
  have e1 : r[i] < a.length := by
    have : r[i] ∈ List.range a.length := hp.mem_iff.1 (List.getElem_mem hi')
    simpa using this
  have := congrArg (fun l => l[i]?) hbr
  simp only [b, List.getElem?_map, List.getElem?_eq_getElem hi', Option.map_some, List.getElem?_eq_getElem e1, Option.getD_some,
    List.getElem?_range hi, Option.some.injEq] at this
  rw [List.getElem?_eq_getElem e1, this]

/-- the number of features a `number` argument asks for -/
def wanted (n : Nat) : Num → Int
  | .count k => k
  | .frac q => ⌈(n : Rat) * q⌉

/-- **C52**: the strategy `number` selects exactly as many features as asked for (all if there are not enough, none for negative
numbers), in the order of the columns, and no dropped feature is more important than a selected one. -/
theorem C52_number {argsort : List Rat → List Nat} {argsortN : List Nat → List Nat} (imp : List Rat) (h1 : IsArgsort imp (argsort imp))
    (h2 : IsArgsort (argsort imp) (argsortN (argsort imp))) (number : Num) :
    let sel := byNumber argsort argsortN imp number
    sel.Sublist (List.range imp.length) ∧ sel.length = min (wanted imp.length number).toNat imp.length ∧
      ∀ i ∈ sel, ∀ j < imp.length, j ∉ sel → ∀ u v, imp[i]? = some u → imp[j]? = some v → v ≤ u := by
  intro sel
  set a := argsort imp with hadef
  set r := argsortN a with hrdef
  have hal : a.length = imp.length := by simpa using h1.1.length_eq
  have hrl : r.length = imp.length := by rw [← hal]; simpa using h2.1.length_eq
  have ha : a.Perm (List.range a.length) := by rw [hal]; exact h1.1
  set k := wanted imp.length number with hk
  have hsel : sel = (List.range imp.length).filter (fun i : Nat => match r[i]? with
      | some q => decide ((imp.length : Int) - k ≤ (q : Int))
      | none => false) := by
    show byNumber argsort argsortN imp number = _
    unfold byNumber
    cases number <;> rfl
  have hmem : ∀ i, i ∈ sel ↔ i < imp.length ∧ ∃ q : Nat, r[i]? = some q ∧ (imp.length : Int) - k ≤ (q : Int) := by
    intro i
    rw [hsel, List.mem_filter, List.mem_range]
    constructor
    · rintro ⟨hi, hq⟩
      refine ⟨hi, ?_⟩
      rw [List.getElem?_eq_getElem (by omega : i < r.length)] at hq ⊢
      exact ⟨_, rfl, by simpa using hq⟩
    · rintro ⟨hi, q, hq, hle⟩
      exact ⟨hi, by rw [hq]; simpa using hle⟩
  refine ⟨by rw [hsel]; exact List.filter_sublist, ?_, ?_⟩
  · have e1 : sel.length = (r.filter (fun q : Nat => decide ((imp.length : Int) - k ≤ (q : Int)))).length := by
      rw [hsel]
      have : (List.range imp.length).map (fun i => (r[i]?).getD 0) = r := by
        apply List.ext_getElem (by simp [hrl])
        intro i h1 h2
        simp [h2]
      conv_rhs => rw [← this]
      rw [List.filter_map, List.length_map]
      congr 1
      apply List.filter_congr
      intro i hi
      have hi' : i < r.length := by rw [hrl]; simpa using hi
      simp [List.getElem?_eq_getElem hi']
    have hrp : r.Perm (List.range imp.length) := by rw [← hal]; exact h2.1
    rw [e1, (hrp.filter _).length_eq]
    have cnt : ∀ (n : Nat) (m : Int), ((List.range n).filter (fun q : Nat => decide (m ≤ (q : Int)))).length = n - m.toNat := by
      intro n m
      induction n with
      | zero => simp
      | succ n ih =>
        rw [List.range_succ, List.filter_append, List.length_append, ih]
        by_cases h : m ≤ (n : Int)
        · simp [h]; omega
        · simp [h]; omega
    rw [cnt]
    omega
  · intro i hi j hj hjs u v hu hv
    obtain ⟨hil, q, hq, hle⟩ := (hmem i).1 hi
    obtain ⟨p, hp, hap⟩ := argsort_inverse ha h2 (by omega : j < a.length)
    obtain ⟨p', hp', hap'⟩ := argsort_inverse ha h2 (by omega : i < a.length)
    have hpp : p' = q := by
      have e : some p' = some q := by rw [← hp', ← hq]
      simpa using e
    subst hpp
    have hlt : p < p' := by
      by_contra hc
      apply hjs
      exact (hmem j).2 ⟨hj, p, hp, by omega⟩
    exact h1.2 p p' j i hlt hap hap' v u hv hu

/-- **C52**: a fraction strictly between 0 and 1 selects at least one feature and at most all. -/
theorem C52_fraction {n : Nat} (hn : 0 < n) {q : Rat} (h0 : 0 < q) (h1 : q < 1) :
    1 ≤ wanted n (.frac q) ∧ wanted n (.frac q) ≤ n := by
  have hn' : (0 : Rat) < n := by exact_mod_cast hn
  constructor
  · show (1 : Int) ≤ ⌈(n : Rat) * q⌉
    have := Int.ceil_pos.2 (mul_pos hn' h0)
    omega
  · show ⌈(n : Rat) * q⌉ ≤ (n : Int)
    rw [Int.ceil_le]
    push_cast
    nlinarith

/-- **C52**: the strategies `threshold` and `quantile` select exactly the features whose importance reaches the bound. -/
theorem C52_threshold (imp : List Rat) (t : Rat) (i : Nat) : i ∈ atLeast imp t ↔ ∃ u, imp[i]? = some u ∧ t ≤ u := by
  unfold atLeast
  rw [List.mem_filter, List.mem_range]
  constructor
  · rintro ⟨hi, h⟩
    rw [List.getElem?_eq_getElem hi] at h ⊢
    exact ⟨_, rfl, by simpa using h⟩
  · rintro ⟨u, hu, ht⟩
    exact ⟨(List.getElem?_eq_some_iff.1 hu).1, by rw [hu]; simpa using ht⟩

theorem atLeast_length (imp : List Rat) (t : Rat) : (atLeast imp t).length = (imp.filter (fun u => decide (t ≤ u))).length := by
  unfold atLeast
  have : (List.range imp.length).map (fun i => (imp[i]?).getD 0) = imp := by
    apply List.ext_getElem (by simp)
    intro i h1 h2
    simp [h2]
  conv_rhs => rw [← this]
  rw [List.filter_map, List.length_map]
  congr 1
  apply List.filter_congr
  intro i hi
  have hi' : i < imp.length := by simpa using hi
  simp [List.getElem?_eq_getElem hi']

theorem quantile_bound {l : List Rat} {q : Rat} (h0 : 0 < q) (h1 : q < 1) (hl : l ≠ []) :
    ∃ m b, m ≤ ⌈q * ((l.length : Rat) - 1)⌉₊ ∧ (l.insertionSort (· ≤ ·))[m]? = some b ∧ npQuantile l q ≤ b := by
  have hlen : 0 < l.length := List.length_pos_iff.2 hl
  have hn : (1 : Rat) ≤ l.length := by exact_mod_cast hlen
  set s := l.insertionSort (· ≤ ·) with hs
  have hsl : s.length = l.length := by simp [hs]
  have hss : s.Pairwise (· ≤ ·) := List.pairwise_insertionSort _ _
  set h := q * ((l.length : Rat) - 1) with hh
  have hh0 : 0 ≤ h := mul_nonneg h0.le (by linarith)
  set lo := ⌊h⌋₊ with hlo
  have hlo1 : (lo : Rat) ≤ h := Nat.floor_le hh0
  have hlo2 : h < lo + 1 := Nat.lt_floor_add_one h
  have hltn : lo < l.length := by
    have : (lo : Rat) < l.length := by nlinarith
    exact_mod_cast this
  have ea : s[lo]? = some s[lo] := List.getElem?_eq_getElem (by omega)
  by_cases hfrac : h = lo
  · refine ⟨lo, s[lo]'(by omega), ?_, ea, ?_⟩
    · rw [hfrac, Nat.ceil_natCast]
    · show (s[lo]?.getD 0) + (h - lo) * _ ≤ _
      rw [hfrac, sub_self, zero_mul, add_zero, ea]
      simp
  · have hceil : ⌈h⌉₊ = lo + 1 := by
      rw [Nat.ceil_eq_iff (by omega)]
      constructor
      · have : (lo : Rat) < h := lt_of_le_of_ne hlo1 (fun e => hfrac e.symm)
        simpa using this
      · push_cast; linarith
    have hlt1 : lo + 1 < l.length := by
      have h2 : (lo : Rat) < h := lt_of_le_of_ne hlo1 (fun e => hfrac e.symm)
      have h3 : h ≤ (l.length : Rat) - 1 := by nlinarith
      have h4 : (lo : Rat) + 1 < l.length := by linarith
      exact_mod_cast h4
    have eb : s[lo + 1]? = some s[lo + 1] := List.getElem?_eq_getElem (by omega)
    refine ⟨lo + 1, s[lo + 1]'(by omega), by omega, eb, ?_⟩
    show (s[lo]?.getD 0) + (h - lo) * ((s[lo + 1]?.getD (s[lo]?.getD 0)) - (s[lo]?.getD 0)) ≤ _
    rw [ea, eb]
    simp only [Option.getD_some]
    have hle : s[lo]'(by omega) ≤ s[lo + 1]'(by omega) := List.pairwise_iff_getElem.1 hss lo (lo + 1) (by omega) (by omega) (by omega)
    nlinarith

/-- **C52**: the strategy `quantile` always selects a feature, and drops at most the fraction asked for (rounded up) of the
other features. -/
theorem C52_quantile {imp : List Rat} (hne : imp ≠ []) {q : Rat} (h0 : 0 < q) (h1 : q < 1) :
    atLeast imp (npQuantile imp q) ≠ [] ∧
      imp.length ≤ (atLeast imp (npQuantile imp q)).length + ⌈q * ((imp.length : Rat) - 1)⌉₊ := by
  obtain ⟨m, b, hm, hb, hle⟩ := quantile_bound h0 h1 hne
  set s := imp.insertionSort (· ≤ ·) with hs
  have hsl : s.length = imp.length := by simp [hs]
  have hss : s.Pairwise (· ≤ ·) := List.pairwise_insertionSort _ _
  have hperm : s.Perm imp := List.perm_insertionSort _ _
  have hml : m < s.length := (List.getElem?_eq_some_iff.1 hb).1
  have hbm : s[m] = b := (List.getElem?_eq_some_iff.1 hb).2
  -- count the selected ones through the sorted list
  have hcount : (atLeast imp (npQuantile imp q)).length = (s.filter (fun u => decide (npQuantile imp q ≤ u))).length := by
    rw [(hperm.filter _).length_eq, atLeast_length]
  have hdrop : (s.drop m).filter (fun u => decide (npQuantile imp q ≤ u)) = s.drop m := by
    rw [List.filter_eq_self]
    intro u hu
    obtain ⟨i, hi, rfl⟩ := List.mem_iff_getElem.1 hu
    rw [List.getElem_drop]
    rw [List.length_drop] at hi
    have : s[m] ≤ s[m + i]'(by omega) := by
      by_cases h : i = 0
      · subst h; simp
      · exact List.pairwise_iff_getElem.1 hss m (m + i) hml (by omega) (by omega)
    simp only [decide_eq_true_eq]
    rw [hbm] at this
    linarith
  have hge : s.length - m ≤ (atLeast imp (npQuantile imp q)).length := by
    rw [hcount]
    calc s.length - m = ((s.drop m).filter (fun u => decide (npQuantile imp q ≤ u))).length := by rw [hdrop, List.length_drop]
      _ ≤ (s.filter (fun u => decide (npQuantile imp q ≤ u))).length := ((List.drop_sublist m s).filter _).length_le
  constructor
  · intro h
    rw [h] at hge
    simp at hge
    omega
  · omega

/-- **C52**: which strategy is used and which defaults apply, for all combinations of arguments without an explicit strategy. -/
theorem C52_strategy (argsort : List Rat → List Nat) (argsortN : List Nat → List Nat) {imp : List Rat} (hne : imp ≠ []) :
    (∀ t q k, select argsort argsortN imp none (some t) q k = .ok (atLeast imp t)) ∧
    (∀ q k, select argsort argsortN imp none none q (some k) = .ok (byNumber argsort argsortN imp k)) ∧
    (∀ q, 0 < q → q < 1 → select argsort argsortN imp none none (some q) none = .ok (atLeast imp (npQuantile imp q))) ∧
    (∀ q, ¬ (0 < q ∧ q < 1) → select argsort argsortN imp none none (some q) none = .error .assertion) ∧
    select argsort argsortN imp none none none none = .ok (atLeast imp (1 / 10)) := by
  refine ⟨?_, ?_, ?_, ?_, ?_⟩
  · intro t q k; simp [select, detect, hne]
  · intro q k; simp [select, detect, hne]
  · intro q h0 h1; simp [select, detect, hne, h0, h1]
  · intro q h; simp only [select, detect, hne]; simp [h]
  · simp [select, detect, hne]

/-- **C52 (limit)**: the default threshold 1/10 can drop everything: with eleven equally important features none is selected. -/
theorem C52_default_may_drop_all (argsort : List Rat → List Nat) (argsortN : List Nat → List Nat) :
    select argsort argsortN (List.replicate 11 (1 / 11)) none none none none = .ok [] := by
  rw [(C52_strategy argsort argsortN (by decide)).2.2.2.2]
  decide +kernel

example : IsArgsort ([3, 1, 2] : List Rat) [1, 2, 0] ∧ IsArgsort [1, 2, 0] [2, 0, 1] := by
  refine ⟨⟨by decide, ?_⟩, ⟨by decide, ?_⟩⟩
  · intro i j x y hij hx hy u v hu hv
    rcases i with _ | _ | _ | i <;> rcases j with _ | _ | _ | j <;> simp at hij hx hy <;> subst hx hy <;> simp at hu hv <;> subst hu hv <;> norm_num
  · intro i j x y hij hx hy u v hu hv
    rcases i with _ | _ | _ | i <;> rcases j with _ | _ | _ | j <;> simp at hij hx hy <;> subst hx hy <;> simp at hu hv <;> subst hu hv <;> norm_num

example : byNumber (fun _ => [1, 2, 0]) (fun _ => [2, 0, 1]) [3, 1, 2] (.count 2) = [0, 2] := by decide +kernel

end YL.Props
