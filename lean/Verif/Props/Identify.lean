import Verif.Model.Why
import Verif.Props.Discovery
import Verif.Props.SkEx
import Mathlib.Data.Fin.VecNotation

/-!
# C46, C59, C60, C61: the roles that `Why` finds
-/

set_option linter.unusedSectionVars false

namespace YL.Props

open YL Why Spec

section
variable {C : Type} [DecidableEq C]

/-! ### C46 -/

theorem safeRemove_sublist (l vs : List C) : (safeRemove l vs).Sublist l := by
  unfold safeRemove
  induction vs generalizing l with
  | nil => simp
  | cons v vs ih => exact (ih (l.erase v)).trans List.erase_sublist

theorem safeRemove_mem {l : List C} (hl : l.Nodup) (vs : List C) (c : C) : c ∈ safeRemove l vs ↔ c ∈ l ∧ c ∉ vs := by
  induction vs generalizing l with
  | nil => simp [safeRemove]
  | cons v vs ih =>
    have : safeRemove l (v :: vs) = safeRemove (l.erase v) vs := rfl
    rw [this, ih (hl.erase v), hl.mem_erase_iff]
    simp only [List.mem_cons, not_or]
    tauto

/-- **C46**: without given roles the default identifier takes as covariates exactly the other columns, in their order and each
once. -/
theorem C46_default {columns : List C} (hc : columns.Nodup) (outcome : C) (treatment : List C) :
    (defaultCovariates columns outcome treatment).Sublist columns ∧ (defaultCovariates columns outcome treatment).Nodup ∧
      ∀ c, c ∈ defaultCovariates columns outcome treatment ↔ c ∈ columns ∧ c ≠ outcome ∧ c ∉ treatment := by
  unfold defaultCovariates
  exact ⟨List.filter_sublist, hc.filter _, fun c => by simp⟩

/-- the names in a role argument -/
def roleItems : Role C → List C
  | .none => []
  | .list l => l
  | .tuple l => l

theorem removeRole_ok {r : Role C} {t : List C} {o : Option (List C)} (h : removeRole r t = .ok o) :
    o.getD [] = safeRemove (roleItems r) t ∧ (o = none ↔ r = .none) := by
  cases r with
  | none => simp only [removeRole, Except.ok.injEq] at h; subst h
            refine ⟨?_, by simp⟩
            simp only [roleItems, Option.getD_none]
            unfold safeRemove
            induction t with
            | nil => rfl
            | cons v t ih => simpa using ih
  | list l => simp only [removeRole, Except.ok.injEq] at h; subst h; simp [roleItems]
  | tuple l => simp [removeRole] at h

/-- **C46**, roles given by the user as lists without repetitions: the treatments are the given ones, every role keeps exactly
its names that are not treatments, in the given order. -/
theorem C46_given {disc : C → Except Err Bool} {autoT : Except Err (List C)}
    {aci : List C → Except Err (Option (List C) × Option (List C) × Option (List C))} {t₀ : List C} (ht : t₀ ≠ []) {a c i : Role C}
    (ha : (roleItems a).Nodup) (hc : (roleItems c).Nodup) (hi : (roleItems i).Nodup)
    (hsome : ∃ x, (x ∈ roleItems a ∨ x ∈ roleItems c ∨ x ∈ roleItems i) ∧ x ∉ t₀)
    {t : List C} {a' c' i' : Option (List C)} (h : identify disc autoT aci (.list t₀) a c i = .ok (t, a', c', i')) :
    t = t₀ ∧ (∀ r r', (r = a ∧ r' = a') ∨ (r = c ∧ r' = c') ∨ (r = i ∧ r' = i') →
      (r'.getD []).Sublist (roleItems r) ∧ ∀ x, x ∈ r'.getD [] ↔ x ∈ roleItems r ∧ x ∉ t) := by
  unfold identify at h
  cases t₀ with
  | nil => exact absurd rfl ht
  | cons x₀ xs₀ =>
    simp only at h
    cases hm : Meta.mapE disc (x₀ :: xs₀) with
    | error e => rw [hm] at h; simp at h
    | ok d =>
      rw [hm] at h
      simp only at h
      cases h1 : removeRole a (x₀ :: xs₀) with
      | error e => rw [h1] at h; simp at h
      | ok a₁ => cases h2 : removeRole c (x₀ :: xs₀) with
        | error e => rw [h1, h2] at h; simp at h
        | ok c₁ => cases h3 : removeRole i (x₀ :: xs₀) with
          | error e => rw [h1, h2, h3] at h; simp at h
          | ok i₁ =>
            rw [h1, h2, h3] at h
            simp only at h
            have ea := removeRole_ok h1
            have ec := removeRole_ok h2
            have ei := removeRole_ok h3
            have hne : ¬ (isEmpty a₁ && isEmpty c₁ && isEmpty i₁) = true := by
              intro he
              simp only [Bool.and_eq_true] at he
              obtain ⟨⟨e1, e2⟩, e3⟩ := he
              have emp : ∀ o : Option (List C), isEmpty o = true → o.getD [] = [] := by
                intro o ho
                cases o with
                | none => rfl
                | some l => simpa [isEmpty] using ho
              obtain ⟨x, hx, hxt⟩ := hsome
              rcases hx with hx | hx | hx
              · have := (safeRemove_mem ha (x₀ :: xs₀) x).2 ⟨hx, hxt⟩
                rw [← ea.1, emp _ e1] at this
                simp at this
              · have := (safeRemove_mem hc (x₀ :: xs₀) x).2 ⟨hx, hxt⟩
                rw [← ec.1, emp _ e2] at this
                simp at this
              · have := (safeRemove_mem hi (x₀ :: xs₀) x).2 ⟨hx, hxt⟩
                rw [← ei.1, emp _ e3] at this
                simp at this
            rw [if_neg hne] at h
            cases h
            refine ⟨rfl, ?_⟩
            rintro r r' (⟨rfl, rfl⟩ | ⟨rfl, rfl⟩ | ⟨rfl, rfl⟩)
            · rw [ea.1]; exact ⟨safeRemove_sublist _ _, safeRemove_mem ha _⟩
            · rw [ec.1]; exact ⟨safeRemove_sublist _ _, safeRemove_mem hc _⟩
            · rw [ei.1]; exact ⟨safeRemove_sublist _ _, safeRemove_mem hi _⟩

/-- **C46, refuted for given roles**: a covariate list may keep a treatment (listed twice), the outcome (column 9) and columns that
are adjustments too; a tuple of names is refused with an `AssertionError`. -/
theorem C46_given_refuted :
    identify (C := Nat) (fun _ => .ok true) (.error .value) (fun _ => .error .value) (.list [1]) (.list [2]) (.list [1, 1, 9, 2]) .none =
      .ok ([1], some [2], some [1, 9, 2], none) ∧
    identify (C := Nat) (fun _ => .ok true) (.error .value) (fun _ => .error .value) (.list [1]) .none (.tuple [2]) .none = .error .assertion := by
  decide

/-! ### C59 -/

variable {K : Type} [AddCommGroup K] [LinearOrder K] {n : Nat}

/-- a positive entry of the matrix -/
def PosEdge (W : Mat n K) (i j : Fin n) : Prop := 0 < W i j

theorem matEdge_posEntries (W : Mat n K) : MatEdge (posEntries W) = PosEdge W := by
  funext i j
  unfold MatEdge posEntries PosEdge
  by_cases h : 0 < W i j <;> simp [h]

theorem indexOf_ok {names : Fin n → C} (hn : Function.Injective names) (i : Fin n) : indexOf names (names i) = .ok i := by
  unfold indexOf
  cases h : (List.finRange n).find? (fun j => decide (names j = names i)) with
  | none =>
    rw [List.find?_eq_none] at h
    have := h i (List.mem_finRange i)
    simp at this
  | some j =>
    have := List.find?_some h
    simp only [decide_eq_true_eq] at this
    rw [hn this]

theorem indicesOf_ok {names : Fin n → C} (hn : Function.Injective names) (l : List (Fin n)) : indicesOf names (l.map names) = .ok l := by
  induction l with
  | nil => rfl
  | cons i l ih => simp only [List.map_cons, indicesOf, indexOf_ok hn, ih]

/-- **C59**, method `dfs` (the default): the covariates are exactly the other variables that are causes, direct or indirect, of the
outcome; the instruments are exactly the other variables that are causes of a treatment but not of the outcome. A cause is a
directed path of positive entries. Both lists are in the order of the columns without repetitions. -/
theorem C59_dfs (W : Mat n K) {names : Fin n → C} (hn : Function.Injective names) (y : Fin n) (ts : List (Fin n)) :
    ∃ cov ins : List (Fin n), ciDfs W names (names y) (ts.map names) = .ok (cov.map names, ins.map names) ∧
      cov.Sublist (List.finRange n) ∧ ins.Sublist (List.finRange n) ∧
      (∀ i, i ∈ cov ↔ i ≠ y ∧ i ∉ ts ∧ Reach (PosEdge W) i y) ∧
      (∀ i, i ∈ ins ↔ i ≠ y ∧ i ∉ ts ∧ (∃ t ∈ ts, Reach (PosEdge W) i t) ∧ ¬ Reach (PosEdge W) i y) := by
  have htar : ∀ i, names i ∉ ts.map names ++ [names y] ↔ i ≠ y ∧ i ∉ ts := by
    intro i
    simp only [List.mem_append, List.mem_map, List.mem_singleton, not_or, not_exists, not_and]
    constructor
    · rintro ⟨h1, h2⟩
      exact ⟨fun h => h2 (by rw [h]), fun h => h1 i h rfl⟩
    · rintro ⟨h1, h2⟩
      exact ⟨fun j hj he => h2 (hn he ▸ hj), fun he => h1 (hn he)⟩
  have hmem : ∀ i j, i ∈ Discovery.dfsTargets (posEntries W) none j ↔ i ≠ j ∧ Reach (PosEdge W) i j := by
    intro i j
    rw [mem_dfsTargets, matEdge_posEntries]
  refine ⟨_, _, by simp only [ciDfs, indexOf_ok hn, indicesOf_ok hn]; rfl, List.filter_sublist, List.filter_sublist, fun i => ?_, fun i => ?_⟩
  · simp only [List.mem_filter, List.mem_finRange, true_and, Bool.and_eq_true, decide_eq_true_eq]
    rw [htar, hmem]
    tauto
  · simp only [List.mem_filter, List.mem_finRange, true_and, Bool.and_eq_true, decide_eq_true_eq, List.mem_flatMap]
    rw [htar]
    constructor
    · rintro ⟨⟨t, ht, h1, h2⟩, h3, h4⟩
      rw [hmem] at h1 h2
      exact ⟨h3, h4, ⟨t, ht, h1.2⟩, fun h => h2 ⟨h3, h⟩⟩
    · rintro ⟨h3, h4, ⟨t, ht, h1⟩, h2⟩
      refine ⟨⟨t, ht, ?_, ?_⟩, h3, h4⟩
      · rw [hmem]; exact ⟨fun h => h4 (h ▸ ht), h1⟩
      · rw [hmem]; exact fun h => h2 h.2

/-- The entries of the dictionary of the method `straight`: other variables with a directed path of non-zero entries, in the end
possibly the variable itself. -/
theorem expand_bounds (W : Mat n K) (f : Nat) (m : Fin n → List (Fin n))
    (h1 : ∀ k j, j ≠ k → Reach (MatEdge W) j k → j ∈ m k) (h2 : ∀ k j, j ∈ m k → Reach (MatEdge W) j k) :
    (∀ k j, j ≠ k → Reach (MatEdge W) j k → j ∈ expand (closure0 W) f m k) ∧
    (∀ k j, j ∈ expand (closure0 W) f m k → Reach (MatEdge W) j k) := by
  have hc : ∀ k ki, ki ∈ closure0 W k → Reach (MatEdge W) ki k := by
    intro k ki h
    unfold closure0 at h
    simp only [List.mem_filter, decide_eq_true_eq] at h
    exact (mem_dfsTargets.1 h.2).2
  -- one step
  have hone : ∀ (m : Fin n → List (Fin n)) (k ki : Fin n), Reach (MatEdge W) ki k →
      (∀ k j, j ≠ k → Reach (MatEdge W) j k → j ∈ m k) → (∀ k j, j ∈ m k → Reach (MatEdge W) j k) →
      (∀ k' j, j ≠ k' → Reach (MatEdge W) j k' → j ∈ expandOne m k ki k') ∧ (∀ k' j, j ∈ expandOne m k ki k' → Reach (MatEdge W) j k') := by
    intro m k ki hk a b
    constructor
    · intro k' j hne hr
      unfold expandOne
      split
      · rename_i he
        subst he
        exact List.mem_append_left _ (a _ j hne hr)
      · exact a k' j hne hr
    · intro k' j hj
      unfold expandOne at hj
      split at hj
      · rename_i he
        subst he
        rcases List.mem_append.1 hj with hj | hj
        · exact b _ j hj
        · exact (b ki j (List.mem_filter.1 hj).1).trans hk
      · exact b k' j hj
  have hkeys : ∀ (ds : List (Fin n)) (k : Fin n) (m : Fin n → List (Fin n)), (∀ ki ∈ ds, Reach (MatEdge W) ki k) →
      (∀ k j, j ≠ k → Reach (MatEdge W) j k → j ∈ m k) → (∀ k j, j ∈ m k → Reach (MatEdge W) j k) →
      (∀ k' j, j ≠ k' → Reach (MatEdge W) j k' → j ∈ (ds.foldl (fun m ki => expandOne m k ki) m) k') ∧
      (∀ k' j, j ∈ (ds.foldl (fun m ki => expandOne m k ki) m) k' → Reach (MatEdge W) j k') := by
    intro ds k
    induction ds with
    | nil => intro m _ a b; exact ⟨a, b⟩
    | cons d ds ih =>
      intro m hd a b
      obtain ⟨a', b'⟩ := hone m k d (hd d (by simp)) a b
      exact ih _ (fun ki hki => hd ki (by simp [hki])) a' b'
  have hpass : ∀ (ks : List (Fin n)) (m : Fin n → List (Fin n)),
      (∀ k j, j ≠ k → Reach (MatEdge W) j k → j ∈ m k) → (∀ k j, j ∈ m k → Reach (MatEdge W) j k) →
      (∀ k' j, j ≠ k' → Reach (MatEdge W) j k' → j ∈ (ks.foldl (fun m k => (closure0 W k).foldl (fun m ki => expandOne m k ki) m) m) k') ∧
      (∀ k' j, j ∈ (ks.foldl (fun m k => (closure0 W k).foldl (fun m ki => expandOne m k ki) m) m) k' → Reach (MatEdge W) j k') := by
    intro ks
    induction ks with
    | nil => intro m a b; exact ⟨a, b⟩
    | cons k ks ih =>
      intro m a b
      obtain ⟨a', b'⟩ := hkeys (closure0 W k) k m (hc k) a b
      exact ih _ a' b'
  induction f generalizing m with
  | zero => exact ⟨h1, h2⟩
  | succ f ih =>
    obtain ⟨a, b⟩ := hpass (List.finRange n) m h1 h2
    exact ih _ a b

/-- **C59, refuted for the method `straight`**: it takes the dictionary in the wrong direction. Its covariates are exactly the
*effects* of the outcome and its instruments exactly the effects of the treatments that are not effects of the outcome. -/
theorem C59_straight_takes_effects (W : Mat n K) {names : Fin n → C} (hn : Function.Injective names) (y : Fin n) (ts : List (Fin n)) (i : Fin n) :
    (names i ∈ (ciStraight W names (names y) (ts.map names)).1 ↔ i ≠ y ∧ i ∉ ts ∧ Reach (MatEdge W) y i) ∧
    (names i ∈ (ciStraight W names (names y) (ts.map names)).2 ↔
      i ≠ y ∧ i ∉ ts ∧ (∃ t ∈ ts, Reach (MatEdge W) t i) ∧ ¬ Reach (MatEdge W) y i) := by
  obtain ⟨b1, b2⟩ := expand_bounds W (n + 1) (closure0 W)
    (fun k j hne hr => by
      unfold closure0
      simp only [List.mem_filter, List.mem_finRange, true_and, decide_eq_true_eq]
      exact mem_dfsTargets.2 ⟨hne, hr⟩)
    (fun k j hj => by
      unfold closure0 at hj
      simp only [List.mem_filter, decide_eq_true_eq] at hj
      exact (mem_dfsTargets.1 hj.2).2)
  have htar : ∀ i, names i ∉ ts.map names ++ [names y] ↔ i ≠ y ∧ i ∉ ts := by
    intro i
    simp only [List.mem_append, List.mem_map, List.mem_singleton, not_or, not_exists, not_and]
    constructor
    · rintro ⟨h1, h2⟩
      exact ⟨fun h => h2 (by rw [h]), fun h => h1 i h rfl⟩
    · rintro ⟨h1, h2⟩
      exact ⟨fun j hj he => h2 (hn he ▸ hj), fun he => h1 (hn he)⟩
  have hin : ∀ j k, names j ∈ (expand (closure0 W) (n + 1) (closure0 W) k).map names ↔ j ∈ expand (closure0 W) (n + 1) (closure0 W) k := by
    intro j k
    simp only [List.mem_map]
    exact ⟨fun ⟨j', h, he⟩ => hn he ▸ h, fun h => ⟨j, h, rfl⟩⟩
  have hY : ∀ i, names i ∈ ((List.finRange n).filter (fun k => decide (names y ∈ (expand (closure0 W) (n + 1) (closure0 W) k).map names) &&
      decide (names k ∉ ts.map names ++ [names y]))).map names ↔ i ≠ y ∧ i ∉ ts ∧ Reach (MatEdge W) y i := by
    intro i
    simp only [List.mem_map (f := names), List.mem_filter, List.mem_finRange, true_and, Bool.and_eq_true, decide_eq_true_eq]
    constructor
    · rintro ⟨k, ⟨h1, h2⟩, he⟩
      cases hn he
      obtain ⟨j', hj', he'⟩ := h1
      cases hn he'
      have := (htar i).1 h2
      exact ⟨this.1, this.2, b2 _ _ hj'⟩
    · rintro ⟨h1, h2, h3⟩
      exact ⟨i, ⟨⟨y, b1 i y (Ne.symm h1) h3, rfl⟩, (htar i).2 ⟨h1, h2⟩⟩, rfl⟩
  have hX : ∀ i, names i ∈ ((List.finRange n).filter (fun k => (ts.map names).any (fun t => decide (t ∈ (expand (closure0 W) (n + 1) (closure0 W) k).map names) &&
      decide (names k ∉ ts.map names ++ [names y])))).map names ↔ i ≠ y ∧ i ∉ ts ∧ ∃ t ∈ ts, Reach (MatEdge W) t i := by
    intro i
    simp only [List.mem_map (f := names), List.mem_filter, List.mem_finRange, true_and, List.any_eq_true, Bool.and_eq_true, decide_eq_true_eq]
    constructor
    · rintro ⟨k, ⟨t, ⟨t', ht', rfl⟩, h1, h2⟩, he⟩
      cases hn he
      obtain ⟨j', hj', he'⟩ := h1
      cases hn he'
      have := (htar i).1 h2
      exact ⟨this.1, this.2, t', ht', b2 _ _ hj'⟩
    · rintro ⟨h1, h2, t, ht, h3⟩
      exact ⟨i, ⟨names t, ⟨t, ht, rfl⟩, ⟨t, b1 i t (fun h => h2 (h ▸ ht)) h3, rfl⟩, (htar i).2 ⟨h1, h2⟩⟩, rfl⟩
  have hI : ∀ i, names i ∈ (ciStraight W names (names y) (ts.map names)).2 ↔
      i ≠ y ∧ i ∉ ts ∧ (∃ t ∈ ts, Reach (MatEdge W) t i) ∧ ¬ Reach (MatEdge W) y i := by
    intro i
    unfold ciStraight
    simp only [List.mem_filter (p := fun c => decide (c ∉ _) && decide (c ∉ _)), Bool.and_eq_true, decide_eq_true_eq]
    rw [hX i, hY i, htar]
    tauto
  refine ⟨?_, hI i⟩
  have hI' := hI i
  unfold ciStraight at hI' ⊢
  simp only at hI' ⊢
  rw [List.mem_filter, hY i]
  simp only [Bool.and_eq_true, decide_eq_true_eq]
  rw [htar, hI']
  tauto

/-- the hypotheses of `C59_dfs` and the refutation on one graph: columns z, x, y, d with z → x, z → y, x → y, y → d. `dfs` finds the
confounder z, `straight` the effect d. -/
theorem C59_straight_refuted :
    ciDfs (![![0, 1, 1, 0], ![0, 0, 1, 0], ![0, 0, 0, 1], ![0, 0, 0, 0]] : Mat 4 Int) (![10, 11, 12, 13] : Fin 4 → Nat) 12 [11] = .ok ([10], []) ∧
    ciStraight (![![0, 1, 1, 0], ![0, 0, 1, 0], ![0, 0, 0, 1], ![0, 0, 0, 0]] : Mat 4 Int) (![10, 11, 12, 13] : Fin 4 → Nat) 12 [11] = ([13], []) := by
  decide +kernel

/-- **C59 (limit)**: causes with a negative weight are not seen by `dfs`, although the treatment itself may have been chosen through a
negative weight: with z → x and z → y negative the confounder z is missed. -/
theorem C59_negative_missed :
    ciDfs (![![0, -1, -1], ![0, 0, 1], ![0, 0, 0]] : Mat 3 Int) (![10, 11, 12] : Fin 3 → Nat) 12 [11] = .ok ([], []) ∧
    discoveryCandidates (fun c : Nat => if c = 10 then (-1 : Int) else if c = 11 then 1 else 0) [10, 11, 12] 12 none = [10, 11] := by
  decide +kernel

/-- **C46**, discovery: after the last step of `identify_aci` covariates and instruments are disjoint and contain neither treatment nor
outcome, without repetitions. -/
theorem C46_discovery {columns : List C} (hcol : columns.Nodup) (W : Mat n K) {names : Fin n → C} (hn : Function.Injective names) (y : Fin n)
    (ts : List (Fin n)) {covins : List C × List C} (h : ciDfs W names (names y) (ts.map names) = .ok covins) :
    ∃ cov ins, finishAci columns (names y) (ts.map names) covins = (none, some cov, ins) ∧
      cov.Nodup ∧ (ins.getD []).Nodup ∧ (∀ c ∈ cov, c ∉ ins.getD []) ∧
      (∀ c, c ∈ cov ∨ c ∈ ins.getD [] → c ≠ names y ∧ c ∉ ts.map names) ∧ ins ≠ some [] := by
  obtain ⟨cov, ins, h0, hs1, hs2, hc, hi⟩ := C59_dfs W hn y ts
  rw [h0] at h
  cases h
  have nd1 : (cov.map names).Nodup := ((List.nodup_finRange n).sublist hs1).map hn
  have nd2 : (ins.map names).Nodup := ((List.nodup_finRange n).sublist hs2).map hn
  have tin : ∀ c ∈ ins.map names, c ≠ names y ∧ c ∉ ts.map names := by
    intro c hcm
    obtain ⟨i, him, rfl⟩ := List.mem_map.1 hcm
    have := (hi i).1 him
    exact ⟨fun he => this.1 (hn he), fun he => by
      obtain ⟨t, ht, he⟩ := List.mem_map.1 he
      exact this.2.1 (hn he ▸ ht)⟩
  have tcov : ∀ c ∈ cov.map names, c ≠ names y ∧ c ∉ ts.map names ∧ c ∉ ins.map names := by
    intro c hcm
    obtain ⟨i, him, rfl⟩ := List.mem_map.1 hcm
    have := (hc i).1 him
    refine ⟨fun he => this.1 (hn he), fun he => by
      obtain ⟨t, ht, he⟩ := List.mem_map.1 he
      exact this.2.1 (hn he ▸ ht), fun he => by
      obtain ⟨j, hj, he⟩ := List.mem_map.1 he
      rw [hn he] at hj
      exact ((hi i).1 hj).2.2.2 this.2.2⟩
  have hins : (if (ins.map names).isEmpty then none else some (ins.map names)).getD [] = ins.map names := by
    cases hq : ins.map names with
    | nil => rfl
    | cons a l => rfl
  refine ⟨_, _, rfl, ?_, ?_, ?_, ?_, ?_⟩
  · split
    · exact hcol.filter _
    · exact nd1
  · rw [hins]; exact nd2
  · rw [hins]
    intro c hcm
    split at hcm
    · simp only [List.mem_filter, Bool.and_eq_true, decide_eq_true_eq, Bool.or_eq_true] at hcm
      rcases hcm.2.2 with he | he
      · rw [List.isEmpty_iff.1 he]; simp
      · exact he
    · exact (tcov c hcm).2.2
  · rw [hins]
    rintro c (hcm | hcm)
    · split at hcm
      · simp only [List.mem_filter, Bool.and_eq_true, decide_eq_true_eq] at hcm
        exact ⟨hcm.2.1.1, hcm.2.1.2⟩
      · exact ⟨(tcov c hcm).1, (tcov c hcm).2.1⟩
    · exact tin c hcm
  · cases hq : ins.map names with
    | nil => simp
    | cons a l => simp

/-! ### C60 -/

/-- **C60, refuted**: the default identifier asks for all features, so the ranking by importance has no influence: the candidates are
simply the columns in their order. -/
theorem C60_importance_ignored {argsort : List Rat → List Nat} {argsortN : List Nat → List Nat} (disc : C → Except Err Bool) {columns : List C}
    (hne : columns ≠ []) {imp : List Rat} (hl : imp.length = columns.length) (h1 : IsArgsort imp (argsort imp))
    (h2 : IsArgsort (argsort imp) (argsortN (argsort imp))) (discrete : Option Bool) (limit : Nat) :
    defaultTreatment argsort argsortN disc columns imp discrete limit =
      match discrete with
      | none => alignTask disc columns limit
      | some b => selectTask disc columns limit b := by
  have hi : imp ≠ [] := by
    intro h
    rw [h] at hl
    exact hne (List.length_eq_zero_iff.1 hl.symm)
  obtain ⟨hs, hlen, -⟩ := C52_number imp h1 h2 (.count columns.length)
  have hall : SkEx.byNumber argsort argsortN imp (.count columns.length) = List.range imp.length := by
    apply hs.eq_of_length
    rw [hlen]
    simp [wanted, hl]
  have hcols : (List.range imp.length).filterMap (fun i => columns[i]?) = columns := by
    rw [hl]
    clear hs hlen hall hl hne
    induction columns using List.reverseRecOn with
    | nil => rfl
    | append_singleton l a ih =>
      rw [List.length_append, List.length_singleton, List.range_succ, List.filterMap_append]
      have e1 : (List.range l.length).filterMap (fun i => (l ++ [a])[i]?) = (List.range l.length).filterMap (fun i => l[i]?) := by
        apply List.filterMap_congr
        intro i hi
        rw [List.getElem?_append_left (by simpa using hi)]
      rw [e1, ih]
      simp
  unfold defaultTreatment SkEx.select SkEx.detect
  rw [if_neg hi]
  simp only [Option.getD_some, hall, hcols]
  cases discrete <;> rfl

/-- so the most important column need not be chosen: three columns, the last one by far the most important; with a limit of one
treatment the first two are taken -/
theorem C60_refuted :
    defaultTreatment (C := Nat) (fun _ => [0, 1, 2]) (fun _ => [0, 1, 2]) (fun _ => .ok true) [7, 8, 9] [1 / 100, 1 / 50, 97 / 100] none 1 = .ok [7, 8] := by
  decide +kernel

/-! ### C61 -/

theorem takeTask_spec {disc : C → Except Err Bool} {b : Bool} {limit : Nat} {cols : List C} {sel r : List C}
    (h : takeTask disc b limit sel cols = .ok r) :
    ∃ l, r = sel ++ l ∧ l.Sublist cols ∧ (∀ c ∈ l, disc c = .ok b) ∧ r.length ≤ max (sel.length + 1) limit ∧
      (r.length < limit → ∀ c ∈ cols, disc c = .ok b → c ∈ l) := by
  induction cols generalizing sel with
  | nil =>
    simp only [takeTask, Except.ok.injEq] at h
    subst h
    exact ⟨[], by simp, by simp, by simp, by omega, by simp⟩
  | cons x xs ih =>
    unfold takeTask at h
    cases hd : disc x with
    | error e => rw [hd] at h; cases h
    | ok d =>
      rw [hd] at h
      simp only at h
      by_cases hb : d = b
      · rw [if_pos hb] at h
        by_cases hl : limit ≤ sel.length + 1
        · rw [if_pos hl] at h
          cases h
          refine ⟨[x], rfl, by simp, by simp [hd, hb], by simp, fun hlt => ?_⟩
          simp at hlt; omega
        · rw [if_neg hl] at h
          obtain ⟨l, h1, h2, h3, h4, h5⟩ := ih h
          refine ⟨x :: l, by rw [h1]; simp, h2.cons₂ x, ?_, ?_, ?_⟩
          · intro c hc
            rcases List.mem_cons.1 hc with rfl | hc
            · rw [hd, hb]
            · exact h3 c hc
          · simp only [List.length_append, List.length_singleton] at h4
            omega
          · intro hlt c hc hdc
            rcases List.mem_cons.1 hc with rfl | hc
            · simp
            · exact List.mem_cons_of_mem _ (h5 hlt c hc hdc)
      · rw [if_neg hb] at h
        obtain ⟨l, h1, h2, h3, h4, h5⟩ := ih h
        refine ⟨l, h1, h2.cons x, h3, h4, fun hlt c hc hdc => ?_⟩
        rcases List.mem_cons.1 hc with rfl | hc
        · rw [hd] at hdc; cases hdc; exact absurd rfl hb
        · exact h5 hlt c hc hdc

/-- **C61**, with `discrete_treatment` given: the chosen treatments are candidates of the wanted kind in their order, at most
`limit` (at least one is allowed), and if fewer were chosen there are no more of this kind. -/
theorem C61_select {disc : C → Except Err Bool} {b : Bool} {limit : Nat} {cols r : List C} (h : selectTask disc cols limit b = .ok r) :
    r.Sublist cols ∧ (∀ c ∈ r, disc c = .ok b) ∧ r.length ≤ max 1 limit ∧ (r.length < limit → ∀ c ∈ cols, disc c = .ok b → c ∈ r) := by
  obtain ⟨l, h1, h2, h3, h4, h5⟩ := takeTask_spec h
  simp only [List.nil_append, List.length_nil] at h1 h4
  subst h1
  exact ⟨h2, h3, by omega, h5⟩

/-- **C61**, with the kind taken from the first candidate: the first candidate is chosen, all chosen ones are of its kind, in order. The
number is at most `limit` if `limit` is at least two. -/
theorem C61_align {disc : C → Except Err Bool} {limit : Nat} {cols r : List C} (h : alignTask disc cols limit = .ok r) :
    ∃ c₀ b, cols.head? = some c₀ ∧ r.head? = some c₀ ∧ disc c₀ = .ok b ∧ r.Sublist cols ∧ (∀ c ∈ r, disc c = .ok b) ∧
      r.length ≤ max 2 limit ∧ (r.length < limit → ∀ c ∈ cols, disc c = .ok b → c ∈ r) := by
  cases cols with
  | nil => simp [alignTask] at h
  | cons c cs =>
    unfold alignTask at h
    simp only at h
    cases hd : disc c with
    | error e => rw [hd] at h; cases h
    | ok b =>
      rw [hd] at h
      obtain ⟨l, h1, h2, h3, h4, h5⟩ := takeTask_spec h
      subst h1
      refine ⟨c, b, rfl, rfl, hd, by simpa using h2, ?_, by simpa using h4, ?_⟩
      · intro c' hc'
        rcases List.mem_cons.1 (by simpa using hc') with rfl | hc'
        · exact hd
        · exact h3 c' hc'
      · intro hlt c' hc' hdc
        rcases List.mem_cons.1 hc' with rfl | hc'
        · simp
        · simp [h5 hlt c' hc' hdc]

/-- **C61, refuted for a limit of one**: `align_task_to_first` returns two treatments; data frames with at most ten columns have this
limit by default. -/
theorem C61_limit_one_refuted : alignTask (C := Nat) (fun _ => .ok true) [1, 2, 3] 1 = .ok [1, 2] ∧ (∀ m, 0 < m → m ≤ 10 → defaultLimit m = 1) := by
  refine ⟨by decide, fun m h1 h2 => ?_⟩
  unfold defaultLimit
  have : (m + 9) / 10 = 1 := by omega
  rw [this]
  rfl

/-- **C61**: the default limit is between 1 and 5 for a non-empty frame and never decreases with more columns. -/
theorem C61_default_limit {m k : Nat} (h : 0 < m) (hk : m ≤ k) : 1 ≤ defaultLimit m ∧ defaultLimit m ≤ 5 ∧ defaultLimit m ≤ defaultLimit k := by
  unfold defaultLimit
  omega

example : alignTask (C := Nat) (fun c => .ok (decide (c < 10))) [1, 20, 2, 3] 2 = .ok [1, 2] ∧
    selectTask (C := Nat) (fun c => .ok (decide (c < 10))) [1, 20, 2, 3] 2 false = .ok [20] := by decide

/-- **C61**: a column is classified as discrete exactly when it has two distinct values, or is neither float nor an integer column with
many values; constant and empty columns are refused. -/
theorem C61_is_discrete (exceeds : Nat → Nat → Bool) (k : Kind) (m u : Nat) :
    isDiscrete exceeds k m u = if u < 2 then .error .value else
      .ok (decide (u = 2 ∨ k = .other ∨ (k = .int ∧ exceeds u m = false))) := by
  unfold isDiscrete inferTask
  rcases u with _ | _ | _ | u
  · rfl
  · rfl
  · rfl
  · cases k
    · simp
    · cases h : exceeds (u + 1 + 1 + 1) m <;> simp [h]
    · simp

end

end YL.Props
