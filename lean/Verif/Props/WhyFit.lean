import Verif.Model.WhyFit
import Verif.Props.EndToEnd
import Verif.Props.Permuted
import Verif.Props.WhyArms
import Verif.Props.WhyEffect
import Verif.Props.WhyGraph

/-!
# C147: `Why` on discrete treatments, from `fit` to the effects
-/

set_option linter.unusedSectionVars false

namespace YL.Spec

variable {C V : Type} [DecidableEq C] [DecidableEq V]

/-- every combination of observed values of the treatments `xs` is observed at least twice -/
def Crossed (L : List (C → V)) (xs : List C) : Prop :=
  ∀ vs, List.Forall₂ (fun v x => ∃ u ∈ L, u x = v) vs xs → 2 ≤ L.countP (fun u => decide (xs.map u = vs))

/-- `is` are the codes of the values `vs` of the treatments `xs`: their positions among the classes -/
def Codes (classes : C → List V) (xs : List C) (vs : List V) (is : List ℕ) : Prop :=
  List.Forall₂ (fun x (p : V × ℕ) => (classes x)[p.2]? = some p.1) xs (vs.zip is) ∧ vs.length = xs.length ∧ is.length = xs.length

/-- what the base model of an arm is trained on: features and outcomes of the individuals with the treatment values `vs` -/
def armOf {F K : Type} (pre : List V → F) (out : V → K) (S : List C) (y : C) (L : List (C → V)) (xs : List C) (vs : List V) : List (F × K) :=
  (L.filter (fun u => decide (xs.map u = vs))).map (fun u => (pre (S.map u), out (u y)))

end YL.Spec

namespace YL.Props

open YL Spec Meta Permuted WhyF

section
variable {C V F K : Type} [DecidableEq C] [LinearOrder V]

/-- the code of a value -/
def posOf (L : List (C → V)) (x : C) (v : V) : ℕ := (classesOf L x).idxOf v

theorem mem_classesOf {L : List (C → V)} {x : C} {v : V} : v ∈ classesOf L x ↔ ∃ u ∈ L, u x = v := by
  unfold classesOf
  rw [mem_uniq, List.mem_map]

theorem classesOf_nodup (L : List (C → V)) (x : C) : (classesOf L x).Nodup := uniq_nodup _

theorem posOf_get {L : List (C → V)} {x : C} {v : V} (h : ∃ u ∈ L, u x = v) : (classesOf L x)[posOf L x v]? = some v := by
  have := List.idxOf_lt_length_iff.2 (mem_classesOf.2 h)
  unfold posOf
  rw [List.getElem?_eq_getElem this, List.getElem_idxOf]

theorem code_posOf {L : List (C → V)} {x : C} {v : V} (h : ∃ u ∈ L, u x = v) : Why.code (classesOf L x) v = .ok (posOf L x v) :=
  (code_nodup (classesOf_nodup L x)).2 (posOf_get h)

theorem posOf_inj {L : List (C → V)} {x : C} {v v' : V} (h : ∃ u ∈ L, u x = v) (h' : ∃ u ∈ L, u x = v') (he : posOf L x v = posOf L x v') :
    v = v' := by
  have e1 := posOf_get h
  have e2 := posOf_get h'
  rw [he, e2] at e1
  exact (Option.some.inj e1).symm

theorem posOf_unique {L : List (C → V)} {x : C} {v : V} {i : ℕ} (h : (classesOf L x)[i]? = some v) : i = posOf L x v := by
  obtain ⟨hi, he⟩ := List.getElem?_eq_some_iff.1 h
  obtain ⟨hj, he'⟩ := List.getElem?_eq_some_iff.1 (posOf_get (mem_classesOf.1 (he ▸ List.getElem_mem hi)))
  exact (classesOf_nodup L x).getElem_inj_iff.1 (he.trans he'.symm)

/-- the codes of a list of values -/
def encodeVals (L : List (C → V)) (xs : List C) (vs : List V) : List ℕ := List.zipWith (posOf L) xs vs

/-- the rows the estimator sees -/
def codedRows (pre : List V → F) (out : V → K) (S : List C) (y : C) (xs : List C) (L : List (C → V)) : List (Meta.Row ℕ F K) :=
  L.map (fun u => ⟨pre (S.map u), xs.map (fun x => posOf L x (u x)), out (u y)⟩)

theorem trainRows_ok (pre : List V → F) (out : V → K) (S : List C) (y : C) (xs : List C) (L : List (C → V)) :
    mapE (trainRow (classesOf L) pre out S y xs) L = .ok (codedRows pre out S y xs L) := by
  apply mapE_eq
  intro u hu
  unfold trainRow
  rw [mapE_eq (g := fun x => posOf L x (u x)) (fun x _ => code_posOf ⟨u, hu, rfl⟩)]

theorem codedRows_width (pre : List V → F) (out : V → K) (S : List C) (y : C) (xs : List C) (L : List (C → V)) :
    ∀ r ∈ codedRows pre out S y xs L, r.x.length = xs.length := by
  intro r hr
  obtain ⟨u, _, rfl⟩ := List.mem_map.1 hr
  simp

theorem encode_row (L : List (C → V)) (xs : List C) (u : C → V) : xs.map (fun x => posOf L x (u x)) = encodeVals L xs (xs.map u) := by
  unfold encodeVals
  induction xs with
  | nil => rfl
  | cons x xs ih => simp [ih]

theorem encodeVals_inj {L : List (C → V)} : ∀ {xs : List C} {vs vs' : List V}, List.Forall₂ (fun v x => ∃ u ∈ L, u x = v) vs xs →
    List.Forall₂ (fun v x => ∃ u ∈ L, u x = v) vs' xs → encodeVals L xs vs = encodeVals L xs vs' → vs = vs'
  | [], _, _, .nil, .nil, _ => rfl
  | x :: xs, _, _, .cons h1 h2, .cons h3 h4, he => by
    simp only [encodeVals, List.zipWith_cons_cons, List.cons.injEq] at he
    rw [posOf_inj h1 h3 he.1, encodeVals_inj h2 h4 he.2]

theorem observed_vals {L : List (C → V)} (xs : List C) {u : C → V} (hu : u ∈ L) : List.Forall₂ (fun v x => ∃ u ∈ L, u x = v) (xs.map u) xs := by
  induction xs with
  | nil => exact .nil
  | cons x xs ih => exact .cons ⟨u, hu, rfl⟩ ih

theorem row_eq_iff {L : List (C → V)} {xs : List C} {vs : List V} (h : List.Forall₂ (fun v x => ∃ u ∈ L, u x = v) vs xs) {u : C → V} (hu : u ∈ L) :
    xs.map (fun x => posOf L x (u x)) = encodeVals L xs vs ↔ xs.map u = vs := by
  rw [encode_row]
  exact ⟨fun he => encodeVals_inj (observed_vals xs hu) h he, fun he => by rw [he]⟩

theorem coded_filter {pre : List V → F} {out : V → K} {S : List C} {y : C} {L : List (C → V)} {xs : List C} {vs : List V}
    (h : List.Forall₂ (fun v x => ∃ u ∈ L, u x = v) vs xs) :
    (codedRows pre out S y xs L).filter (fun r => decide (r.x = encodeVals L xs vs)) =
      (L.filter (fun u => decide (xs.map u = vs))).map (fun u => ⟨pre (S.map u), xs.map (fun x => posOf L x (u x)), out (u y)⟩) := by
  unfold codedRows
  rw [List.filter_map]
  congr 1
  apply List.filter_congr
  intro u hu
  simp only [Function.comp_apply]
  rw [decide_eq_decide]
  exact row_eq_iff h hu

theorem coded_armData {pre : List V → F} {out : V → K} {S : List C} {y : C} {L : List (C → V)} {xs : List C} {vs : List V}
    (h : List.Forall₂ (fun v x => ∃ u ∈ L, u x = v) vs xs) :
    armData (encodeVals L xs vs) (codedRows pre out S y xs L) = armOf pre out S y L xs vs := by
  unfold armData armOf
  rw [coded_filter h, List.map_map]
  rfl

theorem coded_twice {pre : List V → F} {out : V → K} {S : List C} {y : C} {L : List (C → V)} {xs : List C} (hc : Crossed L xs) {vs : List V}
    (h : List.Forall₂ (fun v x => ∃ u ∈ L, u x = v) vs xs) : Twice (encodeVals L xs vs) (codedRows pre out S y xs L) := by
  unfold Twice
  rw [coded_filter h, List.length_map, ← List.countP_eq_length_filter]
  exact hc vs h

theorem treatsOf_coded (pre : List V → F) (out : V → K) (S : List C) (y : C) (L : List (C → V)) (xs : List C) :
    treatsOf xs.length (codedRows pre out S y xs L) = xs.map (fun x => uniq (L.map (fun u => posOf L x (u x)))) := by
  unfold treatsOf
  apply List.ext_getElem
  · simp
  · intro j h1 h2
    simp only [List.getElem_map, List.getElem_range]
    congr 1
    unfold column codedRows
    have hj : j < xs.length := by simpa using h1
    rw [List.filterMap_map]
    have : ((fun r : Meta.Row ℕ F K => r.x[j]?) ∘ fun u : C → V => (⟨pre (S.map u), xs.map (fun x => posOf L x (u x)), out (u y)⟩ : Meta.Row ℕ F K)) =
        fun u => some (posOf L xs[j] (u xs[j])) := by
      funext u
      simp [hj]
    rw [this, List.filterMap_eq_map']

theorem mem_treats {L : List (C → V)} {xs : List C} {a : List ℕ} :
    a ∈ product (xs.map (fun x => uniq (L.map (fun u => posOf L x (u x))))) ↔
      ∃ vs, List.Forall₂ (fun v x => ∃ u ∈ L, u x = v) vs xs ∧ a = encodeVals L xs vs := by
  rw [mem_product]
  induction xs generalizing a with
  | nil =>
    simp only [List.map_nil, List.forall₂_nil_right_iff, encodeVals, List.zipWith_nil_left]
    exact ⟨fun h => ⟨[], rfl, h⟩, fun ⟨_, _, h⟩ => h⟩
  | cons x xs ih =>
    rw [List.map_cons]
    constructor
    · intro h
      cases h with
      | cons h1 h2 =>
        obtain ⟨vs, h3, rfl⟩ := ih.1 h2
        rw [mem_uniq, List.mem_map] at h1
        obtain ⟨u, hu, rfl⟩ := h1
        exact ⟨u x :: vs, .cons ⟨u, hu, rfl⟩ h3, rfl⟩
    · rintro ⟨vs, h, rfl⟩
      cases h with
      | cons h1 h2 =>
        refine .cons ?_ (ih.2 ⟨_, h2, rfl⟩)
        rw [mem_uniq, List.mem_map]
        obtain ⟨u, hu, rfl⟩ := h1
        exact ⟨u, hu, rfl⟩

/-- the codes of a treatment are `0, ..., k-1` -/
theorem uniq_codes (L : List (C → V)) (x : C) : uniq (L.map (fun u => posOf L x (u x))) = List.range (classesOf L x).length := by
  refine List.Perm.eq_of_pairwise (le := (· ≤ ·)) (fun a b _ _ h1 h2 => le_antisymm h1 h2) ?_ ?_ ?_
  · exact (uniq_sorted (L.map (fun u => posOf L x (u x)))).imp (fun h => le_of_lt h)
  · exact List.pairwise_le_range
  · rw [List.perm_ext_iff_of_nodup (uniq_nodup _) List.nodup_range]
    intro i
    rw [mem_uniq, List.mem_map, List.mem_range]
    constructor
    · rintro ⟨u, hu, rfl⟩
      exact (List.getElem?_eq_some_iff.1 (posOf_get ⟨u, hu, rfl⟩)).1
    · intro hi
      obtain ⟨u, hu, he⟩ := mem_classesOf.1 (List.getElem_mem hi)
      exact ⟨u, hu, by rw [he]; exact (posOf_unique (List.getElem?_eq_getElem hi)).symm⟩

/-- what is stored for one treatment, or for a combination of treatments -/
theorem fitKey_full [Ring K] (fitM : List (F × K) → F → K) (pre : List V → F) (out : V → K) (S : List C) (y : C) {L : List (C → V)} {xs : List C}
    (hxs : xs ≠ []) (hc : Crossed L xs) :
    ∃ g : List ℕ × List ℕ → T ℕ F K, fitKey fitM pre out S y L xs = .ok (xs, ⟨xs.map (fun x => List.range (classesOf L x).length),
        (pairs (product (xs.map (fun x => List.range (classesOf L x).length)))).map (fun p => (p, g p))⟩) ∧
      ∀ vs vs', List.Forall₂ (fun v x => ∃ u ∈ L, u x = v) vs xs → List.Forall₂ (fun v x => ∃ u ∈ L, u x = v) vs' xs → ∀ w,
        tEstimate (g (encodeVals L xs vs, encodeVals L xs vs')) w = fitM (armOf pre out S y L xs vs) w - fitM (armOf pre out S y L xs vs') w := by
  classical
  set rows := codedRows pre out S y xs L with hrows
  have htr : treatsOf xs.length rows = xs.map (fun x => List.range (classesOf L x).length) := by
    rw [hrows, treatsOf_coded]
    exact List.map_congr_left (fun x _ => uniq_codes L x)
  rw [← htr]
  set P := product (treatsOf xs.length rows) with hP
  have hmemP : ∀ {a : List ℕ}, a ∈ P ↔ ∃ vs, List.Forall₂ (fun v x => ∃ u ∈ L, u x = v) vs xs ∧ a = encodeVals L xs vs := by
    intro a
    rw [hP, hrows, treatsOf_coded, mem_treats]
  have hne : Nonempty (T ℕ F K) := ⟨⟨none, 0, 0, fun _ => 0, fun _ => 0⟩⟩
  have hex : ∀ p : List ℕ × List ℕ, ∃ s : T ℕ F K, p.1 ∈ P → p.2 ∈ P → tFit fitM id xs.length none rows (some (.many p.1)) (some (.many p.2)) = .ok s ∧
      ∀ w, tEstimate s w = fitM (armData p.1 rows) w - fitM (armData p.2 rows) w := by
    intro p
    by_cases h : p.1 ∈ P ∧ p.2 ∈ P
    · obtain ⟨vs, h1, e1⟩ := hmemP.1 h.1
      obtain ⟨vs', h2, e2⟩ := hmemP.1 h.2
      obtain ⟨s, hs⟩ := C39_tlearner id fitM (List.length_pos_of_ne_nil hxs) (codedRows_width pre out S y xs L)
        (coded_twice hc h1) (coded_twice hc h2) (Or.inl rfl) (Or.inl rfl)
      exact ⟨s, fun _ _ => by rw [e1, e2]; exact hs⟩
    · obtain ⟨s⟩ := hne
      exact ⟨s, fun h1 h2 => absurd ⟨h1, h2⟩ h⟩
  choose g hg using hex
  have hpm : ∀ p ∈ pairs P, p.1 ∈ P ∧ p.2 ∈ P := by
    rintro ⟨a, b⟩ hp
    obtain ⟨i, j, _, hi, hj⟩ := mem_pairs.1 hp
    exact ⟨List.mem_of_getElem? hi, List.mem_of_getElem? hj⟩
  have hfit : mapE (fitPair fitM xs.length rows) (pairs P) = .ok ((pairs P).map (fun p => (p, g p))) := by
    apply mapE_eq
    intro p hp
    unfold fitPair
    rw [(hg p (hpm p hp).1 (hpm p hp).2).1]
  refine ⟨g, ?_, ?_⟩
  · unfold fitKey
    rw [trainRows_ok]
    simp only
    unfold fitPermuted
    rw [← hrows, hfit]
  · intro vs vs' h h' w
    rw [(hg _ (hmemP.2 ⟨vs, h, rfl⟩) (hmemP.2 ⟨vs', h', rfl⟩)).2 w, coded_armData h, coded_armData h']

/-- fitting the estimator of one treatment, or of a combination of treatments -/
theorem fitKey_ok [Ring K] (fitM : List (F × K) → F → K) (pre : List V → F) (out : V → K) (S : List C) (y : C) {L : List (C → V)} {xs : List C}
    (hxs : xs ≠ []) (hc : Crossed L xs) :
    ∃ f, fitKey fitM pre out S y L xs = .ok (xs, f) ∧ ∀ vs vs', List.Forall₂ (fun v x => ∃ u ∈ L, u x = v) vs xs →
      List.Forall₂ (fun v x => ∃ u ∈ L, u x = v) vs' xs → vs ≠ vs' → ∀ w,
      estPermuted f w (encodeVals L xs vs) (encodeVals L xs vs') =
        .ok [fitM (armOf pre out S y L xs vs) w - fitM (armOf pre out S y L xs vs') w] := by
  classical
  obtain ⟨g, h0, hg⟩ := fitKey_full fitM pre out S y hxs hc
  refine ⟨_, h0, fun vs vs' h h' hvv w => ?_⟩
  have htr : xs.map (fun x => List.range (classesOf L x).length) = xs.map (fun x => uniq (L.map (fun u => posOf L x (u x)))) :=
    List.map_congr_left (fun x _ => (uniq_codes L x).symm)
  set P := product (xs.map (fun x => List.range (classesOf L x).length)) with hP
  have hmemP : ∀ {a : List ℕ}, a ∈ P ↔ ∃ vs, List.Forall₂ (fun v x => ∃ u ∈ L, u x = v) vs xs ∧ a = encodeVals L xs vs := by
    intro a
    rw [hP, htr, mem_treats]
  have ha : encodeVals L xs vs ∈ P := hmemP.2 ⟨vs, h, rfl⟩
  have hb : encodeVals L xs vs' ∈ P := hmemP.2 ⟨vs', h', rfl⟩
  have hab : encodeVals L xs vs ≠ encodeVals L xs vs' := fun e => hvv (encodeVals_inj h h' e)
  have e : fitSeq (fun (_ : T ℕ F K) a b => g (a, b)) (g ([], [])) P = (pairs P).map (fun p => (p, g p)) := fitSeq_eq _ _ _
  obtain ⟨r, h1, -, h2⟩ := C35_antisymmetric (fit := fun (_ : T ℕ F K) a b => g (a, b)) (proto := g ([], [])) (treats := xs.map (fun x => List.range (classesOf L x).length))
    (fun s => [tEstimate s w]) (fun l hl => by
      obtain ⟨j, _, rfl⟩ := List.mem_map.1 hl
      exact List.nodup_range) ha hb hab (Or.inl rfl) (Or.inl rfl)
  rw [e] at h1
  unfold estPermuted
  simp only
  rw [h1]
  congr 1
  rcases h2 with rfl | rfl
  · rw [hg _ _ h h' w]
  · rw [hg _ _ h' h w]
    simp

theorem keys_ne_nil {treatment xs : List C} (h : xs ∈ WhyF.keys treatment) : xs ≠ [] := by
  unfold WhyF.keys at h
  rcases List.mem_append.1 h with h | h
  · obtain ⟨x, _, rfl⟩ := List.mem_map.1 h
    simp
  · split at h
    · obtain ⟨p, _, hp⟩ := List.mem_filterMap.1 h
      split at hp
      · cases hp; simp
      · cases hp
    · cases h

theorem single_mem_keys {treatment : List C} {x : C} (h : x ∈ treatment) : [x] ∈ WhyF.keys treatment :=
  List.mem_append_left _ (List.mem_map.2 ⟨x, h, rfl⟩)

theorem pair_mem_keys {treatment : List C} {a b : C} (ha : a ∈ treatment) (hb : b ∈ treatment) (hab : a ≠ b) : [a, b] ∈ WhyF.keys treatment := by
  have : 1 < treatment.length := by
    cases treatment with
    | nil => cases ha
    | cons c l => cases l with
      | nil => simp at ha hb; exact absurd (ha.trans hb.symm) hab
      | cons => simp
  unfold WhyF.keys
  rw [if_pos this]
  refine List.mem_append_right _ (List.mem_filterMap.2 ⟨(a, b), ?_, by simp [hab]⟩)
  exact List.mem_flatMap.2 ⟨a, ha, List.mem_map.2 ⟨b, hb, rfl⟩⟩

theorem codes_observed {L : List (C → V)} {xs : List C} {vs : List V} {is : List ℕ} (h : Codes (classesOf L) xs vs is) :
    List.Forall₂ (fun v x => ∃ u ∈ L, u x = v) vs xs ∧ is = encodeVals L xs vs := by
  obtain ⟨h1, h2, h3⟩ := h
  induction xs generalizing vs is with
  | nil =>
    cases vs with
    | cons => cases h2
    | nil => cases is with
      | cons => cases h3
      | nil => exact ⟨.nil, rfl⟩
  | cons x xs ih =>
    cases vs with
    | nil => cases h2
    | cons v vs => cases is with
      | nil => cases h3
      | cons i is =>
        rw [List.zip_cons_cons] at h1
        cases h1 with
        | cons h4 h5 =>
          replace h4 : (classesOf L x)[i]? = some v := h4
          obtain ⟨e1, e2⟩ := ih h5 (by simpa using h2) (by simpa using h3)
          refine ⟨.cons ?_ e1, ?_⟩
          · obtain ⟨hi, he⟩ := List.getElem?_eq_some_iff.1 h4
            exact mem_classesOf.1 (he ▸ List.getElem_mem hi)
          · rw [e2, posOf_unique h4]
            rfl

/-- **C147, fitting**: if every combination of observed values of a treatment, and of every two treatments, is observed at least twice, `fit` succeeds, and
every comparison of two different (combinations of) values is answered with the difference of the base models trained on exactly the individuals with
these values. -/
theorem C147_fit [Ring K] (fitM : List (F × K) → F → K) (pre : List V → F) (out : V → K) {treatment S : List C} (hS : S ≠ []) (y : C) {L : List (C → V)}
    (hc : ∀ xs ∈ WhyF.keys treatment, Crossed L xs) :
    ∃ st, fit fitM pre out treatment S y L = .ok st ∧ ∀ xs ∈ WhyF.keys treatment, ∀ vs vs' is js, Codes (classesOf L) xs vs is →
      Codes (classesOf L) xs vs' js → vs ≠ vs' → ∀ r,
      effect pre st xs r is js = .ok [fitM (armOf pre out S y L xs vs) (pre r) - fitM (armOf pre out S y L xs vs') (pre r)] := by
  classical
  have hne : Nonempty (Fitted F K) := ⟨⟨[], []⟩⟩
  have hex : ∀ xs : List C, ∃ f : Fitted F K, xs ∈ WhyF.keys treatment → fitKey fitM pre out S y L xs = .ok (xs, f) ∧
      ∀ vs vs', List.Forall₂ (fun v x => ∃ u ∈ L, u x = v) vs xs →
      List.Forall₂ (fun v x => ∃ u ∈ L, u x = v) vs' xs → vs ≠ vs' → ∀ w,
      estPermuted f w (encodeVals L xs vs) (encodeVals L xs vs') =
        .ok [fitM (armOf pre out S y L xs vs) w - fitM (armOf pre out S y L xs vs') w] := by
    intro xs
    by_cases h : xs ∈ WhyF.keys treatment
    · obtain ⟨f, hf⟩ := fitKey_ok fitM pre out S y (keys_ne_nil h) (hc xs h)
      exact ⟨f, fun _ => hf⟩
    · obtain ⟨f⟩ := hne
      exact ⟨f, fun h' => absurd h' h⟩
  choose g hg using hex
  refine ⟨(WhyF.keys treatment).map (fun xs => (xs, g xs)), ?_, ?_⟩
  · unfold fit
    rw [if_neg hS]
    exact mapE_eq (fun xs hxs => (hg xs hxs).1)
  · intro xs hxs vs vs' is js h1 h2 hvv r
    obtain ⟨o1, rfl⟩ := codes_observed h1
    obtain ⟨o2, rfl⟩ := codes_observed h2
    unfold effect
    rw [dget_map, if_pos hxs]
    exact (hg xs hxs).2 vs vs' o1 o2 hvv (pre r)

end

/-! ### The causal effect -/

section causal
variable {α B : Type} [DecidableEq α] [LinearOrder B] [Fintype B] {F : Type} [DecidableEq F] {K : Type} [Field K] [LinearOrder K] [IsStrictOrderedRing K]

/-- the base model of an arm predicts the mean outcome of the individuals of the arm with the same raw values: preprocessing that keeps apart what is different
in the data does no harm -/
theorem averages_armOf {fitM : List (F × K) → F → K} (hM : Averages fitM) {pre : List B → F} {num : B → K} {S : List α} {y : α} {L : List (α → B)}
    (hpre : ∀ u ∈ L, ∀ u' ∈ L, pre (S.map u) = pre (S.map u') → S.map u = S.map u') {xs : List α} {vs : List B} {u : α → B} (hu : u ∈ L)
    (h : ∃ u' ∈ L, S.map u' = S.map u ∧ xs.map u' = vs) :
    fitM (armOf pre num S y L xs vs) (pre (S.map u)) = cellMean (dataOf xs S y num L) (S.map u) vs := by
  obtain ⟨u', hu', hw, hx⟩ := h
  rw [hM _ _ ⟨num (u' y), by
    unfold armOf
    exact List.mem_map.2 ⟨u', by simp [hu', hx], by rw [hw]⟩⟩]
  have e1 : (armOf pre num S y L xs vs).filter (fun p => decide (p.1 = pre (S.map u))) =
      (L.filter (fun u' => decide (S.map u' = S.map u) && decide (xs.map u' = vs))).map (fun u => (pre (S.map u), num (u y))) := by
    unfold armOf
    rw [List.filter_map, List.filter_filter]
    congr 1
    apply List.filter_congr
    intro u' hu'
    simp only [Function.comp_apply]
    congr 1
    rw [decide_eq_decide]
    exact ⟨fun h => hpre u' hu' u hu h, fun h => by rw [h]⟩
  have e2 : cell (dataOf xs S y num L) (S.map u) vs =
      (L.filter (fun u' => decide (S.map u' = S.map u) && decide (xs.map u' = vs))).map (fun u => ⟨S.map u, xs.map u, num (u y)⟩) := by
    unfold cell stratum dataOf
    rw [List.filter_map, List.filter_map, List.filter_filter]
    congr 1
    apply List.filter_congr
    intro u' _
    simp [Bool.and_comm]
  unfold cellMean
  rw [e1, e2, List.map_map, List.map_map, List.length_map, List.length_map]
  rfl

variable {V : Finset α} {E : α → α → Prop} {M : BayesNet (K := K) V E (fun _ => B)}

/-- **C147, one comparison**: `Why`, fitted on the population with exact base models, answers the causal effect for every (pair of) treatments for which adjustment
and covariates satisfy the back-door criterion, in every causal model of the diagram in which the compared values overlap with them. -/
theorem C147_effect (hac : Acyclic E) (hV : ∀ i, ∀ j ∈ V, E i j → i ∈ V) {O : Finset α} (hO : O ⊆ V) {L : List (α → B)} (hL : L ≠ [])
    (hpop : IsPopulation M O L) {treatment S : List α} {y : α} (hSn : S ≠ []) (hT : treatment.toFinset ⊆ O) (hS : S.toFinset ⊆ O) (hyO : y ∈ O)
    (num : B → K) {pre : List B → F} (hpre : ∀ u ∈ L, ∀ u' ∈ L, pre (S.map u) = pre (S.map u') → S.map u = S.map u')
    {fitM : List (F × K) → F → K} (hM : Averages fitM) (hc : ∀ xs ∈ WhyF.keys treatment, Crossed L xs) :
    ∃ st, fit fitM pre num treatment S y L = .ok st ∧ ∀ xs ∈ WhyF.keys treatment, BackDoor E {a | a ∈ xs} {a | a ∈ [y]} {a | a ∈ S} →
      ∀ v v' : α → B, M.Overlap xs.toFinset S.toFinset v → M.Overlap xs.toFinset S.toFinset v' → xs.map v ≠ xs.map v' →
      ∃ is js, Codes (classesOf L) xs (xs.map v) is ∧ Codes (classesOf L) xs (xs.map v') js ∧
      ∃ eff : List B → K, (∀ r, effect pre st xs r is js = .ok [eff r]) ∧ EffectIs M xs y S num L v v' eff := by
  obtain ⟨st, h1, h2⟩ := C147_fit fitM pre num hSn y hc
  refine ⟨st, h1, fun xs hxs hb v v' hov hov' hne => ?_⟩
  have hX : xs.toFinset ⊆ O := by
    intro a ha
    apply hT
    rw [List.mem_toFinset] at ha ⊢
    unfold WhyF.keys at hxs
    rcases List.mem_append.1 hxs with h | h
    · obtain ⟨x, hx, rfl⟩ := List.mem_map.1 h
      rw [List.mem_singleton.1 ha]
      exact hx
    · split at h
      · obtain ⟨p, hp, hp'⟩ := List.mem_filterMap.1 h
        obtain ⟨a', ha', hq⟩ := List.mem_flatMap.1 hp
        obtain ⟨b', hb', rfl⟩ := List.mem_map.1 hq
        split at hp'
        · cases hp'
          simp only [List.mem_cons, List.not_mem_nil, or_false] at ha
          rcases ha with rfl | rfl <;> assumption
        · cases hp'
      · cases h
  have hdisj : ∀ a ∈ S, a ∉ xs := fun a ha ha' => (hb.1 a ha).2 a ha' .refl
  obtain ⟨u0, hu0⟩ := List.exists_mem_of_ne_nil L hL
  have hcode : ∀ w : α → B, M.Overlap xs.toFinset S.toFinset w → Codes (classesOf L) xs (xs.map w) (xs.map (fun x => posOf L x (w x))) := by
    intro w hw
    obtain ⟨u', hu', -, hx⟩ := (overlap_sample hac hV hO hpop hX hS hdisj hw hu0).2
    have hobs : ∀ x ∈ xs, ∃ u ∈ L, u x = w x := fun x hx' => ⟨u', hu', List.map_inj_left.1 hx x hx'⟩
    refine ⟨?_, by simp, by simp⟩
    clear hxs hb hov hov' hne hX hdisj hw hx h2
    induction xs with
    | nil => exact .nil
    | cons x xs ih =>
      rw [List.map_cons, List.map_cons, List.zip_cons_cons]
      exact .cons (posOf_get (hobs x (by simp))) (ih (fun x hx => hobs x (List.mem_cons_of_mem _ hx)))
  refine ⟨_, _, hcode v hov, hcode v' hov', _, fun r => h2 xs hxs _ _ _ _ (hcode v hov) (hcode v' hov') hne r,
    effect_of_cells hac hV hO hL hpop hX hS hyO hb num hov hov' (fun u hu => ?_)⟩
  rw [averages_armOf hM hpre hu (overlap_sample hac hV hO hpop hX hS hdisj hov hu).2,
    averages_armOf hM hpre hu (overlap_sample hac hV hO hpop hX hS hdisj hov' hu).2]

end causal

theorem forall₂_mem_left {α β : Type} {R : α → β → Prop} : ∀ {l : List α} {m : List β}, List.Forall₂ R l m → ∀ {a}, a ∈ l → ∃ b ∈ m, R a b
  | _, _, .cons h1 h2, a, ha => by
    rcases List.mem_cons.1 ha with rfl | ha
    · exact ⟨_, by simp, h1⟩
    · obtain ⟨b, hb, h⟩ := forall₂_mem_left h2 ha
      exact ⟨b, List.mem_cons_of_mem _ hb, h⟩

theorem forall₂_mem_right {α β : Type} {R : α → β → Prop} : ∀ {l : List α} {m : List β}, List.Forall₂ R l m → ∀ {b}, b ∈ m → ∃ a ∈ l, R a b
  | _, _, .cons h1 h2, b, hb => by
    rcases List.mem_cons.1 hb with rfl | hb
    · exact ⟨_, by simp, h1⟩
    · obtain ⟨a, ha, h⟩ := forall₂_mem_right h2 hb
      exact ⟨a, List.mem_cons_of_mem _ ha, h⟩

/-- the estimates of the fitted object as a function of one row and two codes, as `Verif.Model.WhyEffect` uses them -/
def Answers {C V F K : Type} [DecidableEq C] [Ring K] (pre : List V → F) (st : Dict (List C) (Fitted F K)) (est : C → List V → ℕ → ℕ → K) : Prop :=
  ∀ x r t c k, effect pre st [x] r [t] [c] = .ok [k] → est x r t c = k

section causal
variable {α B : Type} [DecidableEq α] [LinearOrder B] [Fintype B] {F : Type} [DecidableEq F] {K : Type} [Field K] [LinearOrder K] [IsStrictOrderedRing K]
  {V : Finset α} {E : α → α → Prop} {M : BayesNet (K := K) V E (fun _ => B)} {I : Type}

theorem codes_one {L : List (α → B)} {x : α} {v : B} {is : List ℕ} (h : Codes (classesOf L) [x] [v] is) :
    is = [posOf L x v] ∧ (classesOf L x)[posOf L x v]? = some v := by
  obtain ⟨h1, h2⟩ := codes_observed h
  cases h1 with
  | cons h3 _ => exact ⟨h2, posOf_get h3⟩

theorem effects_of_rows {est : List B → K} {S : List α} {L : List (α → B)} {rows : List (WhyE.Row α B I (List B))}
    (hr : rows.map WhyE.Row.rest = L.map (fun u => S.map u)) : rows.map (fun r => est r.rest) = L.map (fun u => est (S.map u)) := by
  have : rows.map (fun r => est r.rest) = (rows.map WhyE.Row.rest).map est := by rw [List.map_map]; rfl
  rw [this, hr, List.map_map]
  rfl

/-- **C147, `causal_effect` with given arms**: one column per treatment, in the order of the treatments, named by the compared values; its entries are
the effects of the individuals, and their average is the average causal effect. -/
theorem C147_causal_effect (hac : Acyclic E) (hV : ∀ i, ∀ j ∈ V, E i j → i ∈ V) {O : Finset α} (hO : O ⊆ V) {L : List (α → B)} (hL : L ≠ [])
    (hpop : IsPopulation M O L) {treatment S : List α} {y : α} (htn : treatment ≠ []) (hSn : S ≠ []) (hT : treatment.toFinset ⊆ O) (hS : S.toFinset ⊆ O)
    (hyO : y ∈ O) (num : B → K) {pre : List B → F} (hpre : ∀ u ∈ L, ∀ u' ∈ L, pre (S.map u) = pre (S.map u') → S.map u = S.map u')
    {fitM : List (F × K) → F → K} (hM : Averages fitM) (hc : ∀ xs ∈ WhyF.keys treatment, Crossed L xs)
    (hb : ∀ x ∈ treatment, BackDoor E {a | a ∈ [x]} {a | a ∈ [y]} {a | a ∈ S}) {v v' : α → B}
    (hov : ∀ x ∈ treatment, M.Overlap [x].toFinset S.toFinset v) (hov' : ∀ x ∈ treatment, M.Overlap [x].toFinset S.toFinset v')
    (hne : ∀ x ∈ treatment, v x ≠ v' x) :
    ∃ st, fit fitM pre num treatment S y L = .ok st ∧ ∀ est, Answers pre st est → ∀ (rows : List (WhyE.Row α B I (List B))) (given : Bool),
      rows.map WhyE.Row.rest = L.map (fun u => S.map u) → ∃ eff : α → List B → K,
      WhyE.causalEffect est (classesOf L) none given treatment (some (treatment.map v)) (some (treatment.map v')) rows =
        .ok (treatment.map (fun x => ((x, v x, v' x), L.map (fun u => eff x (S.map u))))) ∧
      ∀ x ∈ treatment, EffectIs M [x] y S num L v v' (eff x) := by
  obtain ⟨st, h1, h2⟩ := C147_effect hac hV hO hL hpop hSn hT hS hyO num hpre hM hc
  refine ⟨st, h1, fun est hest rows given hr => ⟨fun x r => est x r (posOf L x (v x)) (posOf L x (v' x)), ?_, ?_⟩⟩
  · have key : ∀ w : α → B, (∀ x ∈ treatment, M.Overlap [x].toFinset S.toFinset w) → ∀ x ∈ treatment, (classesOf L x)[posOf L x (w x)]? = some (w x) := by
      intro w hw x hx
      obtain ⟨u0, hu0⟩ := List.exists_mem_of_ne_nil L hL
      have hdisj : ∀ a ∈ S, a ∉ [x] := fun a ha ha' => ((hb x hx).1 a ha).2 a ha' .refl
      have hX : [x].toFinset ⊆ O := fun a ha => hT (by rw [List.mem_toFinset] at ha ⊢; rw [List.mem_singleton.1 ha]; exact hx)
      obtain ⟨u', hu', -, hxu⟩ := (overlap_sample hac hV hO hpop hX hS hdisj (hw x hx) hu0).2
      exact posOf_get ⟨u', hu', by simpa using hxu⟩
    have arms : Why.permuteSeq (classesOf L) (some (treatment.map v)) (some (treatment.map v')) treatment =
        .ok (treatment.zip ((treatment.map (fun x => posOf L x (v x))).zip (treatment.map (fun x => posOf L x (v' x))))) := by
      have k : ∀ w : α → B, (∀ x ∈ treatment, (classesOf L x)[posOf L x (w x)]? = some (w x)) →
          List.Forall₂ (fun (x : α) (p : B × ℕ) => (classesOf L x)[p.2]? = some p.1) treatment ((treatment.map w).zip (treatment.map (fun x => posOf L x (w x)))) := by
        intro w hw
        clear * - hw
        induction treatment with
        | nil => exact .nil
        | cons x xs ih =>
          rw [List.map_cons, List.map_cons, List.zip_cons_cons]
          exact .cons (hw x (by simp)) (ih (fun x hx => hw x (List.mem_cons_of_mem _ hx)))
      exact C62_sequential_given (classesOf L) (classesOf_nodup L) (k v (key v hov)) (k v' (key v' hov'))
    have hz : treatment.zip ((treatment.map (fun x => posOf L x (v x))).zip (treatment.map (fun x => posOf L x (v' x)))) =
        treatment.map (fun x => (x, posOf L x (v x), posOf L x (v' x))) := by
      clear * -
      induction treatment with
      | nil => rfl
      | cons x xs ih => simp [ih]
    unfold WhyE.causalEffect
    rw [arms, hz]
    have he : (treatment.map (fun x => (x, posOf L x (v x), posOf L x (v' x)))).isEmpty = false := by
      cases treatment with
      | nil => exact absurd rfl htn
      | cons => rfl
    simp only [he, Bool.false_eq_true, if_false]
    rw [mapE_eq (g := fun a : α × ℕ × ℕ => ((a.1, v a.1, v' a.1), L.map (fun u => est a.1 (S.map u) a.2.1 a.2.2)))]
    · rw [List.map_map]
      rfl
    · intro a ha
      obtain ⟨x, hx, rfl⟩ := List.mem_map.1 ha
      simp only [WhyE.iteColumn, Why.uncode, key v hov x hx, key v' hov' x hx, WhyE.rowEffects]
      rw [effects_of_rows (est := fun r => est x r (posOf L x (v x)) (posOf L x (v' x))) hr]
  · intro x hx
    obtain ⟨is, js, c1, c2, eff, e1, e2⟩ := h2 [x] (single_mem_keys hx) (hb x hx) v v' (hov x hx) (hov' x hx) (by simpa using hne x hx)
    obtain ⟨rfl, -⟩ := codes_one c1
    obtain ⟨rfl, -⟩ := codes_one c2
    have : (fun r => est x r (posOf L x (v x)) (posOf L x (v' x))) = eff := by
      funext r
      exact hest x r _ _ _ (e1 r)
    simp only
    rw [this]
    exact e2

/-- **C147, `causal_effect` without arms**: for every treatment and every value of it except the smallest there is a column that compares this value with
the smallest one and holds the causal effects; there are no other columns. -/
theorem C147_causal_effect_default (hac : Acyclic E) (hV : ∀ i, ∀ j ∈ V, E i j → i ∈ V) {O : Finset α} (hO : O ⊆ V) {L : List (α → B)} (hL : L ≠ [])
    (hpop : IsPopulation M O L) {treatment S : List α} {y : α} (htn : treatment.Nodup) (hSn : S ≠ []) (hT : treatment.toFinset ⊆ O) (hS : S.toFinset ⊆ O)
    (hyO : y ∈ O) (num : B → K) {pre : List B → F} (hpre : ∀ u ∈ L, ∀ u' ∈ L, pre (S.map u) = pre (S.map u') → S.map u = S.map u')
    {fitM : List (F × K) → F → K} (hM : Averages fitM) (hc : ∀ xs ∈ WhyF.keys treatment, Crossed L xs)
    (hb : ∀ x ∈ treatment, BackDoor E {a | a ∈ [x]} {a | a ∈ [y]} {a | a ∈ S})
    (hov : ∀ x ∈ treatment, ∀ u ∈ L, M.Overlap [x].toFinset S.toFinset u) (htwo : ∃ x ∈ treatment, ∃ u ∈ L, ∃ u' ∈ L, u x ≠ u' x) :
    ∃ st, fit fitM pre num treatment S y L = .ok st ∧ ∀ est, Answers pre st est → ∀ (rows : List (WhyE.Row α B I (List B))) (given : Bool),
      rows.map WhyE.Row.rest = L.map (fun u => S.map u) → ∃ table, WhyE.causalEffect est (classesOf L) none given treatment none none rows = .ok table ∧
      (∀ x ∈ treatment, ∀ u ∈ L, ∀ u' ∈ L, (∀ w ∈ L, u' x ≤ w x) → u x ≠ u' x → ∃ eff : List B → K,
        ((x, u x, u' x), L.map (fun w => eff (S.map w))) ∈ table ∧ EffectIs M [x] y S num L u u' eff) ∧
      ∀ p ∈ table, p.1.1 ∈ treatment ∧ (∃ u ∈ L, u p.1.1 = p.1.2.1) ∧ (∃ u ∈ L, u p.1.1 = p.1.2.2) ∧ p.1.2.1 ≠ p.1.2.2 ∧ ∀ w ∈ L, p.1.2.2 ≤ w p.1.1 := by
  obtain ⟨st, h1, h2⟩ := C147_effect hac hV hO hL hpop hSn hT hS hyO num hpre hM hc
  refine ⟨st, h1, fun est hest rows given hr => ?_⟩
  obtain ⟨u0, hu0⟩ := List.exists_mem_of_ne_nil L hL
  have hcls : ∀ x ∈ treatment, classesOf L x ≠ [] := fun x _ => List.ne_nil_of_mem (mem_classesOf.2 ⟨u0, hu0, rfl⟩)
  obtain ⟨arms, ha, -, ham⟩ := C62_sequential_default (classesOf L) (classesOf_nodup L) htn hcls
  have hget : ∀ x t, t < (classesOf L x).length → ∃ u ∈ L, (classesOf L x)[t]? = some (u x) := by
    intro x t ht
    obtain ⟨u, hu, he⟩ := mem_classesOf.1 (List.getElem_mem ht)
    exact ⟨u, hu, by rw [List.getElem?_eq_getElem ht, he]⟩
  have hfirst : ∀ x, ∀ u ∈ L, (classesOf L x)[0]? = some (u x) ↔ ∀ w ∈ L, u x ≤ w x := by
    intro x u hu
    have hsort : (classesOf L x).Pairwise (· < ·) := uniq_sorted _
    cases hcl : classesOf L x with
    | nil =>
      have := mem_classesOf.2 ⟨u, hu, (rfl : u x = u x)⟩
      rw [hcl] at this
      cases this
    | cons b l =>
      have hmin : ∀ w ∈ L, b ≤ w x := by
        intro w hw
        have := mem_classesOf.2 ⟨w, hw, (rfl : w x = w x)⟩
        rw [hcl] at this hsort
        rcases List.mem_cons.1 this with e | e
        · exact e ▸ le_refl _
        · exact le_of_lt ((List.pairwise_cons.1 hsort).1 _ e)
      simp only [List.getElem?_cons_zero, Option.some.injEq]
      constructor
      · rintro rfl
        exact hmin
      · intro h
        obtain ⟨w, hw, he⟩ := mem_classesOf.1 (show b ∈ classesOf L x by rw [hcl]; simp)
        exact le_antisymm (hmin u hu) (he ▸ h w hw)
  have hne : arms.isEmpty = false := by
    rw [List.isEmpty_eq_false_iff_exists_mem]
    obtain ⟨x, hx, u, hu, u', hu', hd⟩ := htwo
    have e1 := posOf_get (L := L) ⟨u, hu, (rfl : u x = u x)⟩
    have e2 := posOf_get (L := L) ⟨u', hu', (rfl : u' x = u' x)⟩
    have hlt := (List.getElem?_eq_some_iff.1 e1).1
    have hlt' := (List.getElem?_eq_some_iff.1 e2).1
    by_cases h0 : posOf L x (u x) = 0
    · refine ⟨(x, posOf L x (u' x), 0), (ham _ _ _).2 ⟨hx, rfl, ?_, hlt'⟩⟩
      rw [Nat.pos_iff_ne_zero]
      intro h0'
      exact hd (posOf_inj ⟨u, hu, rfl⟩ ⟨u', hu', rfl⟩ (h0.trans h0'.symm))
    · exact ⟨(x, posOf L x (u x), 0), (ham _ _ _).2 ⟨hx, rfl, Nat.pos_of_ne_zero h0, hlt⟩⟩
  have hall : ∀ a ∈ arms, ∃ p, WhyE.iteColumn est (classesOf L) none given rows a.1 a.2.1 a.2.2 = .ok p := by
    rintro ⟨x, t, c⟩ hm
    obtain ⟨hx, rfl, h0, hlt⟩ := (ham _ _ _).1 hm
    obtain ⟨u, hu, e1⟩ := hget x t hlt
    obtain ⟨u', hu', e2⟩ := hget x 0 (by omega)
    refine ⟨((x, u x, u' x), rows.map (fun r => est x r.rest t 0)), ?_⟩
    simp only [WhyE.iteColumn, Why.uncode, e1, e2, WhyE.rowEffects]
  obtain ⟨table, htab⟩ := mapE_total hall
  have hforall := mapE_ok.1 htab
  refine ⟨table, ?_, ?_, ?_⟩
  · unfold WhyE.causalEffect
    rw [ha]
    simp only [hne, Bool.false_eq_true, if_false]
    exact htab
  · intro x hx u hu u' hu' hmin hd
    have e1 := posOf_get (L := L) ⟨u, hu, (rfl : u x = u x)⟩
    have e2 := posOf_get (L := L) ⟨u', hu', (rfl : u' x = u' x)⟩
    have hz : posOf L x (u' x) = 0 := (posOf_unique ((hfirst x u' hu').2 hmin)).symm
    have hmem : (x, posOf L x (u x), 0) ∈ arms := by
      refine (ham _ _ _).2 ⟨hx, rfl, ?_, (List.getElem?_eq_some_iff.1 e1).1⟩
      rw [Nat.pos_iff_ne_zero]
      intro h0
      exact hd (posOf_inj ⟨u, hu, rfl⟩ ⟨u', hu', rfl⟩ (h0.trans hz.symm))
    obtain ⟨is, js, c1, c2, eff, f1, f2⟩ := h2 [x] (single_mem_keys hx) (hb x hx) u u' (hov x hx u hu) (hov x hx u' hu') (by simpa using hd)
    obtain ⟨rfl, -⟩ := codes_one c1
    obtain ⟨rfl, -⟩ := codes_one c2
    refine ⟨eff, ?_, f2⟩
    obtain ⟨p, hp, hpe⟩ := forall₂_mem_left hforall hmem
    rw [hz] at e2 f1
    simp only [WhyE.iteColumn, Why.uncode, e1, e2, WhyE.rowEffects] at hpe
    rw [effects_of_rows (est := fun r => est x r (posOf L x (u x)) 0) hr, List.map_congr_left (fun w _ => hest x (S.map w) _ _ _ (f1 (S.map w)))] at hpe
    cases hpe
    exact hp
  · intro p hp
    obtain ⟨⟨x, t, c⟩, hm, hpe⟩ := forall₂_mem_right hforall hp
    obtain ⟨hx, rfl, h0, hlt⟩ := (ham _ _ _).1 hm
    obtain ⟨u, hu, e1⟩ := hget x t hlt
    obtain ⟨u', hu', e2⟩ := hget x 0 (by omega)
    simp only [WhyE.iteColumn, Why.uncode, e1, e2, WhyE.rowEffects] at hpe
    cases hpe
    refine ⟨hx, ⟨u, hu, rfl⟩, ⟨u', hu', rfl⟩, ?_, (hfirst x u' hu').1 e2⟩
    intro he
    replace he : u x = u' x := he
    have h1 := posOf_unique e1
    have h2 := posOf_unique e2
    rw [he, ← h2] at h1
    omega

end causal

/-- **C147 from a discovered graph**: when the learned matrix has the arrows of the diagram, `Why` with method `dfs` takes as covariates of a treatment that causes the outcome
without mediators a set with which it answers the causal effect (at least one covariate is needed, see `C147_no_columns`). -/
theorem C147_discovery {n : ℕ} {R : Type} [AddCommGroup R] [LinearOrder R] (W : Mat n R) (hac : Acyclic (PosEdge W)) {t y : Fin n} (hty : t ≠ y)
    (hcause : Reach (PosEdge W) t y) (hmed : ∀ m, m ≠ y → m ≠ t → Reach (PosEdge W) m y → ¬ Reach (PosEdge W) t m)
    {B : Type} [LinearOrder B] [Fintype B] {F : Type} [DecidableEq F] {K : Type} [Field K] [LinearOrder K] [IsStrictOrderedRing K] :
    ∃ cov, Why.ciDfs W id y [t] = .ok (cov, []) ∧ (cov ≠ [] → ∀ (M : BayesNet (K := K) Finset.univ (PosEdge W) (fun _ => B)) (L : List (Fin n → B)), L ≠ [] →
      IsPopulation M Finset.univ L → Crossed L [t] → ∀ (num : B → K) (pre : List B → F),
      (∀ u ∈ L, ∀ u' ∈ L, pre (cov.map u) = pre (cov.map u') → cov.map u = cov.map u') → ∀ fitM : List (F × K) → F → K, Averages fitM →
      ∃ st, fit fitM pre num [t] cov y L = .ok st ∧ ∀ v v' : Fin n → B, M.Overlap {t} cov.toFinset v → M.Overlap {t} cov.toFinset v' → v t ≠ v' t →
        ∃ i j, (classesOf L t)[i]? = some (v t) ∧ (classesOf L t)[j]? = some (v' t) ∧
        ∃ eff : List B → K, (∀ r, effect pre st [t] r [i] [j] = .ok [eff r]) ∧ EffectIs M [t] y cov num L v v' eff) := by
  obtain ⟨cov, h1, h2⟩ := C129_dfs W hac (names := id) (fun _ _ h => h) y [t] (by simpa using hty.symm) (by simpa using hcause)
  have hb := h2.2 (by
    rintro ⟨m, m1, m2, m3, t', ht', m4⟩
    rw [List.mem_singleton.1 ht'] at m4
    exact hmed m m1 (by simpa using m2) m3 m4)
  refine ⟨cov, h1, fun hcov M L hL hpop hc num pre hpre fitM hM => ?_⟩
  have hk : WhyF.keys [t] = [[t]] := rfl
  obtain ⟨st, h3, h4⟩ := C147_effect (M := M) hac (fun _ _ _ _ => Finset.mem_univ _) (Finset.Subset.refl _) hL hpop (treatment := [t]) hcov
    (Finset.subset_univ _) (Finset.subset_univ _) (Finset.mem_univ y) num hpre hM (by rw [hk]; simpa using hc)
  refine ⟨st, h3, fun v v' hov hov' hne => ?_⟩
  have hb' : BackDoor (PosEdge W) {a | a ∈ [t]} {a | a ∈ [y]} {a | a ∈ cov} := by simpa using hb
  obtain ⟨is, js, c1, c2, eff, e1, e2⟩ := h4 [t] (by rw [hk]; simp) hb' v v' (by simpa using hov) (by simpa using hov') (by simpa using hne)
  obtain ⟨rfl, g1⟩ := codes_one c1
  obtain ⟨rfl, g2⟩ := codes_one c2
  exact ⟨_, _, g1, g2, eff, e1, e2⟩

/-- **C147, the average**: what `causal_effect()` reports as the mean of a column is the average causal effect. -/
theorem C147_ate {α B : Type} [DecidableEq α] [LinearOrder B] [Fintype B] {V : Finset α} {E : α → α → Prop} {M : BayesNet (K := ℝ) V E (fun _ => B)}
    {xs S : List α} {y : α} {num : B → ℝ} {L : List (α → B)} (hL : L ≠ []) {v v' : α → B} {eff : List B → ℝ} (h : EffectIs M xs y S num L v v' eff) :
    ∃ s, WhyE.summary (L.map (fun u => eff (S.map u))) = .ok s ∧ s.mean = M.meanDo xs.toFinset y num v - M.meanDo xs.toFinset y num v' := by
  obtain ⟨s, h1, h2, -⟩ := C120_summary (L.map (fun u => eff (S.map u))) (by simpa using hL)
  refine ⟨s, h1, ?_⟩
  rw [h2, ← h.1, List.length_map]

section refused
variable {C V F K : Type} [DecidableEq C] [LinearOrder V]

theorem mapE_all {α β : Type} {f : α → Except Err β} {l : List α} {m : List β} (h : mapE f l = .ok m) : ∀ a ∈ l, ∃ b, f a = .ok b := by
  intro a ha
  obtain ⟨b, _, hb⟩ := forall₂_mem_left (mapE_ok.1 h) ha
  exact ⟨b, hb⟩

/-- **C147, refuted** for several treatments that are not fully crossed: `fit` trains estimators for every pair of treatments, whether or not combined effects are
ever asked for, and fails if some combination of observed values of two treatments does not occur in the data. -/
theorem C147_missing_combination_refuted (fitM : List (F × K) → F → K) (pre : List V → F) (out : V → K) {treatment : List C} (S : List C) (y : C)
    {L : List (C → V)} {a b : C} (ha : a ∈ treatment) (hb : b ∈ treatment) (hab : a ≠ b) {u u' : C → V} (hu : u ∈ L) (hu' : u' ∈ L)
    (hmiss : ∀ w ∈ L, w a = u a → w b ≠ u' b) : ∃ e, fit fitM pre out treatment S y L = .error e := by
  cases hf : fit fitM pre out treatment S y L with
  | error e => exact ⟨e, rfl⟩
  | ok st =>
    exfalso
    unfold fit at hf
    by_cases hS : S = []
    · rw [if_pos hS] at hf; cases hf
    · rw [if_neg hS] at hf
      obtain ⟨q, hq⟩ := mapE_all hf _ (pair_mem_keys ha hb hab)
      unfold fitKey at hq
      rw [trainRows_ok] at hq
      simp only at hq
      unfold fitPermuted at hq
      set rows := codedRows pre out S y [a, b] L with hrows
      cases hl : mapE (fitPair fitM [a, b].length rows) (pairs (product (treatsOf [a, b].length rows))) with
      | error e => rw [hl] at hq; cases hq
      | ok ls =>
        have hall := mapE_all hl
        set P := product (treatsOf [a, b].length rows) with hP
        have hmemP : ∀ {c : List ℕ}, c ∈ P ↔ ∃ vs, List.Forall₂ (fun v x => ∃ u ∈ L, u x = v) vs [a, b] ∧ c = encodeVals L [a, b] vs := by
          intro c
          rw [hP, hrows, treatsOf_coded, mem_treats]
        have o1 : List.Forall₂ (fun v x => ∃ u ∈ L, u x = v) [u a, u' b] [a, b] := .cons ⟨u, hu, rfl⟩ (.cons ⟨u', hu', rfl⟩ .nil)
        have o2 : List.Forall₂ (fun v x => ∃ u ∈ L, u x = v) [u a, u b] [a, b] := .cons ⟨u, hu, rfl⟩ (.cons ⟨u, hu, rfl⟩ .nil)
        have m1 := hmemP.2 ⟨_, o1, rfl⟩
        have m2 := hmemP.2 ⟨_, o2, rfl⟩
        have hne : encodeVals L [a, b] [u a, u' b] ≠ encodeVals L [a, b] [u a, u b] := by
          intro e
          have := encodeVals_inj o1 o2 e
          simp only [List.cons.injEq, and_true, true_and] at this
          exact hmiss u hu rfl this.symm
        have hno : ∀ r ∈ rows, r.x ≠ encodeVals L [a, b] [u a, u' b] := by
          intro r hr
          obtain ⟨w, hw, rfl⟩ := List.mem_map.1 hr
          intro e
          have := (row_eq_iff o1 hw).1 e
          simp only [List.map_cons, List.map_nil, List.cons.injEq, and_true] at this
          exact hmiss w hw this.1 this.2
        obtain ⟨i, hi, hia⟩ := List.mem_iff_getElem.1 m1
        obtain ⟨j, hj, hjb⟩ := List.mem_iff_getElem.1 m2
        have hij : i ≠ j := by
          rintro rfl
          exact hne (hia.symm.trans hjb)
        have gi : P[i]? = some (encodeVals L [a, b] [u a, u' b]) := List.getElem?_eq_some_iff.2 ⟨hi, hia⟩
        have gj : P[j]? = some (encodeVals L [a, b] [u a, u b]) := List.getElem?_eq_some_iff.2 ⟨hj, hjb⟩
        rcases Nat.lt_or_gt_of_ne hij with h | h
        · obtain ⟨s, hs⟩ := hall _ (mem_pairs.2 ⟨j, i, h, gj, gi⟩)
          obtain ⟨e, he⟩ := C39_unseen_control id fitM (d := [a, b].length) (by simp) (codedRows_width pre out S y [a, b] L) (by simp [encodeVals]) hno
            (some (.many (encodeVals L [a, b] [u a, u b])))
          unfold fitPair at hs
          rw [hrows] at hs
          simp only at hs
          rw [he] at hs
          cases hs
        · obtain ⟨s, hs⟩ := hall _ (mem_pairs.2 ⟨i, j, h, gi, gj⟩)
          obtain ⟨e, he⟩ := C39_unseen id fitM (d := [a, b].length) (by simp) (codedRows_width pre out S y [a, b] L) (by simp [encodeVals]) hno
            (some (.many (encodeVals L [a, b] [u a, u b])))
          unfold fitPair at hs
          rw [hrows] at hs
          simp only at hs
          rw [he] at hs
          cases hs

/-- **C147**: comparing a (combination of) values with itself raises an exception instead of answering zero. -/
theorem C147_same_arms_refuted [Ring K] (fitM : List (F × K) → F → K) (pre : List V → F) (out : V → K) {treatment S : List C} (hS : S ≠ []) (y : C)
    {L : List (C → V)} (hc : ∀ xs ∈ WhyF.keys treatment, Crossed L xs) :
    ∃ st, fit fitM pre out treatment S y L = .ok st ∧ ∀ xs ∈ WhyF.keys treatment, ∀ vs is, Codes (classesOf L) xs vs is → ∀ r,
      effect pre st xs r is is = .error .value := by
  obtain ⟨st, h1, -⟩ := C147_fit fitM pre out hS y hc
  refine ⟨st, h1, fun xs hxs vs is hco r => ?_⟩
  obtain ⟨o1, rfl⟩ := codes_observed hco
  have h1' := h1
  unfold fit at h1'
  rw [if_neg hS] at h1'
  have hdict : ∀ p ∈ st, p.1 ∈ WhyF.keys treatment ∧ fitKey fitM pre out S y L p.1 = .ok p := by
    intro p hp
    obtain ⟨k, hk, hkp⟩ := forall₂_mem_right (mapE_ok.1 h1') hp
    obtain ⟨f, hf, -⟩ := fitKey_ok fitM pre out S y (keys_ne_nil hk) (hc k hk)
    rw [hf] at hkp
    cases hkp
    exact ⟨hk, hf⟩
  obtain ⟨p, hp, hpk⟩ := forall₂_mem_left (mapE_ok.1 h1') hxs
  have hp1 : p.1 = xs := by
    obtain ⟨f, hf, -⟩ := fitKey_ok fitM pre out S y (keys_ne_nil hxs) (hc xs hxs)
    rw [hf] at hpk
    cases hpk
    rfl
  have hget : ∃ f, dget st xs = some f ∧ fitKey fitM pre out S y L xs = .ok (xs, f) := by
    unfold dget
    cases hfd : st.reverse.find? (fun e => decide (e.1 = xs)) with
    | none =>
      rw [List.find?_eq_none] at hfd
      exact absurd (by simpa using hp1) (hfd p (List.mem_reverse.2 hp))
    | some q =>
      have hq1 := List.find?_some hfd
      have hq2 := List.mem_reverse.1 (List.mem_of_find?_eq_some hfd)
      simp only [decide_eq_true_eq] at hq1
      have := (hdict q hq2).2
      refine ⟨q.2, rfl, ?_⟩
      rw [← hq1]
      exact this
  obtain ⟨f, hd, hf⟩ := hget
  unfold effect
  rw [hd]
  simp only
  unfold fitKey at hf
  rw [trainRows_ok] at hf
  simp only at hf
  unfold fitPermuted at hf
  cases hl : mapE (fitPair fitM xs.length (codedRows pre out S y xs L)) (pairs (product (treatsOf xs.length (codedRows pre out S y xs L)))) with
  | error e => rw [hl] at hf; cases hf
  | ok ls =>
    rw [hl] at hf
    cases hf
    have hmem : encodeVals L xs vs ∈ product (treatsOf xs.length (codedRows pre out S y xs L)) := by
      rw [treatsOf_coded]
      exact mem_treats.2 ⟨vs, o1, rfl⟩
    have hnd : (product (treatsOf xs.length (codedRows pre out S y xs L))).Nodup := product_nodup (fun l hl => by
      obtain ⟨j, _, rfl⟩ := List.mem_map.1 hl
      exact uniq_nodup _)
    have hnone : dget ls (encodeVals L xs vs, encodeVals L xs vs) = none := by
      unfold dget
      rw [Option.map_eq_none_iff, List.find?_eq_none]
      intro q hq
      obtain ⟨k, hk, hkq⟩ := forall₂_mem_right (mapE_ok.1 hl) (List.mem_reverse.1 hq)
      have : q.1 = k := by
        unfold fitPair at hkq
        cases ht : tFit fitM id xs.length none (codedRows pre out S y xs L) (some (.many k.1)) (some (.many k.2)) with
        | error e => rw [ht] at hkq; cases hkq
        | ok s => rw [ht] at hkq; cases hkq; rfl
      obtain ⟨k1, k2⟩ := k
      obtain ⟨i, j, hji, hi, hj⟩ := mem_pairs.1 hk
      simp only [decide_eq_true_eq]
      intro he
      rw [this] at he
      cases he
      obtain ⟨h3, h4⟩ := List.getElem?_eq_some_iff.1 hi
      obtain ⟨h5, h6⟩ := List.getElem?_eq_some_iff.1 hj
      have := hnd.getElem_inj_iff.1 (h4.trans h6.symm)
      omega
    unfold estPermuted estimate
    rw [resolve_argFor hmem (Or.inl rfl), resolve_argFor hmem (Or.inl rfl)]
    simp only [getLearner, hnone]

/-- **C147**: without adjustment and covariate columns `fit` raises `AssertionError`. -/
theorem C147_no_columns (fitM : List (F × K) → F → K) (pre : List V → F) (out : V → K) (treatment : List C) (y : C) (L : List (C → V)) :
    fit fitM pre out treatment [] y L = .error .assertion := rfl

end refused

/-- non-vacuity: a confounded diagram `0 → 1, 0 → 2, 1 → 2`, a model of it with overlap and a population that meets the conditions of `C147_effect` -/
theorem whyfit_example : ∃ L : List (Fin 3 → Bool), L ≠ [] ∧ IsPopulation (fairCoins Finset.univ (fun i j : Fin 3 => i < j)) Finset.univ L ∧
    Acyclic (fun i j : Fin 3 => i < j) ∧ BackDoor (fun i j : Fin 3 => i < j) {a | a ∈ [1]} {a | a ∈ [2]} {a | a ∈ [0]} ∧
    (∀ xs ∈ WhyF.keys [(1 : Fin 3)], Crossed L xs) ∧
    ∀ v, (fairCoins Finset.univ (fun i j : Fin 3 => i < j)).Overlap [1].toFinset [0].toFinset v := by
  have hlt : ∀ a b : Fin 3, Relation.TransGen (fun i j : Fin 3 => i < j) a b → a < b := by
    intro a b h
    induction h with
    | single h => exact h
    | tail _ h ih => exact lt_trans ih h
  have hac : Acyclic (fun i j : Fin 3 => i < j) := fun i hi => lt_irrefl _ (hlt i i hi)
  have hpos : (fairCoins Finset.univ (fun i j : Fin 3 => i < j)).Positive := fun _ _ _ => by norm_num [fairCoins]
  obtain ⟨L, h1, h2, h3⟩ := C142_population_exists (fairCoins Finset.univ (fun i j : Fin 3 => i < j)) hac (fun _ _ _ _ => Finset.mem_univ _)
    (Finset.Subset.refl _) (fun _ => false)
  refine ⟨L, h1, h2, hac, ?_, ?_, fun v u _ _ => (hpos.P_pos _ _).ne'⟩
  · refine parents_backdoor hac (by simp) ?_ ?_
    · intro x hx u hu _
      simp only [List.mem_singleton, Set.mem_setOf_eq] at hx ⊢
      subst hx
      omega
    · intro s hs
      simp only [List.mem_singleton, Set.mem_setOf_eq] at hs ⊢
      subst hs
      refine ⟨by decide, ?_⟩
      rintro x rfl h
      rcases Relation.reflTransGen_iff_eq_or_transGen.1 h with h | h
      · exact absurd h (by decide)
      · exact absurd (hlt _ _ h) (by decide)
  · intro xs hxs
    have : xs = [1] := by simpa [WhyF.keys] using hxs
    subst this
    intro vs hvs
    cases hvs with
    | cons hb hr => cases hr with
      | nil =>
        rename_i b
        have := h3 {1} (by simp) (fun _ => b) (hpos.P_pos _ _).ne'
        unfold cnt at this
        refine le_trans this (le_of_eq ?_)
        congr 1
        funext u
        simp

/-- the average of the effects of `Why` on the confounded population: 0 with adjustment, the true effect -/
example : ((fit meanModel id (fun b => if b then (1 : ℚ) else 0) [(1 : Fin 3)] [0] 2 confounded).toOption.map (fun st =>
    confounded.map (fun u => (effect id st [1] ([0].map u) [1] [0]).toOption))) = some (List.replicate 12 (some [0])) := by decide +kernel

end YL.Props
