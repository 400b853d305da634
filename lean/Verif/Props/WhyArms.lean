import Verif.Props.Why
import Mathlib.Data.List.Nodup
import Mathlib.Data.List.Forall2

/-!
# C62 - C65: the comparisons `Why` makes, counterfactual predictions, the target outcome and refitting
-/

set_option linter.unusedSectionVars false

namespace YL.Props

open YL Why

section
variable {C V : Type} [DecidableEq C] [DecidableEq V]

/-! ### C62 -/

theorem mapE_eq {α β : Type} {f : α → Except Err β} {g : α → β} : ∀ {l : List α}, (∀ a ∈ l, f a = .ok (g a)) → Meta.mapE f l = .ok (l.map g)
  | [], _ => rfl
  | a :: l, h => by
    simp only [Meta.mapE, h a (by simp), mapE_eq (fun b hb => h b (List.mem_cons_of_mem _ hb)), List.map_cons]

theorem code_nodup {classes : List V} (hn : classes.Nodup) {v : V} {i : Nat} : Why.code classes v = .ok i ↔ classes[i]? = some v := by
  refine ⟨code_ok_iff classes v i, fun h => ?_⟩
  obtain ⟨hi, rfl⟩ := List.getElem?_eq_some_iff.1 h
  exact code_getElem hn i hi

theorem findIdx_spec {classes : List V} {v : V} (h : v ∈ classes) : classes[classes.findIdx (fun u => decide (u = v))]? = some v := by
  have hlt : classes.findIdx (fun u => decide (u = v)) < classes.length := List.findIdx_lt_length_of_exists ⟨v, h, by simp⟩
  have := List.findIdx_getElem (w := hlt)
  simp only [decide_eq_true_eq] at this
  rw [List.getElem?_eq_getElem hlt, this]

theorem seqOne_given {classes : List V} (hn : classes.Nodup) {v w : V} {i j : Nat} (hv : classes[i]? = some v) (hw : classes[j]? = some w) :
    seqOne classes (some [v]) w = .ok [(i, j)] := by
  have : w ∈ classes := by obtain ⟨h, rfl⟩ := List.getElem?_eq_some_iff.1 hw; exact List.getElem_mem h
  simp [seqOne, this, Meta.mapE, (code_nodup hn).2 hv, (code_nodup hn).2 hw]

theorem seqOne_default {classes : List V} (hn : classes.Nodup) {w : V} {j : Nat} (hw : classes[j]? = some w) :
    ∃ l, seqOne classes none w = .ok l ∧ l.Nodup ∧ ∀ t c, (t, c) ∈ l ↔ c = j ∧ t < classes.length ∧ t ≠ j := by
  have hwm : w ∈ classes := by obtain ⟨h, rfl⟩ := List.getElem?_eq_some_iff.1 hw; exact List.getElem_mem h
  have hall : ∀ v ∈ classes.filter (fun v => decide (v ≠ w)), ∃ i, Why.code classes v = .ok i ∧ classes[i]? = some v := by
    intro v hv
    obtain ⟨i, hi, _⟩ := code_known (List.mem_filter.1 hv).1
    exact ⟨i, hi, code_ok_iff _ _ _ hi⟩
  refine ⟨(classes.filter (fun v => decide (v ≠ w))).map (fun v => (classes.findIdx (fun u => decide (u = v)), j)), ?_, ?_, ?_⟩
  · simp only [seqOne, hwm, if_true, Option.getD_none]
    apply mapE_eq
    intro v hv
    obtain ⟨i, hi, hiv⟩ := hall v hv
    rw [hi, (code_nodup hn).2 hw]
    simp only [Except.ok.injEq, Prod.mk.injEq, and_true]
    unfold Why.code at hi
    cases hf : classes.findIdx? (fun u => decide (u = v)) with
    | none => rw [hf] at hi; simp at hi
    | some k =>
      rw [hf] at hi
      simp only [Except.ok.injEq] at hi
      rw [← hi, (List.findIdx?_eq_some_iff_findIdx_eq.1 hf).2]
  · apply (hn.filter _).map_on
    intro a ha b hb hab
    simp only [Prod.mk.injEq, and_true] at hab
    have ea := findIdx_spec (List.mem_filter.1 ha).1
    have eb := findIdx_spec (List.mem_filter.1 hb).1
    rw [hab, eb, Option.some.injEq] at ea
    exact ea.symm
  · intro t c
    simp only [List.mem_map, List.mem_filter, decide_eq_true_eq, Prod.mk.injEq]
    constructor
    · rintro ⟨v, ⟨hv, hne⟩, rfl, rfl⟩
      have ev := findIdx_spec hv
      refine ⟨rfl, (List.getElem?_eq_some_iff.1 ev).1, ?_⟩
      intro he
      rw [he, hw, Option.some.injEq] at ev
      exact hne ev.symm
    · rintro ⟨rfl, ht, hne⟩
      refine ⟨classes[t], ⟨List.getElem_mem ht, ?_⟩, ?_, rfl⟩
      · intro he
        obtain ⟨hj, hw'⟩ := List.getElem?_eq_some_iff.1 hw
        rw [← hw'] at he
        exact hne (hn.getElem_inj_iff.1 he)
      · obtain ⟨h1, h2⟩ := List.getElem?_eq_some_iff.1 (findIdx_spec (List.getElem_mem ht))
        exact hn.getElem_inj_iff.1 h2

/-- **C62**, all comparisons with given controls: `cs` are the controls, one per treatment. Each treatment is compared, in every of its
other classes exactly once, with its control. Codes are positions in `classes_`. -/
theorem C62_sequential (classes : C → List V) (hn : ∀ x, (classes x).Nodup) : ∀ {xs : List C} {cs : List V} (_ : xs.Nodup)
    (_ : List.Forall₂ (fun x c => c ∈ classes x) xs cs),
    ∃ arms, permuteSeq classes none (some cs) xs = .ok arms ∧ arms.Nodup ∧
      ∀ x t c, (x, t, c) ∈ arms ↔ t < (classes x).length ∧ t ≠ c ∧ ∃ v, (x, v) ∈ xs.zip cs ∧ (classes x)[c]? = some v
  | [], _, _, .nil => ⟨[], rfl, by simp, by simp⟩
  | x :: xs, _, hx, .cons (b := v) (l₂ := cs) hv h => by
    obtain ⟨j, hj⟩ := List.mem_iff_getElem?.1 hv
    obtain ⟨l, hl, hln, hlm⟩ := seqOne_default (hn x) hj
    obtain ⟨r, hr, hrn, hrm⟩ := C62_sequential classes hn (List.nodup_cons.1 hx).2 h
    refine ⟨l.map (fun p => (x, p.1, p.2)) ++ r, ?_, ?_, ?_⟩
    · simp only [permuteSeq, hl, Option.map_none, Option.map_some, List.tail_cons, hr]
    · rw [List.nodup_append]
      refine ⟨hln.map (fun a b h => by simpa [Prod.ext_iff] using h), hrn, ?_⟩
      rintro ⟨x₁, t₁, c₁⟩ h₁ ⟨x₂, t₂, c₂⟩ h₂ he
      cases he
      obtain ⟨p, _, hp⟩ := List.mem_map.1 h₁
      simp only [Prod.mk.injEq] at hp
      obtain ⟨_, _, w, hw, _⟩ := (hrm _ _ _).1 h₂
      rw [← hp.1] at hw
      exact (List.nodup_cons.1 hx).1 (List.of_mem_zip hw).1
    · intro y t c
      rw [List.mem_append, List.mem_map, hrm]
      constructor
      · rintro (⟨p, hp, he⟩ | ⟨h1, h2, w, hw, hc⟩)
        · obtain ⟨t', c'⟩ := p
          simp only [Prod.mk.injEq] at he
          obtain ⟨rfl, rfl, rfl⟩ := he
          obtain ⟨rfl, h2, h3⟩ := (hlm _ _).1 hp
          exact ⟨h2, h3, v, by simp, hj⟩
        · exact ⟨h1, h2, w, by simp [hw], hc⟩
      · rintro ⟨h1, h2, w, hw, hc⟩
        simp only [List.zip_cons_cons, List.mem_cons, Prod.mk.injEq] at hw
        rcases hw with ⟨rfl, rfl⟩ | hw
        · left
          refine ⟨(t, c), (hlm _ _).2 ⟨?_, h1, ?_⟩, rfl⟩
          · obtain ⟨h3, h4⟩ := List.getElem?_eq_some_iff.1 hj
            obtain ⟨h5, h6⟩ := List.getElem?_eq_some_iff.1 hc
            exact (hn y).getElem_inj_iff.1 (h6.trans h4.symm)
          · rintro rfl
            obtain ⟨h3, h4⟩ := List.getElem?_eq_some_iff.1 hj
            obtain ⟨h5, h6⟩ := List.getElem?_eq_some_iff.1 hc
            exact h2 ((hn y).getElem_inj_iff.1 (h4.trans h6.symm))
        · exact .inr ⟨h1, h2, w, hw, hc⟩

theorem permuteSeq_none (classes : C → List V) (treat : Option (List V)) : ∀ {xs : List C} (_ : ∀ x ∈ xs, classes x ≠ []),
    permuteSeq classes treat none xs = permuteSeq classes treat (some (xs.filterMap (fun x => (classes x).head?))) xs
  | [], _ => rfl
  | x :: xs, h => by
    obtain ⟨v, vs, hv⟩ := List.exists_cons_of_ne_nil (h x (by simp))
    have := permuteSeq_none classes (treat.map List.tail) (xs := xs) (fun y hy => h y (List.mem_cons_of_mem _ hy))
    simp only [permuteSeq, hv, List.head?_cons, Option.map_none, Option.map_some, this, List.filterMap_cons_some (f := fun x => (classes x).head?) (show (classes x).head? = some v by rw [hv]; rfl), List.tail_cons]

/-- **C62**, without arguments every treatment is compared, in every of its other classes exactly once, with its first class. -/
theorem C62_sequential_default (classes : C → List V) (hn : ∀ x, (classes x).Nodup) {xs : List C} (hx : xs.Nodup)
    (hne : ∀ x ∈ xs, classes x ≠ []) :
    ∃ arms, permuteSeq classes none none xs = .ok arms ∧ arms.Nodup ∧
      ∀ x t c, (x, t, c) ∈ arms ↔ x ∈ xs ∧ c = 0 ∧ 0 < t ∧ t < (classes x).length := by
  have hf : List.Forall₂ (fun x c => c ∈ classes x) xs (xs.filterMap (fun x => (classes x).head?)) := by
    clear hx
    induction xs with
    | nil => exact .nil
    | cons x xs ih =>
      obtain ⟨v, vs, hv⟩ := List.exists_cons_of_ne_nil (hne x (by simp))
      rw [List.filterMap_cons_some (f := fun x => (classes x).head?) (show (classes x).head? = some v by rw [hv]; rfl)]
      exact .cons (by rw [hv]; simp) (ih (fun y hy => hne y (List.mem_cons_of_mem _ hy)))
  obtain ⟨arms, h1, h2, h3⟩ := C62_sequential classes hn hx hf
  refine ⟨arms, by rw [permuteSeq_none classes none hne, h1], h2, ?_⟩
  have hz : ∀ x v, (x, v) ∈ xs.zip (xs.filterMap (fun x => (classes x).head?)) ↔ x ∈ xs ∧ (classes x).head? = some v := by
    clear hx hf h1 h3
    induction xs with
    | nil => simp
    | cons y ys ih =>
      obtain ⟨w, vs, hv⟩ := List.exists_cons_of_ne_nil (hne y (by simp))
      intro x v
      rw [List.filterMap_cons_some (f := fun x => (classes x).head?) (show (classes y).head? = some w by rw [hv]; rfl), List.zip_cons_cons, List.mem_cons,
        ih (fun y hy => hne y (List.mem_cons_of_mem _ hy)), List.mem_cons, Prod.mk.injEq]
      constructor
      · rintro (⟨rfl, rfl⟩ | ⟨h, h'⟩)
        · exact ⟨.inl rfl, by rw [hv]; rfl⟩
        · exact ⟨.inr h, h'⟩
      · rintro ⟨rfl | h, h'⟩
        · left
          rw [hv] at h'
          exact ⟨rfl, by simpa using h'.symm⟩
        · exact .inr ⟨h, h'⟩
  intro x t c
  rw [h3]
  constructor
  · rintro ⟨ht, hne', v, hv, hc⟩
    rw [hz] at hv
    rw [List.head?_eq_getElem?] at hv
    have : c = 0 := by
      obtain ⟨h5, h6⟩ := List.getElem?_eq_some_iff.1 hc
      obtain ⟨h7, h8⟩ := List.getElem?_eq_some_iff.1 hv.2
      exact (hn x).getElem_inj_iff.1 (h6.trans h8.symm)
    subst this
    exact ⟨hv.1, rfl, by omega, ht⟩
  · rintro ⟨hx', rfl, h4, h5⟩
    refine ⟨h5, by omega, (classes x)[0], (hz _ _).2 ⟨hx', ?_⟩, List.getElem?_eq_getElem _⟩
    rw [List.head?_eq_getElem?, List.getElem?_eq_getElem]

/-- **C62**, a given treat and control value per treatment: exactly one comparison per treatment, in the order of the treatments -
also if treat and control are the same -/
theorem C62_sequential_given (classes : C → List V) (hn : ∀ x, (classes x).Nodup) : ∀ {xs : List C} {ts cs : List V} {is js : List Nat}
    (_ : List.Forall₂ (fun (x : C) (p : V × Nat) => (classes x)[p.2]? = some p.1) xs (ts.zip is))
    (_ : List.Forall₂ (fun (x : C) (p : V × Nat) => (classes x)[p.2]? = some p.1) xs (cs.zip js)),
    permuteSeq classes (some ts) (some cs) xs = .ok (xs.zip (is.zip js))
  | [], _, _, _, _, _, _ => by simp [permuteSeq]
  | x :: xs, [], _, _, _, h, _ => by simp at h
  | x :: xs, t :: ts, [], _, _, _, h => by simp at h
  | x :: xs, t :: ts, c :: cs, [], _, h, _ => by simp at h
  | x :: xs, t :: ts, c :: cs, i :: is, [], _, h => by simp at h
  | x :: xs, t :: ts, c :: cs, i :: is, j :: js, h, h' => by
    rw [List.zip_cons_cons] at h h'
    cases h with
    | cons h1 h2 => cases h' with
      | cons h3 h4 =>
        have := C62_sequential_given classes hn h2 h4
        simp only [permuteSeq, seqOne_given (hn x) h1 h3, Option.map_some, List.tail_cons, this, List.map_cons, List.map_nil,
          List.zip_cons_cons, List.cons_append, List.nil_append]

/-- **C62**, a control that is no class of its treatment is refused -/
theorem C62_control_refused (classes : C → List V) (treat : Option (List V)) (x : C) (xs : List C) (v : V) (vs : List V) (h : v ∉ classes x) :
    permuteSeq classes treat (some (v :: vs)) (x :: xs) = .error .assertion := by
  simp [permuteSeq, seqOne, h]

theorem encodeAll_ok {classes : List (List V)} (hn : ∀ c ∈ classes, c.Nodup) {vs : List V} {is : List Nat} :
    encodeAll classes vs = .ok is ↔ decodeAll classes is = some vs := by
  induction classes generalizing vs is with
  | nil =>
    cases vs <;> cases is <;> simp [encodeAll, decodeAll]
  | cons c cs ih =>
    cases vs with
    | nil =>
      cases is with
      | nil => simp [encodeAll, decodeAll]
      | cons i is =>
        simp only [encodeAll, reduceCtorEq, decodeAll, false_iff]
        split <;> simp
    | cons v vs =>
      cases is with
      | nil =>
        simp only [encodeAll, decodeAll, reduceCtorEq, iff_false]
        split <;> simp
      | cons i is =>
        have ih' := @ih (fun c hc => hn c (List.mem_cons_of_mem _ hc)) vs is
        have hc := @code_nodup _ _ c (hn c (by simp)) v i
        simp only [encodeAll, decodeAll]
        constructor
        · intro h
          split at h
          · simp at h
          · simp at h
          · rename_i a r ha hr
            simp only [Except.ok.injEq, List.cons.injEq] at h
            obtain ⟨rfl, rfl⟩ := h
            rw [hc.1 ha, ih'.1 hr]
        · intro h
          split at h
          · rename_i w r hw hr
            simp only [Option.some.injEq, List.cons.injEq] at h
            obtain ⟨rfl, rfl⟩ := h
            rw [hc.2 hw, ih'.2 hr]
          · simp at h

theorem mem_prod {classes : List (List V)} {vs : List V} : vs ∈ prod classes ↔ List.Forall₂ (fun v c => v ∈ c) vs classes := by
  induction classes generalizing vs with
  | nil => simp [prod]
  | cons c cs ih =>
    simp only [prod, List.mem_flatMap, List.mem_map, ih]
    constructor
    · rintro ⟨v, hv, r, hr, rfl⟩
      exact .cons hv hr
    · rintro (_ | ⟨hv, hr⟩)
      exact ⟨_, hv, _, hr, rfl⟩

theorem prod_nodup {classes : List (List V)} (hn : ∀ c ∈ classes, c.Nodup) : (prod classes).Nodup := by
  induction classes with
  | nil => simp [prod]
  | cons c cs ih =>
    simp only [prod]
    rw [List.nodup_flatMap]
    refine ⟨fun v _ => (ih (fun c hc => hn c (List.mem_cons_of_mem _ hc))).map (fun a b h => by simpa using h), ?_⟩
    apply (hn c (by simp)).imp
    intro a b hab
    rw [Function.onFun, List.disjoint_left]
    intro l h1 h2
    obtain ⟨r, _, rfl⟩ := List.mem_map.1 h1
    obtain ⟨r', _, h⟩ := List.mem_map.1 h2
    simp only [List.cons.injEq] at h
    exact hab h.1.symm

theorem decodeAll_some {classes : List (List V)} {is : List Nat} :
    (∃ vs, decodeAll classes is = some vs) ↔ List.Forall₂ (fun (i : Nat) (c : List V) => i < c.length) is classes := by
  induction classes generalizing is with
  | nil => cases is <;> simp [decodeAll]
  | cons c cs ih =>
    cases is with
    | nil => simp [decodeAll]
    | cons i is =>
      rw [List.forall₂_cons, ← ih]
      simp only [decodeAll]
      constructor
      · rintro ⟨vs, h⟩
        split at h
        · rename_i v r hv hr
          exact ⟨(List.getElem?_eq_some_iff.1 hv).1, _, hr⟩
        · simp at h
      · rintro ⟨hi, r, hr⟩
        exact ⟨_, by rw [List.getElem?_eq_getElem hi, hr]⟩

theorem decodeAll_mem {classes : List (List V)} {is : List Nat} {vs : List V} (h : decodeAll classes is = some vs) :
    List.Forall₂ (fun v c => v ∈ c) vs classes := by
  induction classes generalizing is vs with
  | nil =>
    cases is with
    | nil => simp only [decodeAll, Option.some.injEq] at h; subst h; exact .nil
    | cons i is => simp [decodeAll] at h
  | cons c cs ih =>
    cases is with
    | nil => simp [decodeAll] at h
    | cons i is =>
      simp only [decodeAll] at h
      split at h
      · rename_i v r hv hr
        simp only [Option.some.injEq] at h
        subst h
        refine .cons ?_ (ih hr)
        obtain ⟨hi, rfl⟩ := List.getElem?_eq_some_iff.1 hv
        exact List.getElem_mem hi
      · simp at h

theorem encodeAll_known {classes : List (List V)} {vs : List V} (h : List.Forall₂ (fun v c => v ∈ c) vs classes) : ∃ is, encodeAll classes vs = .ok is := by
  induction h with
  | nil => exact ⟨[], rfl⟩
  | cons hv _ ih =>
    obtain ⟨i, hi, _⟩ := code_known hv
    obtain ⟨is, his⟩ := ih
    exact ⟨i :: is, by simp [encodeAll, hi, his]⟩

/-- **C62**, combined treatments with a given control: every combination of classes other than the control is compared with it exactly
once. -/
theorem C62_combined {classes : List (List V)} (hne : classes ≠ []) (hn : ∀ c ∈ classes, c.Nodup) {control : List V} {ce : List Nat}
    (hc : decodeAll classes ce = some control) :
    ∃ arms, permuteCombined classes none (some control) = .ok arms ∧ arms.Nodup ∧
      ∀ t c, (t, c) ∈ arms ↔ c = ce ∧ t ≠ ce ∧ List.Forall₂ (fun (i : Nat) (c : List V) => i < c.length) t classes := by
  have hall : ∀ vs ∈ prod classes, ∃ is, encodeAll classes vs = .ok is := fun vs h => encodeAll_known (mem_prod.1 h)
  obtain ⟨ts, hts⟩ := mapE_total hall
  have hf := mapE_ok.1 hts
  have hnd : ts.Nodup := by
    have hp := prod_nodup hn
    clear hts hall
    revert hp
    generalize prod classes = l at hf
    induction hf with
    | nil => simp
    | cons h1 h2 ih =>
      intro hp
      rw [List.nodup_cons] at hp ⊢
      refine ⟨?_, ih hp.2⟩
      intro hm
      rename_i a b l₁ l₂
      obtain ⟨a', ha', hb'⟩ : ∃ a' ∈ l₁, encodeAll classes a' = .ok b := by
        clear ih hp
        induction h2 with
        | nil => simp at hm
        | cons h3 _ ih =>
          rcases List.mem_cons.1 hm with rfl | hm
          · exact ⟨_, by simp, h3⟩
          · obtain ⟨a', h4, h5⟩ := ih hm
            exact ⟨a', by simp [h4], h5⟩
      have e1 := (encodeAll_ok hn).1 h1
      have e2 := (encodeAll_ok hn).1 hb'
      rw [e1, Option.some.injEq] at e2
      subst e2
      exact hp.1 ha'
  refine ⟨(ts.filter (fun t => decide (t ≠ ce))).map (fun t => (t, ce)), ?_, ?_, ?_⟩
  · simp only [permuteCombined, if_neg hne, (encodeAll_ok hn).2 hc, hts]
  · exact (hnd.filter _).map (fun a b h => by simpa using h)
  · intro t c
    simp only [List.mem_map, List.mem_filter, decide_eq_true_eq, Prod.mk.injEq]
    have hmem : t ∈ ts ↔ List.Forall₂ (fun (i : Nat) (c : List V) => i < c.length) t classes := by
      rw [← decodeAll_some]
      constructor
      · intro h
        obtain ⟨i, hi⟩ := List.mem_iff_getElem?.1 h
        obtain ⟨hil, hie⟩ := List.getElem?_eq_some_iff.1 hi
        have hil' : i < (prod classes).length := by rw [hf.length_eq]; exact hil
        have := (List.forall₂_iff_get.1 hf).2 i hil' hil
        simp only [List.get_eq_getElem] at this
        rw [hie] at this
        exact ⟨_, (encodeAll_ok hn).1 this⟩
      · rintro ⟨vs, h⟩
        have hp := mem_prod.2 (decodeAll_mem h)
        obtain ⟨i, hi, hie⟩ := List.mem_iff_getElem.1 hp
        have hil : i < ts.length := by rw [← hf.length_eq]; exact hi
        have := (List.forall₂_iff_get.1 hf).2 i hi hil
        simp only [List.get_eq_getElem] at this
        rw [hie, (encodeAll_ok hn).2 h, Except.ok.injEq] at this
        rw [this]
        exact List.getElem_mem hil
    constructor
    · rintro ⟨t', ⟨h1, h2⟩, rfl, rfl⟩
      exact ⟨rfl, h2, hmem.1 h1⟩
    · rintro ⟨rfl, h2, h3⟩
      exact ⟨t, ⟨hmem.2 h3, h2⟩, rfl, rfl⟩

/-- **C62**, the default control of a combined comparison is the combination of the first classes -/
theorem C62_combined_default {classes : List (List V)} (hne : classes ≠ []) (hn : ∀ c ∈ classes, c.Nodup) (hne' : ∀ c ∈ classes, c ≠ []) :
    ∃ arms, permuteCombined classes none none = .ok arms ∧ arms.Nodup ∧
      ∀ t c, (t, c) ∈ arms ↔ c = classes.map (fun _ => 0) ∧ t ≠ c ∧ List.Forall₂ (fun (i : Nat) (c : List V) => i < c.length) t classes := by
  have h : ∃ control, Meta.mapE firstClass classes = .ok control ∧ decodeAll classes (classes.map (fun _ => 0)) = some control := by
    clear hne hn
    induction classes with
    | nil => exact ⟨[], rfl, rfl⟩
    | cons c cs ih =>
      obtain ⟨r, h1, h2⟩ := ih (fun c hc => hne' c (List.mem_cons_of_mem _ hc))
      obtain ⟨v, vs, rfl⟩ := List.exists_cons_of_ne_nil (hne' c (by simp))
      exact ⟨v :: r, by simp [Meta.mapE, firstClass, h1], by simp only [List.map_cons, decodeAll, List.getElem?_cons_zero, h2]⟩
  obtain ⟨control, h1, h2⟩ := h
  obtain ⟨arms, h3, h4, h5⟩ := C62_combined hne hn h2
  refine ⟨arms, ?_, h4, ?_⟩
  · rw [← h3]
    simp only [permuteCombined, h1]
  · intro t c
    rw [h5]
    constructor
    · rintro ⟨rfl, b, c⟩; exact ⟨rfl, b, c⟩
    · rintro ⟨rfl, b, c⟩; exact ⟨rfl, b, c⟩

/-- **C62**, `Why` has an estimator for every single treatment and, for discrete treatments, for every ordered pair of different
treatments, and for nothing else: a third combined treatment raises `KeyError`. -/
theorem C62_estimators (discrete : Bool) {treatment : List C} (hn : treatment.Nodup) (key : List C) :
    (getKey discrete treatment key = .ok key ∨ getKey discrete treatment key = .error .key) ∧
    (getKey discrete treatment key = .ok key ↔ key.Nodup ∧ (∀ x ∈ key, x ∈ treatment) ∧
      (key.length = 1 ∨ key.length = 2 ∧ discrete = true)) := by
  have hiff : key ∈ estimatorKeys discrete treatment ↔ key.Nodup ∧ (∀ x ∈ key, x ∈ treatment) ∧
      (key.length = 1 ∨ key.length = 2 ∧ discrete = true) := by
    unfold estimatorKeys
    rw [List.mem_append, List.mem_map]
    constructor
    · rintro (⟨x, hx, rfl⟩ | h)
      · exact ⟨by simp, by simpa using hx, .inl rfl⟩
      · split at h
        · rename_i hd
          simp only [List.mem_flatMap, List.mem_map, List.mem_filter, decide_eq_true_eq] at h
          obtain ⟨a, ha, b, ⟨hb, hab⟩, rfl⟩ := h
          refine ⟨by simp [hab], by simp [ha, hb], .inr ⟨rfl, by simpa using hd.1⟩⟩
        · simp at h
    · rintro ⟨h1, h2, h3 | ⟨h3, h4⟩⟩
      · obtain ⟨x, rfl⟩ := List.length_eq_one_iff.1 h3
        exact .inl ⟨x, h2 x (by simp), rfl⟩
      · obtain ⟨x, y, rfl⟩ := List.length_eq_two.1 h3
        right
        have hxy : x ≠ y := by simpa using h1
        have hlen : 1 < treatment.length := by
          have hs : [x, y] ⊆ treatment := fun z hz => h2 z hz
          have := (h1.subperm hs).length_le
          simp only [List.length_cons, List.length_nil] at this
          omega
        rw [if_pos ⟨by simpa using h4, hlen⟩]
        simp only [List.mem_flatMap, List.mem_map, List.mem_filter, decide_eq_true_eq]
        exact ⟨x, h2 x (by simp), y, ⟨h2 y (by simp), hxy⟩, rfl⟩
  rw [← hiff]
  unfold getKey
  by_cases h : key ∈ estimatorKeys discrete treatment <;> simp [h]

example : permuteSeq (C := Nat) (V := Nat) (fun x => if x = 0 then [3, 7, 9] else [2, 5]) none none [0, 1] = .ok [(0, 1, 0), (0, 2, 0), (1, 1, 0)] ∧
    permuteSeq (C := Nat) (V := Nat) (fun x => if x = 0 then [3, 7, 9] else [2, 5]) none (some [7, 5]) [0, 1] = .ok [(0, 0, 1), (0, 2, 1), (1, 0, 1)] ∧
    permuteSeq (C := Nat) (V := Nat) (fun x => if x = 0 then [3, 7, 9] else [2, 5]) (some [3, 2]) (some [3, 5]) [0, 1] = .ok [(0, 0, 0), (1, 0, 1)] ∧
    permuteCombined (V := Nat) [[3, 7], [2, 5]] none none = .ok [([0, 1], [0, 0]), ([1, 0], [0, 0]), ([1, 1], [0, 0])] ∧
    getKey (C := Nat) true [0, 1, 2] [2, 0] = .ok [2, 0] ∧ getKey (C := Nat) true [0, 1, 2] [2, 0, 1] = .error .key := by decide

/-! ### C63 -/

variable {K : Type} [AddCommGroup K] {I R : Type} [DecidableEq I]

theorem atIndex_append (i : I) (l₁ l₂ : List (I × K)) : atIndex i (l₁ ++ l₂) = (atIndex i l₁).or (atIndex i l₂) := by
  induction l₁ with
  | nil => simp [atIndex]
  | cons p l ih =>
    obtain ⟨j, k⟩ := p
    simp only [List.cons_append, atIndex]
    split <;> simp [ih]

theorem atIndex_none {i : I} {l : List (I × K)} (h : i ∉ l.map (·.1)) : atIndex i l = none := by
  induction l with
  | nil => rfl
  | cons p l ih =>
    obtain ⟨j, k⟩ := p
    simp only [List.map_cons, List.mem_cons, not_or] at h
    simp only [atIndex, if_neg (Ne.symm h.1)]
    exact ih h.2

theorem atIndex_mem {i : I} {k : K} {l : List (I × K)} (hn : (l.map (·.1)).Nodup) (h : (i, k) ∈ l) : atIndex i l = some k := by
  induction l with
  | nil => simp at h
  | cons p l ih =>
    obtain ⟨j, k'⟩ := p
    simp only [List.map_cons, List.nodup_cons] at hn
    rcases List.mem_cons.1 h with he | h
    · cases he
      simp [atIndex]
    · have : j ≠ i := by
        rintro rfl
        exact hn.1 (List.mem_map.2 ⟨(j, k), h, rfl⟩)
      simp only [atIndex, if_neg this]
      exact ih hn.2 h

/-- the effect of one row: nothing changes without a change of the treatment -/
def rowEffect (est : R → Nat → Nat → K) (classes : List V) (t c : V) (x : R) : K :=
  if t = c then 0 else est x (classes.findIdx (fun u => decide (u = t))) (classes.findIdx (fun u => decide (u = c)))

theorem code_findIdx {classes : List V} {v : V} (h : v ∈ classes) : Why.code classes v = .ok (classes.findIdx (fun u => decide (u = v))) := by
  obtain ⟨i, hi, _⟩ := code_known h
  rw [hi]
  unfold Why.code at hi
  cases hf : classes.findIdx? (fun u => decide (u = v)) with
  | none => rw [hf] at hi; simp at hi
  | some k =>
    rw [hf] at hi
    simp only [Except.ok.injEq] at hi
    rw [← hi, (List.findIdx?_eq_some_iff_findIdx_eq.1 hf).2]

theorem groupEffect_ok (est : R → Nat → Nat → K) {classes : List V} (ntest : Nat) {t c : V} (h : t = c ∨ t ∈ classes ∧ c ∈ classes)
    (rows : List (I × R)) :
    groupEffect est classes none ntest t c rows = .ok (rows.map (fun r => (r.1, rowEffect est classes t c r.2))) := by
  unfold groupEffect rowEffect
  by_cases htc : t = c
  · subst htc
    simp only [if_true, List.zip_map', Except.ok.injEq]
  · obtain ⟨ht, hc⟩ := h.resolve_left htc
    simp only [if_neg htc, code_findIdx ht, code_findIdx hc, List.zip_map']

theorem groups_ok (est : R → Nat → Nat → K) {classes : List V} {rows : List ((V × V) × (I × R))} : ∀ {ps : List (V × V)}
    (_ : ∀ p ∈ ps, p.1 = p.2 ∨ p.1 ∈ classes ∧ p.2 ∈ classes),
    groups est classes none rows ps =
      .ok (ps.flatMap (fun p => (rows.filter (fun r => decide (r.1 = p))).map (fun r => (r.2.1, rowEffect est classes p.1 p.2 r.2.2))))
  | [], _ => rfl
  | p :: ps, h => by
    simp only [groups, groupEffect_ok est rows.length (h p (by simp)), groups_ok est (fun q hq => h q (List.mem_cons_of_mem _ hq)),
      List.flatMap_cons, List.map_map]
    rfl

theorem nodup_eraseDups' {α : Type} [BEq α] [LawfulBEq α] (l : List α) : (l.eraseDups).Nodup := by
  have : ∀ n (l : List α), l.length ≤ n → (l.eraseDups).Nodup := by
    intro n
    induction n with
    | zero => intro l h; have := List.length_eq_zero_iff.1 (Nat.le_zero.1 h); subst this; simp
    | succ n ih =>
      intro l h
      cases l with
      | nil => simp
      | cons a l =>
        rw [List.eraseDups_cons, List.nodup_cons]
        refine ⟨?_, ih _ (le_trans (List.length_filter_le _ _) (by simpa using h))⟩
        simp
  exact this _ l le_rfl

/-- **C63**: without a cost function, for distinct row labels and known values of the treatment, `whatif` adds to every observed outcome
the effect of changing the treatment of that row from the observed to the new value, in the order of the rows. -/
theorem C63_whatif (est : R → Nat → Nat → K) {classes : List V} {rows : List ((V × V) × (I × R))} (y : R → K)
    (hn : (rows.map (fun r => r.2.1)).Nodup) (hk : ∀ r ∈ rows, r.1.1 = r.1.2 ∨ r.1.1 ∈ classes ∧ r.1.2 ∈ classes) :
    whatif est classes none rows y = .ok (rows.map (fun r => y r.2.2 + rowEffect est classes r.1.1 r.1.2 r.2.2)) := by
  have hp : ∀ p ∈ pairs rows, p.1 = p.2 ∨ p.1 ∈ classes ∧ p.2 ∈ classes := by
    intro p hp
    unfold pairs at hp
    rw [List.mem_eraseDups, List.mem_map] at hp
    obtain ⟨r, hr, rfl⟩ := hp
    exact hk r hr
  set eff := (pairs rows).flatMap (fun p => (rows.filter (fun r => decide (r.1 = p))).map (fun r => (r.2.1, rowEffect est classes p.1 p.2 r.2.2))) with heff
  have hperm : ((pairs rows).flatMap (fun p => rows.filter (fun r => decide (r.1 = p)))).Perm rows := by
    have hnd : (pairs rows).Nodup := nodup_eraseDups' _
    have hsub : ∀ r ∈ rows, r.1 ∈ pairs rows := fun r hr => by
      unfold pairs
      rw [List.mem_eraseDups]
      exact List.mem_map_of_mem hr
    revert hnd hsub
    clear heff eff hk hp hn
    generalize pairs rows = ps
    induction ps generalizing rows with
    | nil =>
      intro _ h
      cases rows with
      | nil => simp
      | cons r _ => exact absurd (h r (by simp)) (by simp)
    | cons p ps ih =>
      intro hnd h
      rw [List.nodup_cons] at hnd
      rw [List.flatMap_cons]
      have h1 : ps.flatMap (fun p => rows.filter (fun r => decide (r.1 = p))) =
          ps.flatMap (fun q => (rows.filter (fun r => !decide (r.1 = p))).filter (fun r => decide (r.1 = q))) := by
        rw [List.flatMap_def, List.flatMap_def]
        congr 1
        apply List.map_congr_left
        intro q hq
        rw [List.filter_filter]
        apply List.filter_congr
        intro r _
        by_cases hrq : r.1 = q
        · have : r.1 ≠ p := by rintro hrp; rw [← hrp, hrq] at hnd; exact hnd.1 hq
          simp [hrq, this]
          rintro rfl; exact hnd.1 hq
        · simp [hrq]
      rw [h1]
      have h2 := ih (rows := rows.filter (fun r => !decide (r.1 = p))) hnd.2 (by
        intro r hr
        obtain ⟨hr, hrp⟩ := List.mem_filter.1 hr
        rcases List.mem_cons.1 (h r hr) with h' | h'
        · simp [h'] at hrp
        · exact h')
      exact (h2.append_left _).trans (List.filter_append_perm _ _)
  have heff' : eff = ((pairs rows).flatMap (fun p => rows.filter (fun r => decide (r.1 = p)))).map
      (fun r => (r.2.1, rowEffect est classes r.1.1 r.1.2 r.2.2)) := by
    rw [heff, List.map_flatMap, List.flatMap_def, List.flatMap_def]
    congr 1
    apply List.map_congr_left
    intro p _
    apply List.map_congr_left
    intro r hr
    have := (List.mem_filter.1 hr).2
    simp only [decide_eq_true_eq] at this
    rw [this]
  unfold whatif
  rw [groups_ok est hp]
  simp only
  rw [← heff, if_pos (by rw [heff', List.length_map, hperm.length_eq])]
  congr 1
  apply List.map_congr_left
  intro r hr
  have hmem : (r.2.1, rowEffect est classes r.1.1 r.1.2 r.2.2) ∈ eff := by
    rw [heff']
    exact List.mem_map.2 ⟨r, hperm.mem_iff.2 hr, rfl⟩
  have hnd : (eff.map (·.1)).Nodup := by
    rw [heff', List.map_map]
    exact ((hperm.map (fun r => r.2.1)).nodup_iff).2 hn
  rw [atIndex_mem hnd hmem]
  rfl

/-- **C63**, consistency: with the observed values as new values, `whatif` returns the observed outcomes. -/
theorem C63_consistency (est : R → Nat → Nat → K) (classes : List V) {rows : List ((V × V) × (I × R))} (y : R → K)
    (hn : (rows.map (fun r => r.2.1)).Nodup) (h : ∀ r ∈ rows, r.1.1 = r.1.2) :
    whatif est classes none rows y = .ok (rows.map (fun r => y r.2.2)) := by
  rw [C63_whatif est y hn (fun r hr => .inl (h r hr))]
  congr 1
  apply List.map_congr_left
  intro r hr
  simp [rowEffect, h r hr]

/-- **C63, refuted with a cost function**: whenever the rows have at least two different pairs of values, `whatif` fails, because the
effects of some rows are matched with all rows of the test data. -/
theorem C63_cost_refuted (est : R → Nat → Nat → K) {classes : List V} (f : K → K) {rows : List ((V × V) × (I × R))} (y : R → K)
    (hk : ∀ r ∈ rows, r.1.1 = r.1.2 ∨ r.1.1 ∈ classes ∧ r.1.2 ∈ classes) {r s : (V × V) × (I × R)} (hr : r ∈ rows) (hs : s ∈ rows)
    (hrs : r.1 ≠ s.1) : whatif est classes (some f) rows y = .error .assertion := by
  have hp : ∀ p ∈ pairs rows, (p.1 = p.2 ∨ p.1 ∈ classes ∧ p.2 ∈ classes) := by
    intro p hp
    unfold pairs at hp
    rw [List.mem_eraseDups, List.mem_map] at hp
    obtain ⟨r, hr, rfl⟩ := hp
    exact hk r hr
  have hlen : ∀ p : V × V, ¬ rows.length = ((rows.filter (fun r => decide (r.1 = p))).map (·.2)).length := by
    intro p he
    rw [List.length_map] at he
    have hall := (List.length_filter_eq_length_iff).1 he.symm
    have h1 := hall r hr
    have h2 := hall s hs
    simp only [decide_eq_true_eq] at h1 h2
    exact hrs (h1.trans h2.symm)
  have hne : ∃ p ps, pairs rows = p :: ps := by
    have : r.1 ∈ pairs rows := by
      unfold pairs
      rw [List.mem_eraseDups]
      exact List.mem_map_of_mem hr
    cases h : pairs rows with
    | nil => rw [h] at this; simp at this
    | cons p ps => exact ⟨p, ps, rfl⟩
  obtain ⟨p, ps, he⟩ := hne
  have hg : groupEffect est classes (some f) rows.length p.1 p.2 ((rows.filter (fun r => decide (r.1 = p))).map (·.2)) = .error .assertion := by
    unfold groupEffect
    rcases hp p (by rw [he]; simp) with hpe | ⟨h1, h2⟩
    · simp only [hpe, if_true]
      rw [if_neg (hlen p)]
    · by_cases hpe : p.1 = p.2
      · simp only [hpe, if_true]
        rw [if_neg (hlen p)]
      · simp only [if_neg hpe, code_findIdx h1, code_findIdx h2]
        rw [if_neg (hlen p)]
  unfold whatif
  rw [he]
  simp only [groups, hg]

example : whatif (V := Nat) (K := Int) (I := Nat) (R := Int) (fun x a b => x * a - x * b) [3, 7, 9] none
    [((7, 3), (10, 5)), ((3, 3), (11, 6)), ((7, 3), (12, 1)), ((3, 9), (13, 2))] (fun x => 100 * x) = .ok [505, 600, 101, 196] := by decide

/-! ### C64 -/

/-- **C64**: in `causal_effect` the target outcome is a value of the outcome: the estimator is asked for its position in `classes_`; the
default is the last class; other values are refused. -/
theorem C64_effect {classes : List V} (hn : classes.Nodup) :
    (∀ i (h : i < classes.length), targetEffect classes (some classes[i]) = .ok (some i)) ∧
    (classes ≠ [] → targetEffect classes none = .ok (some (classes.length - 1))) ∧
    (∀ v, v ∉ classes → targetEffect classes (some v) = .error .value) := by
  refine ⟨?_, ?_, ?_⟩
  · intro i h
    simp [targetEffect, code_getElem hn i h]
  · intro hne
    have hl : 0 < classes.length := List.length_pos_iff.2 hne
    simp only [targetEffect, List.getLast?_eq_getElem?, List.getElem?_eq_getElem (show classes.length - 1 < classes.length by omega),
      code_getElem hn (classes.length - 1) (by omega)]
  · intro v hv
    simp [targetEffect, code_unknown hv]

/-- **C64, refuted**: with the classes 1 and 2, asking `individual_causal_effect`, `uplift_model` or `policy_interpreter` for the outcome
1 asks the estimator for the code 2, which does not exist, and asking for 2 raises `ValueError`; `causal_effect` uses the codes 0
and 1. Outcomes that are no numbers are always refused. -/
theorem C64_refuted :
    targetIndividual some [1, 2] (some 1) = .ok (some 2) ∧ targetIndividual some [1, 2] (some 2) = .error .value ∧
    targetEffect [1, 2] (some 1) = .ok (some 0) ∧ targetEffect [1, 2] (some 2) = .ok (some 1) ∧
    ∀ (num : V → Option Nat) (classes : List V) (v : V), num v = none → targetIndividual num classes (some v) = .error .value :=
  ⟨rfl, rfl, rfl, rfl, fun num classes v h => by simp [targetIndividual, h]⟩

/-- **C64**: all entry points agree if the classes are 0, 1, ..., k-1. -/
theorem C64_agree (k i : Nat) (h : i < k) :
    targetEffect (List.range k) (some i) = .ok (some i) ∧ targetIndividual some (List.range k) (some i) = .ok (some i) := by
  have h1 := (C64_effect (List.nodup_range (n := k))).1 i (by simpa using h)
  simp only [List.getElem_range] at h1
  refine ⟨h1, ?_⟩
  simp [targetIndividual, uncode, h]

/-! ### C65 -/

/-- **C65**, settings given to the constructor are used by every later fit and never change, whether the fits succeed or not. -/
theorem C65_explicit_kept (bo bt : Bool) (fits : List (Except Err Bool × Except Err Bool × List C × (Bool → Bool → Except Err Unit)))
    (s : State C) (h1 : s.discreteOutcome = some bo) (h2 : s.discreteTreatment = some bt) :
    let s' := fits.foldl (fun s f => (Why.fit s f.1 f.2.1 f.2.2.1 f.2.2.2).1) s
    s'.discreteOutcome = some bo ∧ s'.discreteTreatment = some bt := by
  induction fits generalizing s with
  | nil => exact ⟨h1, h2⟩
  | cons f fs ih =>
    simp only [List.foldl_cons]
    apply ih
    · unfold Why.fit
      simp only [h1, h2]
      split <;> rfl
    · unfold Why.fit
      simp only [h1, h2]
      split <;> rfl

/-- the roles that the queries use after a fit are those of the last successful fit: a failed fit does not change them -/
theorem C65_failed_fit (s : State C) (discY discX : Except Err Bool) (treatment : List C) (rest : Bool → Bool → Except Err Unit) (e : Err)
    (h : (Why.fit s discY discX treatment rest).2 = .error e) :
    (Why.fit s discY discX treatment rest).1.treatment = s.treatment ∧ (Why.fit s discY discX treatment rest).1.fittedTag = s.fittedTag := by
  obtain ⟨oy, ox, tag, tr⟩ := s
  unfold Why.fit at h ⊢
  cases oy with
  | some b =>
    cases ox with
    | some b' => simp only at h ⊢; split at h <;> simp_all
    | none =>
      cases discX with
      | error e => exact ⟨rfl, rfl⟩
      | ok b' => simp only at h ⊢; split at h <;> simp_all
  | none =>
    cases discY with
    | error e => exact ⟨rfl, rfl⟩
    | ok b =>
      cases ox with
      | some b' => simp only at h ⊢; split at h <;> simp_all
      | none =>
        cases discX with
        | error e => exact ⟨rfl, rfl⟩
        | ok b' => simp only at h ⊢; split at h <;> simp_all

/-- **C65**: a second fit on data of the same kinds gives the state that a new object gets from the second data alone, and the same
error if it fails. -/
theorem C65_refit_same_kind (o t : Option Bool) {by₁ bx₁ : Bool} {t₁ t₂ : List C} (rest₁ rest₂ : Bool → Bool → Except Err Unit)
    (h : (Why.fit (new o t) (.ok by₁) (.ok bx₁) t₁ rest₁).2 = .ok ()) :
    let s₁ := (Why.fit (new o t) (.ok by₁) (.ok bx₁) t₁ rest₁).1
    (Why.fit s₁ (.ok by₁) (.ok bx₁) t₂ rest₂).2 = (Why.fit (new o t) (.ok by₁) (.ok bx₁) t₂ rest₂).2 ∧
    ((Why.fit s₁ (.ok by₁) (.ok bx₁) t₂ rest₂).2 = .ok () →
      (Why.fit s₁ (.ok by₁) (.ok bx₁) t₂ rest₂).1 = (Why.fit (new o t) (.ok by₁) (.ok bx₁) t₂ rest₂).1 ∧
      (Why.fit s₁ (.ok by₁) (.ok bx₁) t₂ rest₂).1.treatment = some t₂) := by
  cases o <;> cases t <;> simp only [Why.fit, new] at h ⊢ <;> (split at h <;> simp_all <;> split <;> simp_all)

/-- **C65, refuted**: fitting the same object a second time uses the settings inferred from the first data. A `Why()` fitted on data with
a discrete outcome and then (also after a failure of the first fit) on data with a continuous outcome treats the second outcome as
discrete; a new object would not. -/
theorem C65_refuted : ∃ (s : State Nat) (rest : Bool → Bool → Except Err Unit), s = new none none ∧
    (∀ b b', rest b b' = .ok () ↔ b = false) ∧
    (Why.fit s (.ok true) (.ok true) [0] rest).2 = .error .value ∧
    (Why.fit (Why.fit s (.ok true) (.ok true) [0] rest).1 (.ok false) (.ok true) [0] rest).2 = .error .value ∧
    (Why.fit s (.ok false) (.ok true) [0] rest).2 = .ok () :=
  ⟨new none none, fun b _ => if b then .error .value else .ok (), rfl, by decide, rfl, rfl, rfl⟩

/-- **C53, refuted for `Why`**: the tag of a new `Why` is the tuple `(False,)`, which is true: the check that the queries make passes
before any fit. -/
theorem C53_why_refuted (bo bt : Option Bool) : (new (C := C) bo bt).fittedTag.truthy = true ∧ (new (C := C) bo bt).treatment = none :=
  ⟨rfl, rfl⟩

end

end YL.Props
