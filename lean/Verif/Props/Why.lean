import Verif.Model.Why
import Verif.Props.MetaLearner
import Mathlib.Algebra.Ring.Rat

/-!
# C47, C48, C62 - C65: arguments, arms and answers of `Why`
-/

set_option linter.unusedSectionVars false

namespace YL.Props

open YL Why

section
variable {C V : Type} [DecidableEq C] [DecidableEq V]

/-! ### C47 -/

/-- **C47**, `safe_treat_control`: exactly the lists with one value per treatment, and single values for a single treatment, are
accepted; the answer has one value per treatment and keeps the given values in their order. -/
theorem C47_single (nt : Nat) (a : TC V) (l : List (Item V)) :
    safeTC nt a = .ok (some l) ↔ l.length = nt ∧ (a = .seq l ∨ ∃ v, a = .atom v ∧ l = [.atom v]) := by
  cases a with
  | none => simp [safeTC]
  | atom v =>
    simp only [safeTC]
    split
    · rename_i h
      subst h
      simp only [Except.ok.injEq, Option.some.injEq, reduceCtorEq, TC.atom.injEq, false_or]
      constructor
      · rintro rfl; exact ⟨rfl, v, rfl, rfl⟩
      · rintro ⟨_, w, rfl, rfl⟩; rfl
    · rename_i h
      simp only [reduceCtorEq, TC.atom.injEq, false_or, false_iff, not_and, not_exists]
      rintro rfl w rfl rfl
      exact h rfl
  | seq l' =>
    simp only [safeTC]
    split
    · rename_i h
      simp only [Except.ok.injEq, Option.some.injEq, TC.seq.injEq, reduceCtorEq, false_and, exists_false, or_false]
      constructor
      · rintro rfl; exact ⟨h, rfl⟩
      · rintro ⟨_, rfl⟩; rfl
    · rename_i h
      simp only [reduceCtorEq, TC.seq.injEq, false_and, exists_false, or_false, false_iff, not_and]
      rintro hl rfl
      exact h hl

/-- everything else but `None` is refused with an `AssertionError` -/
theorem C47_single_refused (nt : Nat) (a : TC V) (e : Err) (h : safeTC nt a = .error e) : e = .assertion ∧ a ≠ .none := by
  cases a with
  | none => simp [safeTC] at h
  | atom v => simp only [safeTC] at h; split at h <;> simp_all
  | seq l => simp only [safeTC] at h; split at h <;> simp_all

theorem allLen_ok {slen : V → Option Nat} {nt : Nat} : ∀ {l : List (Item V)}, allLen slen nt l = .ok true →
    ∀ e ∈ l, itemLen slen e = .ok nt
  | [], _ => by simp
  | e :: es, h => by
    simp only [allLen] at h
    cases he : itemLen slen e with
    | error er => rw [he] at h; simp at h
    | ok k =>
      rw [he] at h
      simp only at h
      split at h
      · rename_i hk
        subst hk
        intro e' he'
        rcases List.mem_cons.1 he' with rfl | he'
        · exact he
        · exact allLen_ok h e' he'
      · simp at h

theorem allLen_total {slen : V → Option Nat} {nt : Nat} : ∀ {l : List (Item V)}, (∀ e ∈ l, itemLen slen e = .ok nt) →
    allLen slen nt l = .ok true
  | [], _ => rfl
  | e :: es, h => by
    simp only [allLen, h e (by simp), if_true]
    exact allLen_total (fun e' he' => h e' (by simp [he']))

/-- the length of a row of the answer: a list of values, or a bare value of which only a string has a length -/
def rowLen (slen : V → Option Nat) : List (Item V) ⊕ V → Option Nat
  | .inl l => some l.length
  | .inr v => slen v

/-- **C47**, `safe_treat_control_list`: every row of an accepted answer has one element per treatment; a row is a list of values or
(only after a first row that is a list) a string with as many characters as there are treatments. -/
theorem C47_list {slen : V → Option Nat} {nt : Nat} (hnt : 0 < nt) {a : TC V} {rows : List (List (Item V) ⊕ V)}
    (h : safeTCList slen nt a = .ok (some rows)) : rows ≠ [] ∧ ∀ r ∈ rows, rowLen slen r = some nt := by
  unfold safeTCList at h
  split at h
  · simp at h
  · simp at h
  · rename_i l rest
    split at h
    · simp at h
    · simp at h
    · rename_i hall
      simp only [Except.ok.injEq, Option.some.injEq] at h
      subst h
      refine ⟨by simp, ?_⟩
      intro r hr
      obtain ⟨e, he, rfl⟩ := List.mem_map.1 hr
      have := allLen_ok hall e he
      cases e with
      | seq l => simp only [itemLen, Except.ok.injEq] at this; simp [rowLen, this]
      | atom v =>
        simp only [itemLen] at this
        split at this
        · rename_i k hk
          simp only [Except.ok.injEq] at this
          subst this
          simpa [rowLen] using hk
        · simp at this
  · rename_i v rest
    split at h
    · split at h
      · rename_i hl
        simp only [Except.ok.injEq, Option.some.injEq] at h
        subst h
        refine ⟨by simp, ?_⟩
        intro r hr
        simp only [List.mem_singleton] at hr
        subst hr
        simp [rowLen, ← hl]
      · simp at h
    · rename_i hn
      simp only [Except.ok.injEq, Option.some.injEq] at h
      subst h
      refine ⟨by simp, ?_⟩
      intro r hr
      obtain ⟨e, _, rfl⟩ := List.mem_map.1 hr
      have : nt = 1 := by omega
      simp [rowLen, this]
  · split at h
    · rename_i hn
      simp only [Except.ok.injEq, Option.some.injEq] at h
      subst h
      refine ⟨by simp, ?_⟩
      intro r hr
      simp only [List.mem_singleton] at hr
      subst hr
      simp [rowLen, hn]
    · simp at h

/-- **C47**, a nested list of rows of the right length is kept as it is -/
theorem C47_list_nested (slen : V → Option Nat) (nt : Nat) {rows : List (List V)} (hne : rows ≠ []) (hl : ∀ r ∈ rows, r.length = nt) :
    safeTCList slen nt (.seq (rows.map Item.seq)) = .ok (some (rows.map (fun r => Sum.inl (r.map Item.atom)))) := by
  cases rows with
  | nil => exact absurd rfl hne
  | cons r rs =>
    have hall : allLen slen nt (Item.seq r :: rs.map Item.seq) = .ok true := by
      apply allLen_total
      intro e he
      rw [← List.map_cons, List.mem_map] at he
      obtain ⟨r', hr', rfl⟩ := he
      simp [itemLen, hl r' hr']
    simp only [List.map_cons, safeTCList, hall, List.map_map, Except.ok.injEq, Option.some.injEq, List.cons.injEq, true_and]
    rfl

/-- **C47**, a plain list: for one treatment one row per value; for several treatments one row, refused unless it has one value
per treatment -/
theorem C47_list_flat (slen : V → Option Nat) (nt : Nat) {vs : List V} (hne : vs ≠ []) :
    safeTCList slen nt (.seq (vs.map Item.atom)) =
      if nt ≤ 1 then .ok (some (vs.map (fun v => Sum.inl [Item.atom v])))
      else if vs.length = nt then .ok (some [Sum.inl (vs.map Item.atom)]) else .error .value := by
  cases vs with
  | nil => exact absurd rfl hne
  | cons v vs =>
    simp only [List.map_cons, safeTCList, List.length_cons, List.length_map, List.map_map]
    by_cases hn : 1 < nt
    · rw [if_pos hn, if_neg (show ¬ nt ≤ 1 by omega)]
    · rw [if_neg hn, if_pos (show nt ≤ 1 by omega)]
      rfl

/-- **C47, refuted** in two corners: a string among the rows is taken for a row (here a value of length 2 next to a proper row),
and an empty list raises `IndexError`, not an error about the argument. -/
theorem C47_refuted :
    safeTCList (V := String) (fun s => some s.length) 2 (.seq [.seq ["a", "b"], .atom "xy"]) =
      .ok (some [.inl [.atom "a", .atom "b"], .inr "xy"]) ∧
    safeTCList (V := String) (fun s => some s.length) 2 (.seq []) = .error .index := by
  exact ⟨rfl, rfl⟩

example : safeTC (V := Nat) 2 (.seq [.atom 1, .atom 0]) = .ok (some [.atom 1, .atom 0]) ∧
    safeTC (V := Nat) 2 (.atom 1) = .error .assertion ∧
    safeTCList (V := Nat) (fun _ => none) 2 (.seq [.seq [1, 0], .seq [2, 1]]) =
      .ok (some [.inl [.atom 1, .atom 0], .inl [.atom 2, .atom 1]]) := by decide

/-! ### C48 -/

/-- the row has the values in the treatment columns -/
def RowIs (treatment : List C) (values : List V) (r : C → V) : Prop :=
  ∀ i (h : i < treatment.length) (h' : i < values.length), r treatment[i] = values[i]

theorem matches_iff (treatment : List C) (values : List V) (r : C → V) : matches_ treatment values r = true ↔ RowIs treatment values r := by
  induction treatment generalizing values with
  | nil => simp [matches_, RowIs]
  | cons t ts ih =>
    cases values with
    | nil => simp [matches_, RowIs]
    | cons v vs =>
      have h1 : matches_ (t :: ts) (v :: vs) r = (decide (r t = v) && matches_ ts vs r) := rfl
      rw [h1, Bool.and_eq_true, decide_eq_true_eq, ih]
      constructor
      · rintro ⟨h, h'⟩ i hi hi'
        cases i with
        | zero => exact h
        | succ i => exact h' i (by simpa using hi) (by simpa using hi')
      · intro h
        exact ⟨h 0 (by simp) (by simp), fun i hi hi' => h (i + 1) (by simpa using hi) (by simpa using hi')⟩

open Classical in
/-- **C48**, `select_by_treat_control` keeps, in their order, exactly the rows equal to treat or to control in all treatment columns;
it does not fail with at least one treatment. -/
theorem C48_select (df : Frame C V) {treatment : List C} {treat control : List V} (hn : treatment ≠ [])
    (ht : treat.length = treatment.length) (hc : control.length = treatment.length) :
    selectTC df treatment treat control = .ok (df.filter (fun r => decide (RowIs treatment treat r ∨ RowIs treatment control r))) := by
  have h1 : ¬ ((treatment.zip treat).isEmpty ∨ (treatment.zip control).isEmpty) := by
    cases treatment with
    | nil => exact absurd rfl hn
    | cons t ts => cases treat with
      | nil => simp at ht
      | cons _ _ => cases control with
        | nil => simp at hc
        | cons _ _ => simp
  unfold selectTC
  rw [if_neg h1]
  congr 1
  apply List.filter_congr
  intro r _
  rw [Bool.eq_iff_iff, Bool.or_eq_true, matches_iff, matches_iff, decide_eq_true_eq]

/-- **C48**, `encode_treat_control`: a row gets the treat value iff it is a treated row, otherwise the control value iff it is a control
row, otherwise NaN -/
theorem C48_encode {T : Type} (df : Frame C V) (treatment : List C) (treat control : List V) (tv cv : T) :
    (encodeTC df treatment treat control tv cv).length = df.length ∧
    ∀ i (h : i < df.length) (h' : i < (encodeTC df treatment treat control tv cv).length),
      (RowIs treatment treat df[i] → (encodeTC df treatment treat control tv cv)[i] = some tv) ∧
      (¬ RowIs treatment treat df[i] → RowIs treatment control df[i] → (encodeTC df treatment treat control tv cv)[i] = some cv) ∧
      (¬ RowIs treatment treat df[i] → ¬ RowIs treatment control df[i] → (encodeTC df treatment treat control tv cv)[i] = none) := by
  refine ⟨by simp [encodeTC], ?_⟩
  intro i h h'
  simp only [encodeTC, List.getElem_map]
  rw [← matches_iff, ← matches_iff]
  refine ⟨fun a => by simp [a], fun a b => by simp [a, b], fun a b => by simp [a, b]⟩

/-- **C48**, after the selection no row is NaN, and (for different treat and control) a row has the treat value iff it is a treated row
and the control value iff it is a control row. -/
theorem C48_consistent {T : Type} {df : Frame C V} {treatment : List C} {treat control : List V} {tv cv : T} (hv : tv ≠ cv)
    (hne : treat ≠ control) (ht : treat.length = treatment.length) (hc : control.length = treatment.length)
    {out : Frame C V} (h : selectTC df treatment treat control = .ok out) (i : Nat) (hi : i < out.length)
    (hi' : i < (encodeTC out treatment treat control tv cv).length) :
    ((encodeTC out treatment treat control tv cv)[i] = some tv ↔ RowIs treatment treat out[i]) ∧
    ((encodeTC out treatment treat control tv cv)[i] = some cv ↔ RowIs treatment control out[i]) ∧
    (encodeTC out treatment treat control tv cv)[i] ≠ none := by
  have hex : ∀ r : C → V, RowIs treatment treat r → ¬ RowIs treatment control r := by
    intro r h1 h2
    apply hne
    apply List.ext_getElem (by omega)
    intro j hj hj'
    rw [← h1 j (by omega) hj, ← h2 j (by omega) hj']
  have hin : RowIs treatment treat out[i] ∨ RowIs treatment control out[i] := by
    unfold selectTC at h
    split at h
    · simp at h
    · simp only [Except.ok.injEq] at h
      subst h
      have h2 := (List.mem_filter.1 (List.getElem_mem hi)).2
      rwa [Bool.or_eq_true, matches_iff, matches_iff] at h2
  have he := (C48_encode out treatment treat control tv cv).2 i hi hi'
  rcases hin with h1 | h1
  · have h2 := hex _ h1
    rw [he.1 h1]
    exact ⟨by simp [h1], by simp [h2, hv], by simp⟩
  · have h2 : ¬ RowIs treatment treat out[i] := fun h => hex _ h h1
    rw [he.2.1 h2 h1]
    exact ⟨by simp [h2, Ne.symm hv], by simp [h1], by simp⟩

theorem code_ok_iff (classes : List V) (v : V) (i : Nat) : Why.code classes v = .ok i → classes[i]? = some v := by
  unfold Why.code
  intro h
  cases hf : classes.findIdx? (fun u => decide (u = v)) with
  | none => rw [hf] at h; simp at h
  | some j =>
    rw [hf] at h
    simp only [Except.ok.injEq] at h
    subst h
    rw [List.findIdx?_eq_some_iff_getElem] at hf
    obtain ⟨hj, hp, _⟩ := hf
    simp only [decide_eq_true_eq] at hp
    rw [List.getElem?_eq_getElem hj, hp]

theorem code_known {classes : List V} {v : V} (h : v ∈ classes) : ∃ i, Why.code classes v = .ok i ∧ i < classes.length := by
  unfold Why.code
  cases hf : classes.findIdx? (fun u => decide (u = v)) with
  | none =>
    rw [List.findIdx?_eq_none_iff] at hf
    simpa using hf v h
  | some j =>
    rw [List.findIdx?_eq_some_iff_getElem] at hf
    exact ⟨j, rfl, hf.1⟩

theorem code_unknown {classes : List V} {v : V} (h : v ∉ classes) : Why.code classes v = .error .value := by
  unfold Why.code
  cases hf : classes.findIdx? (fun u => decide (u = v)) with
  | none => rfl
  | some j =>
    rw [List.findIdx?_eq_some_iff_getElem] at hf
    obtain ⟨hj, hp, _⟩ := hf
    simp only [decide_eq_true_eq] at hp
    exact absurd (hp ▸ List.getElem_mem hj) h

theorem code_getElem {classes : List V} (hn : classes.Nodup) (i : Nat) (hi : i < classes.length) : Why.code classes classes[i] = .ok i := by
  obtain ⟨j, hj, hlt⟩ := code_known (List.getElem_mem hi)
  have := code_ok_iff _ _ _ hj
  rw [List.getElem?_eq_getElem hlt, Option.some.injEq] at this
  rw [hj, (hn.getElem_inj_iff).1 this]

/-- decoding of a tuple of codes -/
def decodeAll : List (List V) → List Nat → Option (List V)
  | e :: es, i :: is => match e[i]?, decodeAll es is with
    | some v, some r => some (v :: r)
    | _, _ => none
  | [], [] => some []
  | _, _ => none

/-- **C48**, `transform_treat_control`: known values get one code per treatment and decode to what they were; an unknown value raises
`ValueError`. -/
theorem C48_codes : ∀ {encs : List (List V)} {treat control : List V} (_ : treat.length = encs.length) (_ : control.length = encs.length),
    (((∀ i (h : i < encs.length) (h' : i < treat.length) (h'' : i < control.length), treat[i] ∈ encs[i] ∧ control[i] ∈ encs[i]) →
      ∃ a b, transformTC encs treat control = .ok (a, b) ∧ decodeAll encs a = some treat ∧ decodeAll encs b = some control) ∧
    ((∃ i, ∃ (h : i < encs.length) (h' : i < treat.length) (h'' : i < control.length), treat[i] ∉ encs[i] ∨ control[i] ∉ encs[i]) →
      transformTC encs treat control = .error .value))
  | [], treat, control, ht, hc => by
    have : treat = [] := List.length_eq_zero_iff.1 ht
    have : control = [] := List.length_eq_zero_iff.1 hc
    subst_vars
    exact ⟨fun _ => ⟨[], [], rfl, rfl, rfl⟩, by rintro ⟨i, h, _⟩; simp at h⟩
  | e :: es, [], _, ht, _ => by simp at ht
  | e :: es, _ :: _, [], _, hc => by simp at hc
  | e :: es, t :: ts, c :: cs, ht, hc => by
    have ih := C48_codes (encs := es) (treat := ts) (control := cs) (by simpa using ht) (by simpa using hc)
    constructor
    · intro h
      obtain ⟨a, ha, hal⟩ := code_known (h 0 (by simp) (by simp) (by simp)).1
      obtain ⟨b, hb, hbl⟩ := code_known (h 0 (by simp) (by simp) (by simp)).2
      obtain ⟨as, bs, h1, h2, h3⟩ := ih.1 (fun i h1 h2 h3 => h (i + 1) (by simpa using h1) (by simpa using h2) (by simpa using h3))
      have ha' := code_ok_iff _ _ _ ha
      have hb' := code_ok_iff _ _ _ hb
      simp only [List.getElem_cons_zero] at ha hb ha' hb'
      refine ⟨a :: as, b :: bs, ?_, ?_, ?_⟩
      · simp [transformTC, ha, hb, h1]
      · simp [decodeAll, h2, ha']
      · simp [decodeAll, h3, hb']
    · rintro ⟨i, h1, h2, h3, h4⟩
      have err : ∀ v er, Why.code e v = .error er → er = .value := by
        intro v er h
        by_cases hv : v ∈ e
        · obtain ⟨j, hj, _⟩ := code_known hv
          rw [hj] at h; simp at h
        · rw [code_unknown hv] at h; simpa using h.symm
      have rest : ∀ er, transformTC es ts cs = .error er → er = .value := by
        intro er h
        by_cases hall : ∀ i (h : i < es.length) (h' : i < ts.length) (h'' : i < cs.length), ts[i] ∈ es[i] ∧ cs[i] ∈ es[i]
        · obtain ⟨a, b, hab, _⟩ := ih.1 hall
          rw [hab] at h; simp at h
        · have : ∃ i, ∃ (h : i < es.length) (h' : i < ts.length) (h'' : i < cs.length), ts[i] ∉ es[i] ∨ cs[i] ∉ es[i] := by
            simp only [not_forall] at hall
            obtain ⟨i, a, b, c', hd⟩ := hall
            exact ⟨i, a, b, c', by tauto⟩
          rw [ih.2 this] at h; simpa using h.symm
      simp only [transformTC]
      cases h5 : Why.code e t with
      | error er => simp [err _ _ h5]
      | ok a => cases h6 : Why.code e c with
        | error er => simp [err _ _ h6]
        | ok b => cases h7 : transformTC es ts cs with
          | error er => simp [rest _ h7]
          | ok p =>
            exfalso
            cases i with
            | zero =>
              simp only [List.getElem_cons_zero] at h4
              rcases h4 with h4 | h4
              · rw [code_unknown h4] at h5; simp at h5
              · rw [code_unknown h4] at h6; simp at h6
            | succ i =>
              have := ih.2 ⟨i, by simpa using h1, by simpa using h2, by simpa using h3, by simpa using h4⟩
              rw [this] at h7; simp at h7

example : (selectTC (C := Nat) (V := Nat) [fun _ => 1, fun _ => 0, fun c => c] [0, 1] [1, 1] [0, 0]).map List.length = .ok 2 ∧
    encodeTC (C := Nat) (V := Nat) [fun _ => 1, fun _ => 0, fun c => c] [0, 1] [1, 1] [0, 0] 1 0 = [some 1, some 0, none] ∧
    transformTC (V := Nat) [[3, 7], [2, 5, 9]] [7, 9] [3, 2] = .ok ([1, 2], [0, 0]) := by decide

end

end YL.Props
