import Verif.Model.SkFrame
import Mathlib.Tactic.Common
import Mathlib.Data.List.Nodup
import Mathlib.Data.List.Lattice
import Mathlib.Data.Finset.Card
/-!
C112: `DataFrameMapper`. C113: `DataCleaner`. C114: what the feature selection reports.
-/
set_option linter.unusedSectionVars false
set_option linter.unusedSimpArgs false
set_option linter.unusedVariables false
namespace YL.Props
open YL.SkFrame

/-! ### Frames -/

section Frames
variable {C T : Type}

theorem fr_column_some {X : Frame C} {c : Label} (h : c ∈ labels X) : ∃ v, column X c = some v ∧ (c, v) ∈ X := by
  induction X with
  | nil => simp [labels] at h
  | cons e X ih =>
    by_cases he : e.1 = c
    · exact ⟨e.2, by simp [column, he], by subst he; simp⟩
    · have : c ∈ labels X := by
        simp only [labels, List.map_cons, List.mem_cons] at h
        rcases h with h | h
        · exact absurd h.symm he
        · exact h
      obtain ⟨v, hv, hm⟩ := ih this
      refine ⟨v, ?_, by simp [hm]⟩
      simpa [column, List.find?_cons, he] using hv

theorem fr_column_none {X : Frame C} {c : Label} (h : c ∉ labels X) : column X c = none := by
  have : X.find? (fun e => e.1 = c) = none := by
    rw [List.find?_eq_none]
    intro e he
    simp only [decide_eq_true_eq]
    rintro rfl
    exact h (List.mem_map_of_mem (f := Prod.fst) he)
  simp [column, this]

theorem fr_column_mem {X : Frame C} (hX : (labels X).Nodup) {c : Label} {v : C} (h : (c, v) ∈ X) : column X c = some v := by
  induction X with
  | nil => simp at h
  | cons e X ih =>
    simp only [labels, List.map_cons, List.nodup_cons] at hX
    rcases List.mem_cons.mp h with rfl | h
    · simp [column]
    · have : e.1 ≠ c := by
        rintro rfl
        exact hX.1 (List.mem_map.mpr ⟨_, h, rfl⟩)
      have := ih hX.2 h
      simpa [column, List.find?_cons, ‹e.1 ≠ c›] using this

theorem fr_subset_ok {X : Frame C} : ∀ {cs : List Label} {l : Frame C}, subset X cs = .ok l ↔
    labels l = cs ∧ ∀ e ∈ l, column X e.1 = some e.2 := by
  intro cs
  induction cs with
  | nil =>
    intro l
    constructor
    · intro h
      cases h
      simp [labels]
    · rintro ⟨h, _⟩
      have : l = [] := by simpa [labels] using h
      rw [this]
      rfl
  | cons c cs ih =>
    intro l
    unfold subset
    cases hc : column X c with
    | none =>
      simp only [reduceCtorEq, false_iff]
      rintro ⟨h1, h2⟩
      cases l with
      | nil => simp [labels] at h1
      | cons e l =>
        simp only [labels, List.map_cons, List.cons.injEq] at h1
        have := h2 e (by simp)
        rw [h1.1, hc] at this
        cases this
    | some v =>
      dsimp only
      cases hs : subset X cs with
      | error e =>
        simp only [reduceCtorEq, false_iff]
        rintro ⟨h1, h2⟩
        cases l with
        | nil => simp [labels] at h1
        | cons a l =>
          simp only [labels, List.map_cons, List.cons.injEq] at h1
          have := (ih (l := l)).mpr ⟨h1.2, fun e he => h2 e (by simp [he])⟩
          rw [hs] at this
          cases this
      | ok l' =>
        dsimp only
        rw [Except.ok.injEq]
        constructor
        · rintro rfl
          have := ih.mp hs
          refine ⟨by simp [labels] at this ⊢; exact this.1, ?_⟩
          intro e he
          rcases List.mem_cons.mp he with rfl | he
          · exact hc
          · exact this.2 e he
        · rintro ⟨h1, h2⟩
          cases l with
          | nil => simp [labels] at h1
          | cons a l =>
            simp only [labels, List.map_cons, List.cons.injEq] at h1
            have := (ih (l := l)).mpr ⟨h1.2, fun e he => h2 e (by simp [he])⟩
            rw [hs] at this
            cases this
            have h3 := h2 a (by simp)
            rw [h1.1, hc] at h3
            cases h3
            rw [← h1.1]

theorem fr_subset_error {X : Frame C} : ∀ {cs : List Label} {e : Err}, subset X cs = .error e → e = .key := by
  intro cs
  induction cs with
  | nil => intro e h; cases h
  | cons c cs ih =>
    intro e h
    unfold subset at h
    cases hc : column X c with
    | none => simp only [hc] at h; cases h; rfl
    | some v =>
      simp only [hc] at h
      cases hs : subset X cs with
      | error e' => simp only [hs] at h; cases h; exact ih hs
      | ok l => simp only [hs] at h; cases h

theorem fr_subset_total {X : Frame C} : ∀ {cs : List Label}, (∀ c ∈ cs, c ∈ labels X) → ∃ l, subset X cs = .ok l := by
  intro cs
  induction cs with
  | nil => intro _; exact ⟨[], rfl⟩
  | cons c cs ih =>
    intro h
    obtain ⟨v, hv, _⟩ := fr_column_some (h c (by simp))
    obtain ⟨l, hl⟩ := ih (fun x hx => h x (by simp [hx]))
    exact ⟨(c, v) :: l, by simp [subset, hv, hl]⟩

/-! ### DataFrameMapper -/

/-- scikit-learn's contract: `fit_transform` is `fit`, then `transform` -/
def Lawful (ops : Ops C T) : Prop := ∀ t X, ops.fitTransform t X = (ops.fit t X, ops.transform (ops.fit t X) X)

/-- labels that `_get_names` leaves as they are: texts of at most 64 characters -/
def Short (c : Label) : Prop := ∃ s : String, c = .text s ∧ s.length ≤ 64

/-- `fit(X)` and then `transform(X)` -/
def fitThenTransform (digest : String → String) (ops : Ops C T) (features : List (Feature C T)) (default : Default T)
    (X : Frame C) : Except Err (Frame C) :=
  match fit ops features default X with
  | .error e => .error e
  | .ok l => transform digest ops l X

theorem baseName_one (digest : String → String) {c : Label} (h : Short c) : baseName digest [c] none = c := by
  obtain ⟨s, rfl, hs⟩ := h
  have : ¬ s.length > 64 := by omega
  simp [baseName, Label.str, this]

theorem getNames_none (digest : String → String) (ops : Ops C T) {cols : List Label} (hne : cols ≠ [])
    (h : ∀ c, cols = [c] → Short c) : getNames digest ops cols none none cols.length = cols := by
  unfold getNames
  by_cases hl : cols.length > 1
  · simp [hl]
  · have : cols.length = 1 := by
      have := List.length_pos_iff.mpr hne
      omega
    obtain ⟨c, rfl⟩ := List.length_eq_one_iff.mp this
    simp [baseName_one digest (h c rfl)]

theorem transformLoop_append (digest : String → String) (ops : Ops C T) (X : Frame C) : ∀ (l m : List (Fitted T)),
    transformLoop digest ops X (l ++ m) =
      match transformLoop digest ops X l with
      | .error e => .error e
      | .ok (cs, ns) =>
        match transformLoop digest ops X m with
        | .error e => .error e
        | .ok (cs', ns') => .ok (cs ++ cs', ns ++ ns') := by
  intro l
  induction l with
  | nil =>
    intro m
    simp only [List.nil_append, transformLoop]
    cases transformLoop digest ops X m with
    | error e => rfl
    | ok r => rfl
  | cons f l ih =>
    intro m
    simp only [List.cons_append, transformLoop]
    by_cases hf : f.columns = []
    · simp only [hf, if_true]
      exact ih m
    · simp only [hf, if_false]
      cases subset X f.columns with
      | error e => rfl
      | ok Xt =>
        dsimp only
        rw [ih]
        cases transformLoop digest ops X l with
        | error e => rfl
        | ok r =>
          dsimp only
          cases transformLoop digest ops X m with
          | error e => rfl
          | ok r' => simp

theorem transformLoop_error (digest : String → String) (ops : Ops C T) (X : Frame C) : ∀ (l : List (Fitted T)) (e : Err),
    transformLoop digest ops X l = .error e → e = .key := by
  intro l
  induction l with
  | nil => intro e h; cases h
  | cons f l ih =>
    intro e h
    unfold transformLoop at h
    by_cases hf : f.columns = []
    · simp only [hf, if_true] at h
      exact ih e h
    · simp only [hf, if_false] at h
      cases hs : subset X f.columns with
      | error e' =>
        simp only [hs] at h
        cases h
        exact fr_subset_error hs
      | ok Xt =>
        simp only [hs] at h
        cases ht : transformLoop digest ops X l with
        | error e' => simp only [ht] at h; cases h; exact ih _ ht
        | ok r => simp only [ht] at h; cases h

theorem fitOne_error (ops : Ops C T) (X : Frame C) (t : Option T) (cols : List Label) (e : Err)
    (h : fitOne ops X t cols = .error e) : e = .key := by
  cases t with
  | none => cases h
  | some t =>
    unfold fitOne at h
    cases hs : subset X cols with
    | error e' => simp only [hs] at h; cases h; exact fr_subset_error hs
    | ok l => simp only [hs] at h; cases h

theorem fitLoop_error (ops : Ops C T) (X : Frame C) : ∀ (fs : List (Feature C T)) (s : List Label) (e : Err),
    fitLoop ops X fs s = .error e → e = .key := by
  intro fs
  induction fs with
  | nil => intro s e h; cases h
  | cons f fs ih =>
    intro s e h
    unfold fitLoop at h
    by_cases hr : remaining X f s = []
    · simp only [hr, if_true] at h
      cases hl : fitLoop ops X fs s with
      | error e' => simp only [hl] at h; cases h; exact ih _ _ hl
      | ok r => simp only [hl] at h; cases h
    · simp only [hr, if_false] at h
      cases ho : fitOne ops X f.trans (remaining X f s) with
      | error e' => simp only [ho] at h; cases h; exact fitOne_error _ _ _ _ _ ho
      | ok t =>
        simp only [ho] at h
        cases hl : fitLoop ops X fs (s ++ remaining X f s) with
        | error e' => simp only [hl] at h; cases h; exact ih _ _ hl
        | ok r => simp only [hl] at h; cases h

/-- one loop or two -/
theorem bothLoop_spec (digest : String → String) {ops : Ops C T} (hlaw : Lawful ops) (X : Frame C) :
    ∀ (fs : List (Feature C T)) (s : List Label), (∀ f ∈ fs, (asked X f.columns).2 = false) →
    (∀ e, bothLoop digest ops X fs s = .error e → e = .key ∧ (fitLoop ops X fs s = .error .key ∨
      ∃ l s', fitLoop ops X fs s = .ok (l, s') ∧ transformLoop digest ops X l = .error .key)) ∧
    (∀ l s' cs ns, bothLoop digest ops X fs s = .ok (l, s', cs, ns) → ∃ l', fitLoop ops X fs s = .ok (l', s') ∧
      l = l'.filter (fun f => f.columns ≠ []) ∧ transformLoop digest ops X l' = .ok (cs, ns)) := by
  intro fs
  induction fs with
  | nil =>
    intro s _
    refine ⟨fun e h => by (cases h), fun l s' cs ns h => ?_⟩
    cases h
    exact ⟨[], rfl, rfl, rfl⟩
  | cons f fs ih =>
    intro s htup
    have htup' : ∀ g ∈ fs, (asked X g.columns).2 = false := fun g hg => htup g (by simp [hg])
    have hf := htup f (by simp)
    by_cases hr : remaining X f s = []
    · obtain ⟨ih1, ih2⟩ := ih s htup'
      have hb : bothLoop digest ops X (f :: fs) s = bothLoop digest ops X fs s := by
        simp [bothLoop, hr]
      rw [hb]
      constructor
      · intro e he
        obtain ⟨h1, h2⟩ := ih1 e he
        refine ⟨h1, ?_⟩
        rcases h2 with h2 | ⟨l, s', h2, h3⟩
        · exact Or.inl (by simp [fitLoop, hr, h2])
        · exact Or.inr ⟨⟨[], f.trans, f.aka⟩ :: l, s', by simp only [fitLoop, hr, if_true, h2], by simpa [transformLoop] using h3⟩
      · intro l s' cs ns he
        obtain ⟨l', h1, h2, h3⟩ := ih2 l s' cs ns he
        exact ⟨⟨[], f.trans, f.aka⟩ :: l', by simp only [fitLoop, hr, if_true, h1], by simpa using h2, by simpa [transformLoop] using h3⟩
    · obtain ⟨ih1, ih2⟩ := ih (s ++ remaining X f s) htup'
      -- fitting and passing on is the same as both
      have hboth : ∀ Xt, subset X (remaining X f s) = .ok Xt →
          fitOne ops X f.trans (remaining X f s) = .ok (both ops f.trans Xt).1 ∧
          passOn ops (both ops f.trans Xt).1 Xt = (both ops f.trans Xt).2 := by
        intro Xt hXt
        cases ht : f.trans with
        | none => exact ⟨rfl, rfl⟩
        | some t => simp [fitOne, both, passOn, hXt, hlaw t Xt]
      cases hs : subset X (remaining X f s) with
      | error e =>
        have hkey := fr_subset_error hs
        subst hkey
        have hb : bothLoop digest ops X (f :: fs) s = .error .key := by simp [bothLoop, hr, hf, hs]
        rw [hb]
        refine ⟨fun e he => ?_, fun l s' cs ns he => by (cases he)⟩
        cases he
        refine ⟨rfl, ?_⟩
        cases hl : fitLoop ops X (f :: fs) s with
        | error e => exact Or.inl (by rw [fitLoop_error _ _ _ _ _ hl])
        | ok r =>
          right
          obtain ⟨l, s'⟩ := r
          refine ⟨l, s', rfl, ?_⟩
          simp only [fitLoop, hr, if_false] at hl
          cases ho : fitOne ops X f.trans (remaining X f s) with
          | error e => simp only [ho] at hl; cases hl
          | ok t =>
            simp only [ho] at hl
            cases hl' : fitLoop ops X fs (s ++ remaining X f s) with
            | error e => simp only [hl'] at hl; cases hl
            | ok r =>
              simp only [hl'] at hl
              cases hl
              simp [transformLoop, hr, hs]
      | ok Xt =>
        obtain ⟨hb1, hb2⟩ := hboth Xt hs
        cases hrec : bothLoop digest ops X fs (s ++ remaining X f s) with
        | error e =>
          have hb : bothLoop digest ops X (f :: fs) s = .error e := by simp [bothLoop, hr, hf, hs, hrec]
          rw [hb]
          refine ⟨fun e' he => ?_, fun l s' cs ns he => by (cases he)⟩
          cases he
          obtain ⟨h1, h2⟩ := ih1 e hrec
          refine ⟨h1, ?_⟩
          rcases h2 with h2 | ⟨l, s', h2, h3⟩
          · exact Or.inl (by simp [fitLoop, hr, hb1, h2])
          · refine Or.inr ⟨⟨remaining X f s, (both ops f.trans Xt).1, f.aka⟩ :: l, s', by simp only [fitLoop, hr, if_false, hb1, h2], ?_⟩
            simp [transformLoop, hr, hs, h3]
        | ok r =>
          obtain ⟨l0, s0, cs0, ns0⟩ := r
          have hb : bothLoop digest ops X (f :: fs) s = .ok (⟨remaining X f s, (both ops f.trans Xt).1, f.aka⟩ :: l0, s0,
              (both ops f.trans Xt).2 ++ cs0, getNames digest ops (remaining X f s) (both ops f.trans Xt).1 f.aka
                (both ops f.trans Xt).2.length ++ ns0) := by simp [bothLoop, hr, hf, hs, hrec]
          rw [hb]
          refine ⟨fun e' he => by (cases he), fun l s' cs ns he => ?_⟩
          cases he
          obtain ⟨l', h1, h2, h3⟩ := ih2 _ _ _ _ hrec
          refine ⟨⟨remaining X f s, (both ops f.trans Xt).1, f.aka⟩ :: l', by simp only [fitLoop, hr, if_false, hb1, h1], ?_, ?_⟩
          · simp [hr, h2]
          · simp [transformLoop, hr, hs, h3, hb2]

theorem unselected_sub (X : Frame C) (s : List Label) : ∀ c ∈ unselected X s, c ∈ labels X := by
  intro c hc
  exact (List.mem_filter.mp hc).1

theorem fitLoop_selected_sub (ops : Ops C T) (X : Frame C) : ∀ (fs : List (Feature C T)) (s : List Label) (l : List (Fitted T))
    (s' : List Label), fitLoop ops X fs s = .ok (l, s') → s' = s ++ l.flatMap Fitted.columns := by
  intro fs
  induction fs with
  | nil => intro s l s' h; cases h; simp
  | cons f fs ih =>
    intro s l s' h
    unfold fitLoop at h
    by_cases hr : remaining X f s = []
    · simp only [hr, if_true] at h
      cases hl : fitLoop ops X fs s with
      | error e' => simp only [hl] at h; cases h
      | ok r =>
        simp only [hl] at h
        cases h
        simpa using ih _ _ _ hl
    · simp only [hr, if_false] at h
      cases ho : fitOne ops X f.trans (remaining X f s) with
      | error e' => simp only [ho] at h; cases h
      | ok t =>
        simp only [ho] at h
        cases hl : fitLoop ops X fs (s ++ remaining X f s) with
        | error e' => simp only [hl] at h; cases h
        | ok r =>
          simp only [hl] at h
          cases h
          have := ih _ _ _ hl
          simpa [List.append_assoc] using this

/-- there is a column nobody selected -/
theorem unselected_ne_nil {X : Frame C} (hX : (labels X).Nodup) {s : List Label} (h : (labels X).length > s.length) :
    unselected X s ≠ [] := by
  intro hn
  have hsub : labels X ⊆ s := by
    intro c hc
    by_contra hcs
    have : c ∈ unselected X s := List.mem_filter.mpr ⟨hc, by simpa using hcs⟩
    rw [hn] at this
    simp at this
  have := (List.subperm_of_subset hX hsub).length_le
  omega

/-- **C112.** `fit_transform(X)` gives the same frame, or the same exception, as `fit(X)` and then `transform(X)`, for lawful
transformers, features that are not given as tuples, and columns with short text labels. -/
theorem C112_fit_transform (digest : String → String) {ops : Ops C T} (hlaw : Lawful ops) (features : List (Feature C T))
    (default : Default T) (X : Frame C) (hX : (labels X).Nodup) (hshort : ∀ c ∈ labels X, Short c)
    (htup : ∀ f ∈ features, (asked X f.columns).2 = false) :
    (fitTransform digest ops features default X).map Prod.snd = fitThenTransform digest ops features default X := by
  obtain ⟨h1, h2⟩ := bothLoop_spec digest hlaw X features [] htup
  unfold fitTransform fitThenTransform
  cases hb : bothLoop digest ops X features [] with
  | error e =>
    obtain ⟨rfl, h⟩ := h1 e hb
    rcases h with h | ⟨l, s, h, ht⟩
    · simp [fit, h, Except.map]
    · simp only [fit, h, Except.map]
      by_cases hlen : (labels X).length > s.length
      · simp only [hlen, if_true]
        cases default with
        | no => simp [transform, ht]
        | keep => simp [transform, transformLoop_append, ht]
        | use t =>
          obtain ⟨Xt, hXt⟩ := fr_subset_total (unselected_sub X s)
          simp [transform, transformLoop_append, ht, hXt]
      · simp [hlen, transform, ht]
  | ok r =>
    obtain ⟨l, s, cs, ns⟩ := r
    obtain ⟨l', hf, hl, ht⟩ := h2 l s cs ns hb
    have hany : (l'.any fun f => decide (f.columns ≠ [])) = decide (l.length ≠ 0) := by
      rw [hl]
      cases hc : l'.any fun f => decide (f.columns ≠ []) with
      | true =>
        obtain ⟨f, hf, hne⟩ := List.any_eq_true.mp hc
        have : f ∈ l'.filter (fun f => decide (f.columns ≠ [])) := List.mem_filter.mpr ⟨hf, hne⟩
        have := List.length_pos_of_mem this
        simp only [Bool.true_eq, decide_eq_true_eq]
        omega
      | false =>
        have : l'.filter (fun f => decide (f.columns ≠ [])) = [] := by
          rw [List.filter_eq_nil_iff]
          intro f hf hne
          have := List.any_eq_false.mp hc f hf
          exact this hne
        rw [this]
        rfl
    dsimp only
    simp only [fit, hf]
    unfold bothDefault
    by_cases hlen : (labels X).length > s.length
    · simp only [hlen, if_true]
      have hne := unselected_ne_nil hX hlen
      obtain ⟨Xt, hXt⟩ := fr_subset_total (unselected_sub X s)
      cases default with
      | no =>
        simp only [transform, ht, hany]
        cases result (decide (l.length ≠ 0)) cs ns <;> rfl
      | keep =>
        simp only [hXt]
        have hlab := (fr_subset_ok.mp hXt).1
        have hlen' : (Xt.map Prod.snd).length = (unselected X s).length := by
          rw [← hlab]
          simp [labels]
        have hnames : getNames digest ops (unselected X s) none none (unselected X s).length = unselected X s :=
          getNames_none digest ops hne (fun c hc => hshort c (unselected_sub X s c (by simp [hc])))
        simp only [transform, transformLoop_append, ht]
        simp only [transformLoop, hne, if_false, hXt, passOn, hlen', hnames, List.append_nil]
        have : (l' ++ [(⟨unselected X s, none, none⟩ : Fitted T)]).any (fun f : Fitted T => decide (f.columns ≠ [])) = true := by
          simp [hne]
        rw [this]
        cases result true (cs ++ Xt.map Prod.snd) (ns ++ unselected X s) <;> rfl
      | use t =>
        simp only [hXt, hlaw t Xt]
        simp only [transform, transformLoop_append, ht]
        simp only [transformLoop, hne, if_false, hXt, passOn, List.append_nil]
        have : (l' ++ [(⟨unselected X s, some (ops.fit t Xt), none⟩ : Fitted T)]).any (fun f : Fitted T => decide (f.columns ≠ [])) = true := by
          simp [hne]
        rw [this]
        cases result true (cs ++ ops.transform (ops.fit t Xt) Xt) (ns ++ getNames digest ops (unselected X s)
          (some (ops.fit t Xt)) none (ops.transform (ops.fit t Xt) Xt).length) <;> rfl
    · simp only [hlen, if_false]
      simp only [transform, ht, hany]
      cases result (decide (l.length ≠ 0)) cs ns <;> rfl

/-- **C112.** Which columns a fitted feature has: those it asked for and no earlier feature asked for, in its own order. -/
theorem C112_first_come {ops : Ops C T} {X : Frame C} {features : List (Feature C T)} {l : List (Fitted T)} {s : List Label} :
    ∀ {s0 : List Label}, fitLoop ops X features s0 = .ok (l, s) →
    l.map Fitted.columns = (List.range features.length).map fun i =>
      ((features[i]?.map fun f => (asked X f.columns).1).getD []).filter fun c =>
        decide (c ∉ s0 ∧ ∀ g ∈ features.take i, c ∉ (asked X g.columns).1) := by
  induction features generalizing l with
  | nil => intro s0 h; cases h; rfl
  | cons f fs ih =>
    intro s0 h
    have key : ∀ (l' : List (Fitted T)) (t : Option T), fitLoop ops X fs (s0 ++ remaining X f s0) = .ok (l', s) →
        (remaining X f s0 :: l'.map Fitted.columns) = (List.range (f :: fs).length).map fun i =>
          (((f :: fs)[i]?.map fun f => (asked X f.columns).1).getD []).filter fun c =>
            decide (c ∉ s0 ∧ ∀ g ∈ (f :: fs).take i, c ∉ (asked X g.columns).1) := by
      intro l' t hl
      rw [List.length_cons, List.range_succ_eq_map, List.map_cons, List.map_map, ih hl]
      congr 1
      · simp [remaining]
      · apply List.map_congr_left
        intro i _
        simp only [Function.comp, List.getElem?_cons_succ, List.take_succ_cons, List.mem_cons, forall_eq_or_imp]
        apply List.filter_congr
        intro c _
        simp only [List.mem_append, remaining, List.mem_filter, decide_eq_true_eq, not_or, not_and, not_not,
          decide_eq_decide]
        constructor
        · rintro ⟨⟨h1, h2⟩, h3⟩
          exact ⟨h1, fun hc => h1 (h2 hc), h3⟩
        · rintro ⟨h1, h2, h3⟩
          exact ⟨⟨h1, fun hc => absurd hc h2⟩, h3⟩
    unfold fitLoop at h
    by_cases hr : remaining X f s0 = []
    · simp only [hr, if_true] at h
      cases hl : fitLoop ops X fs s0 with
      | error e => simp only [hl] at h; cases h
      | ok r =>
        simp only [hl] at h
        cases h
        have := key r.1 none (by rw [hr, List.append_nil]; exact hl)
        rw [hr] at this
        exact this
    · simp only [hr, if_false] at h
      cases ho : fitOne ops X f.trans (remaining X f s0) with
      | error e => simp only [ho] at h; cases h
      | ok t =>
        simp only [ho] at h
        cases hl : fitLoop ops X fs (s0 ++ remaining X f s0) with
        | error e => simp only [hl] at h; cases h
        | ok r =>
          simp only [hl] at h
          cases h
          exact key r.1 t hl

theorem fitLoop_nodup {ops : Ops C T} {X : Frame C} : ∀ (features : List (Feature C T)) (s0 : List Label) (l : List (Fitted T))
    (s : List Label), (∀ f ∈ features, (asked X f.columns).1.Nodup) → s0.Nodup → fitLoop ops X features s0 = .ok (l, s) →
    s.Nodup := by
  intro features
  induction features with
  | nil => intro s0 l s _ h0 h; cases h; exact h0
  | cons f fs ih =>
    intro s0 l s hn h0 h
    have hn' : ∀ g ∈ fs, (asked X g.columns).1.Nodup := fun g hg => hn g (by simp [hg])
    unfold fitLoop at h
    by_cases hr : remaining X f s0 = []
    · simp only [hr, if_true] at h
      cases hl : fitLoop ops X fs s0 with
      | error e => simp only [hl] at h; cases h
      | ok r => simp only [hl] at h; cases h; exact ih _ _ _ hn' h0 hl
    · simp only [hr, if_false] at h
      cases ho : fitOne ops X f.trans (remaining X f s0) with
      | error e => simp only [ho] at h; cases h
      | ok t =>
        simp only [ho] at h
        cases hl : fitLoop ops X fs (s0 ++ remaining X f s0) with
        | error e => simp only [hl] at h; cases h
        | ok r =>
          simp only [hl] at h
          cases h
          refine ih _ _ _ hn' ?_ hl
          rw [List.nodup_append]
          refine ⟨h0, (hn f (by simp)).filter _, ?_⟩
          intro a ha b hb hab
          subst hab
          have := (List.mem_filter.mp hb).2
          simp [ha] at this

/-- **C112.** With a default other than `False` every column of the data goes to exactly one fitted feature, if the features
ask for columns of the data, none of them twice for the same one. -/
theorem C112_every_column_once {ops : Ops C T} {X : Frame C} (hX : (labels X).Nodup) {features : List (Feature C T)}
    {default : Default T} {l : List (Fitted T)} (hd : default ≠ .no)
    (hask : ∀ f ∈ features, (asked X f.columns).1.Nodup ∧ ∀ c ∈ (asked X f.columns).1, c ∈ labels X)
    (h : fit ops features default X = .ok l) : (l.flatMap Fitted.columns).Perm (labels X) := by
  unfold fit at h
  cases hl : fitLoop ops X features [] with
  | error e => simp only [hl] at h; cases h
  | ok r =>
    obtain ⟨l', s⟩ := r
    simp only [hl] at h
    have hs := fitLoop_selected_sub ops X _ _ _ _ hl
    rw [List.nil_append] at hs
    have hnd := fitLoop_nodup features [] l' s (fun f hf => (hask f hf).1) (by simp) hl
    have hsub : ∀ c ∈ s, c ∈ labels X := by
      intro c hc
      rw [hs] at hc
      obtain ⟨g, hg, hcg⟩ := List.mem_flatMap.mp hc
      have hm : g.columns ∈ l'.map Fitted.columns := List.mem_map_of_mem hg
      rw [C112_first_come hl] at hm
      obtain ⟨i, hi, he⟩ := List.mem_map.mp hm
      rw [← he] at hcg
      have hcg := (List.mem_filter.mp hcg).1
      have hlt : i < features.length := List.mem_range.mp hi
      rw [List.getElem?_eq_getElem hlt] at hcg
      exact (hask _ (List.getElem_mem hlt)).2 c hcg
    have hperm : (s ++ unselected X s).Perm (labels X) := by
      rw [List.perm_ext_iff_of_nodup]
      · intro c
        simp only [List.mem_append, unselected, List.mem_filter, decide_eq_true_eq]
        constructor
        · rintro (hc | ⟨hc, _⟩)
          · exact hsub c hc
          · exact hc
        · intro hc
          by_cases hcs : c ∈ s
          · exact Or.inl hcs
          · exact Or.inr ⟨hc, hcs⟩
      · rw [List.nodup_append]
        refine ⟨hnd, hX.filter _, ?_⟩
        intro a ha b hb hab
        subst hab
        have := (List.mem_filter.mp hb).2
        simp [ha] at this
      · exact hX
    by_cases hlen : (labels X).length > s.length
    · simp only [hlen, if_true] at h
      cases default with
      | no => exact absurd rfl hd
      | keep =>
        cases h
        simpa [← hs] using hperm
      | use t =>
        cases hsb : subset X (unselected X s) with
        | error e => simp only [hsb] at h; cases h
        | ok Xt =>
          simp only [hsb] at h
          cases h
          simpa [← hs] using hperm
    · simp only [hlen, if_false] at h
      cases h
      rw [← hs]
      have h1 := hperm.length_eq
      simp only [List.length_append] at h1
      have : unselected X s = [] := List.length_eq_zero_iff.mp (by omega)
      simpa [this] using hperm

/-- **C112.** As many names as columns, as soon as there is a column. -/
theorem C112_names (digest : String → String) (ops : Ops C T) (cols : List Label) (t : Option T) (a : Option Label) {n : Nat}
    (hn : 1 ≤ n) : (getNames digest ops cols t a n).length = n := by
  unfold getNames
  by_cases h : n > 1
  · simp only [h, if_true]
    split
    · split
      · assumption
      · simp
    · simp
  · simp only [h, if_false, List.length_singleton]
    omega

/-- the columns a fitted feature makes of a frame -/
def outs (ops : Ops C T) (X : Frame C) (f : Fitted T) : List C :=
  if f.columns = [] then [] else
    match subset X f.columns with
    | .error _ => []
    | .ok Xt => passOn ops f.trans Xt

theorem transformLoop_outs (digest : String → String) (ops : Ops C T) (X : Frame C) : ∀ (fitted : List (Fitted T)),
    (∀ f ∈ fitted, f.columns ≠ [] → ∃ Xt, subset X f.columns = .ok Xt) →
    ∃ ns, transformLoop digest ops X fitted = .ok (fitted.flatMap (outs ops X), ns) ∧
      ns.length = (fitted.flatMap (outs ops X)).length +
        (fitted.filter fun f => decide (f.columns ≠ [] ∧ outs ops X f = [])).length := by
  intro fitted
  induction fitted with
  | nil => intro _; exact ⟨[], rfl, rfl⟩
  | cons f fs ih =>
    intro h
    obtain ⟨ns, e, hl⟩ := ih (fun g hg => h g (List.mem_cons_of_mem _ hg))
    unfold transformLoop
    by_cases hc : f.columns = []
    · rw [if_pos hc]
      have ho : outs ops X f = [] := by unfold outs; rw [if_pos hc]
      refine ⟨ns, ?_, ?_⟩
      · rw [e, List.flatMap_cons, ho, List.nil_append]
      · rw [List.flatMap_cons, ho, List.nil_append, List.filter_cons_of_neg (by simp [hc]), hl]
    · rw [if_neg hc]
      obtain ⟨Xt, hXt⟩ := h f List.mem_cons_self hc
      have ho : outs ops X f = passOn ops f.trans Xt := by unfold outs; rw [if_neg hc, hXt]
      simp only [hXt, e]
      refine ⟨_, by rw [List.flatMap_cons, ho], ?_⟩
      rw [List.flatMap_cons, List.length_append, List.length_append, ho, hl]
      by_cases hz : passOn ops f.trans Xt = []
      · rw [List.filter_cons_of_pos (by simp [hc, ho, hz]), hz]
        simp [getNames]
        omega
      · rw [List.filter_cons_of_neg (by simp [ho, hz])]
        have : 1 ≤ (passOn ops f.trans Xt).length := by
          cases hp : passOn ops f.trans Xt with
          | nil => exact absurd hp hz
          | cons a b => simp
        rw [C112_names digest ops _ _ _ this]
        omega

/-- **C112.** `transform` returns exactly the columns the features make, in the order of the features: nothing is lost
and nothing added. A feature with columns whose transformer makes none of them is an error, and so is a mapper none of
whose features has columns. -/
theorem C112_output (digest : String → String) (ops : Ops C T) (X : Frame C) (fitted : List (Fitted T))
    (h : ∀ f ∈ fitted, f.columns ≠ [] → ∃ Xt, subset X f.columns = .ok Xt) :
    ((∃ f ∈ fitted, f.columns ≠ []) → (∀ f ∈ fitted, f.columns ≠ [] → outs ops X f ≠ []) →
      ∃ Z, transform digest ops fitted X = .ok Z ∧ Z.map Prod.snd = fitted.flatMap (outs ops X)) ∧
    ((∃ f ∈ fitted, f.columns ≠ [] ∧ outs ops X f = []) → transform digest ops fitted X = .error .value) ∧
    ((∀ f ∈ fitted, f.columns = []) → transform digest ops fitted X = .error .value) := by
  obtain ⟨ns, e, hl⟩ := transformLoop_outs digest ops X fitted h
  unfold transform
  simp only [e]
  refine ⟨?_, ?_, ?_⟩
  · rintro ⟨f, hf, hc⟩ hall
    have hany : (fitted.any fun f => decide (f.columns ≠ [])) = true := List.any_eq_true.mpr ⟨f, hf, by simp [hc]⟩
    have hz : (fitted.filter fun f => decide (f.columns ≠ [] ∧ outs ops X f = [])) = [] := by
      apply List.filter_eq_nil_iff.mpr
      intro g hg
      simp only [decide_eq_true_eq, not_and]
      exact hall g hg
    rw [hz] at hl
    unfold result
    rw [hany, if_neg (by simp), if_pos (by simpa using hl.symm)]
    exact ⟨_, rfl, by rw [List.map_snd_zip]; exact le_of_eq (by simpa using hl.symm)⟩
  · rintro ⟨f, hf, hc, ho⟩
    have hz : 0 < (fitted.filter fun f => decide (f.columns ≠ [] ∧ outs ops X f = [])).length :=
      List.length_pos_of_mem (List.mem_filter.mpr ⟨hf, by simp [hc, ho]⟩)
    unfold result
    by_cases hx : (fitted.any fun f => decide (f.columns ≠ [])) = false
    · rw [if_pos hx]
    · rw [if_neg hx, if_neg (by omega)]
  · intro hall
    have hany : (fitted.any fun f => decide (f.columns ≠ [])) = false := by
      rw [Bool.eq_false_iff]
      intro hh
      obtain ⟨f, hf, hc⟩ := List.any_eq_true.mp hh
      simp only [decide_eq_true_eq] at hc
      exact hc (hall f hf)
    unfold result
    rw [hany, if_pos rfl]

/-- transformers that only keep the columns, as an example -/
def keepOps : Ops (List Nat) Unit where
  fit := fun _ _ => ()
  transform := fun _ X => X.map Prod.snd
  fitTransform := fun _ X => ((), X.map Prod.snd)
  names := fun _ _ _ => none

theorem keepOps_lawful : Lawful keepOps := fun _ _ => rfl

/-- the hypotheses of C112 are met by a frame with two groups and a rest -/
example : (fitTransform (fun s => s) keepOps
      [⟨.callable (fun X => (labels X).take 2), some (), none⟩, ⟨.list [.text "b", .text "c"], none, none⟩] .keep
      [(.text "a", [1, 2]), (.text "b", [3, 4]), (.text "c", [5, 6]), (.text "d", [7, 8])]).map Prod.snd =
    .ok [(.text "a", [1, 2]), (.text "b", [3, 4]), (.text "c", [5, 6]), (.text "d", [7, 8])] := by decide +kernel

/-- the hypotheses of `C112_output` are met, and its second case by a transformer without output -/
example : transform (fun s => s) keepOps [⟨[.text "b"], some (), none⟩, ⟨[], none, none⟩, ⟨[.text "a"], none, none⟩]
      [(.text "a", [1, 2]), (.text "b", [3, 4])] = .ok [(.text "b", [3, 4]), (.text "a", [1, 2])] ∧
    transform (fun s => s) { keepOps with transform := fun _ _ => [] } [⟨[.text "b"], some (), none⟩, ⟨[.text "a"], none, none⟩]
      [(.text "a", [1, 2]), (.text "b", [3, 4])] = .error .value := by decide +kernel

/-- **C112, refuted without short labels.** An integer label (or a long one) that stays alone in the rest is kept by
`fit_transform` and renamed by `transform`. -/
theorem C112_names_refuted (digest : String → String) :
    (fitTransform digest keepOps [] .keep [(.num 5, [1, 2])]).map Prod.snd = .ok [(.num 5, [1, 2])] ∧
    fitThenTransform digest keepOps [] .keep [(.num 5, [1, 2])] = .ok [(.text "5", [1, 2])] :=
  ⟨rfl, by rfl⟩

/-- **C112, refuted for tuples.** Columns given as a tuple: `fit` and `transform` work, `fit_transform` raises `KeyError`. -/
theorem C112_tuple_refuted (digest : String → String) :
    (fitTransform digest keepOps [⟨.tuple [.text "a", .text "b"], some (), none⟩] .no
      [(.text "a", [1, 2]), (.text "b", [3, 4])]).map Prod.snd = .error .key ∧
    fitThenTransform digest keepOps [⟨.tuple [.text "a", .text "b"], some (), none⟩] .no
      [(.text "a", [1, 2]), (.text "b", [3, 4])] = .ok [(.text "a", [1, 2]), (.text "b", [3, 4])] :=
  ⟨rfl, by rfl⟩

/-- **C112, refuted for repeated columns.** A feature that names a column twice makes the mapper lose another column. -/
theorem C112_repeated_refuted (digest : String → String) :
    fitThenTransform digest keepOps [⟨.list [.text "a", .text "a"], some (), none⟩] .keep
      [(.text "a", [1, 2]), (.text "b", [3, 4])] = .ok [(.text "a", [1, 2]), (.text "a", [1, 2])] := by rfl

end Frames

/-! ### DataCleaner -/

section Clean
variable {V : Type} [DecidableEq V]

/-- at most one value, NaN apart -/
def OneValue (c : Col V) : Prop := ∀ a b : V, some a ∈ c.cells → some b ∈ c.cells → a = b

/-- the number of different values, NaN apart -/
def valueCount (c : Col V) : Nat := (c.cells.filterMap id).toFinset.card

/-- the values of this kind of column are (almost) all different: more than 99 of 100 rows have a value of their own -/
def IdLike (c : Col V) (rows : Nat) : Prop :=
  c.dtype ∈ [.object, .category, .bool, .int] ∧ 0 < rows ∧ 99 * rows < 100 * valueCount c

theorem nunique_eq (c : Col V) : nunique c = valueCount c := by
  simp [nunique, valueCount, List.card_toFinset]

theorem nunique_le_one (c : Col V) : nunique c ≤ 1 ↔ OneValue c := by
  rw [nunique_eq, valueCount, Finset.card_le_one]
  simp only [List.mem_toFinset, List.mem_filterMap, id, exists_eq_right, OneValue]
  exact ⟨fun h a b ha hb => h a ha b hb, fun h a ha b hb => h a b ha hb⟩

/-- the cells of a column after `nan_chars` and after the rows without a label are gone -/
def seen (p : Cleaner V) (y : Option (List (Option V))) (rows : Nat) (c : Col V) : Col V :=
  { p.first c with cells := keepRows (keepMask p rows y) (p.first c).cells }

/-- `reserve_columns` protects this label -/
def Reserved (p : Cleaner V) (c : Label) : Prop := ∃ l, p.reserve = some l ∧ c ∈ l

/-- an earlier column, itself not in `drop_columns`, has the same cells -/
def EarlierTwin (p : Cleaner V) (y : Option (List (Option V))) (rows : Nat) (X : Frame (Col V)) (c : Label) : Prop :=
  ∃ pre between post : Frame (Col V), ∃ e e' : Label × Col V, X = pre ++ e :: between ++ e' :: post ∧ e'.1 = c ∧
    e.1 ∉ p.dropColumns.getD [] ∧ (seen p y rows e.2).cells = (seen p y rows e'.2).cells

theorem notReserved_iff (p : Cleaner V) (c : Label) : notReserved p.reserve c = true ↔ ¬ Reserved p c := by
  unfold notReserved Reserved
  cases p.reserve with
  | none => simp
  | some l => simp

theorem labels_dropCols (X : Frame (Col V)) (cols : List Label) : labels (dropCols X cols) = (labels X).filter fun c => c ∉ cols := by
  simp only [labels, dropCols, List.filter_map]
  rfl

theorem labels_mapCols (X : Frame (Col V)) (g : Col V → Col V) : labels (X.map fun e => (e.1, g e.2)) = labels X := by
  simp [labels, List.map_map, Function.comp_def]

theorem mem_dropCols {X : Frame (Col V)} {cols : List Label} {e : Label × Col V} :
    e ∈ dropCols X cols ↔ e ∈ X ∧ e.1 ∉ cols := by
  simp [dropCols]

theorem dropCols_nodup {X : Frame (Col V)} (h : (labels X).Nodup) (cols : List Label) : (labels (dropCols X cols)).Nodup := by
  rw [labels_dropCols]
  exact h.filter _

/-- two columns of one frame with the same label are the same -/
theorem label_unique {C : Type} {X : Frame C} (h : (labels X).Nodup) {c : Label} {a b : C} (ha : (c, a) ∈ X) (hb : (c, b) ∈ X) :
    a = b := by
  have h1 := fr_column_mem h ha
  have h2 := fr_column_mem h hb
  rw [h1] at h2
  exact Option.some.inj h2

theorem mem_constantCols {X : Frame (Col V)} (h : (labels X).Nodup) (p : Cleaner V) {e : Label × Col V} (he : e ∈ X) :
    e.1 ∈ constantCols X p.reserve ↔ OneValue e.2 ∧ ¬ Reserved p e.1 := by
  simp only [constantCols, List.mem_map, List.mem_filter, decide_eq_true_eq, nunique_le_one, notReserved_iff]
  constructor
  · rintro ⟨e', ⟨h1, h2, h3⟩, h4⟩
    have : e'.2 = e.2 := label_unique h (c := e.1) (by rw [← h4]; exact h1) he
    rw [← this, ← h4]
    exact ⟨h2, h3⟩
  · rintro ⟨h1, h2⟩
    exact ⟨e, ⟨he, h1, h2⟩, rfl⟩

theorem countable_iff (c : Col V) : countable c = true ↔ c.dtype ∈ [DType.object, .category, .bool, .int] := by
  unfold countable
  cases c.dtype <;> simp

theorem mem_idnessCols {X : Frame (Col V)} (h : (labels X).Nodup) (p : Cleaner V) (rows : Nat) {e : Label × Col V} (he : e ∈ X) :
    e.1 ∈ idnessCols X rows p.reserve ↔ IdLike e.2 rows ∧ ¬ Reserved p e.1 := by
  simp only [idnessCols, List.mem_map, List.mem_filter, decide_eq_true_eq, nunique_eq, notReserved_iff, IdLike, countable_iff]
  constructor
  · rintro ⟨e', ⟨h1, h2, h3, h5, h6⟩, h4⟩
    have : e'.2 = e.2 := label_unique h (c := e.1) (by rw [← h4]; exact h1) he
    rw [← this, ← h4]
    exact ⟨⟨h2, by omega, by omega⟩, h6⟩
  · rintro ⟨⟨h1, h2, h3⟩, h4⟩
    exact ⟨e, ⟨he, h1, by omega, by omega, h4⟩, rfl⟩

theorem mem_duplicated : ∀ (X : Frame (Col V)) (old : List (List (Option V))) (c : Label),
    c ∈ duplicated X old ↔ ∃ pre e' post, X = pre ++ e' :: post ∧ e'.1 = c ∧
      (e'.2.cells ∈ old ∨ ∃ e ∈ pre, e.2.cells = e'.2.cells) := by
  intro X
  induction X with
  | nil => intro old c; simp [duplicated]
  | cons x X ih =>
    intro old c
    have step : ∀ old' : List (List (Option V)), (∃ pre e' post, X = pre ++ e' :: post ∧ e'.1 = c ∧ (e'.2.cells ∈ old' ∨ ∃ e ∈ pre, e.2.cells = e'.2.cells)) →
        (∀ a, a ∈ old' → a ∈ old ∨ a = x.2.cells) →
        ∃ pre e' post, x :: X = pre ++ e' :: post ∧ e'.1 = c ∧ (e'.2.cells ∈ old ∨ ∃ e ∈ pre, e.2.cells = e'.2.cells) := by
      rintro old' ⟨pre, e', post, h1, h2, h3⟩ hold
      refine ⟨x :: pre, e', post, by simp [h1], h2, ?_⟩
      rcases h3 with h3 | ⟨e, he, h3⟩
      · rcases hold _ h3 with h | h
        · exact Or.inl h
        · exact Or.inr ⟨x, by simp, h.symm⟩
      · exact Or.inr ⟨e, by simp [he], h3⟩
    unfold duplicated
    by_cases hx : x.2.cells ∈ old
    · rw [if_pos hx, List.mem_cons, ih]
      constructor
      · rintro (rfl | h)
        · exact ⟨[], x, X, rfl, rfl, Or.inl hx⟩
        · exact step old h (fun a ha => Or.inl ha)
      · rintro ⟨pre, e', post, h1, h2, h3⟩
        cases pre with
        | nil =>
          simp only [List.nil_append, List.cons.injEq] at h1
          left
          rw [h1.1, h2]
        | cons a pre =>
          simp only [List.cons_append, List.cons.injEq] at h1
          right
          refine ⟨pre, e', post, h1.2, h2, ?_⟩
          rcases h3 with h3 | ⟨e, he, h3⟩
          · exact Or.inl h3
          · rcases List.mem_cons.mp he with rfl | he
            · left
              rw [← h3, ← h1.1]
              exact hx
            · exact Or.inr ⟨e, he, h3⟩
    · rw [if_neg hx, ih]
      constructor
      · intro h
        exact step _ h (fun a ha => by
          rcases List.mem_cons.mp ha with rfl | ha
          · exact Or.inr rfl
          · exact Or.inl ha)
      · rintro ⟨pre, e', post, h1, h2, h3⟩
        cases pre with
        | nil =>
          simp only [List.nil_append, List.cons.injEq] at h1
          rw [h1.1] at hx
          simp [hx] at h3
        | cons a pre =>
          simp only [List.cons_append, List.cons.injEq] at h1
          refine ⟨pre, e', post, h1.2, h2, ?_⟩
          rcases h3 with h3 | ⟨e, he, h3⟩
          · exact Or.inl (by simp [h3])
          · rcases List.mem_cons.mp he with rfl | he
            · left
              rw [← h3, ← h1.1]
              simp
            · exact Or.inr ⟨e, he, h3⟩

/-- the columns before the decisions -/
def basis (p : Cleaner V) (X : Frame (Col V)) (rows : Nat) (y : Option (List (Option V))) : Frame (Col V) :=
  dropCols (X.map fun e => (e.1, seen p y rows e.2)) (p.dropColumns.getD [])

theorem mem_basis {p : Cleaner V} {X : Frame (Col V)} {rows : Nat} {y : Option (List (Option V))} {c : Label} {v : Col V} :
    (c, v) ∈ basis p X rows y ↔ ∃ col, (c, col) ∈ X ∧ v = seen p y rows col ∧ c ∉ p.dropColumns.getD [] := by
  simp only [basis, mem_dropCols, List.mem_map, Prod.mk.injEq, Prod.exists]
  constructor
  · rintro ⟨⟨a, b, h1, rfl, rfl⟩, h2⟩
    exact ⟨b, h1, rfl, h2⟩
  · rintro ⟨col, h1, rfl, h2⟩
    exact ⟨⟨c, col, h1, rfl, rfl⟩, h2⟩

theorem basis_labels (p : Cleaner V) (X : Frame (Col V)) (rows : Nat) (y : Option (List (Option V))) :
    labels (basis p X rows y) = (labels X).filter fun c => c ∉ p.dropColumns.getD [] := by
  rw [basis, labels_dropCols]
  congr 1
  simp [labels, List.map_map, Function.comp_def]

theorem twin_basis {p : Cleaner V} {X : Frame (Col V)} {rows : Nat} {y : Option (List (Option V))} {c : Label}
    (hc : c ∉ p.dropColumns.getD []) :
    c ∈ duplicated (basis p X rows y) [] ↔ EarlierTwin p y rows X c := by
  have gen : ∀ (X : Frame (Col V)) (old : List (List (Option V))), c ∈ duplicated (basis p X rows y) old ↔
      ∃ pre e' post, X = pre ++ e' :: post ∧ e'.1 = c ∧ ((seen p y rows e'.2).cells ∈ old ∨
        ∃ e ∈ pre, e.1 ∉ p.dropColumns.getD [] ∧ (seen p y rows e.2).cells = (seen p y rows e'.2).cells) := by
    intro X
    induction X with
    | nil => intro old; simp [basis, duplicated, dropCols]
    | cons x X ih =>
      intro old
      by_cases hx : x.1 ∈ p.dropColumns.getD []
      · have : basis p (x :: X) rows y = basis p X rows y := by
          simp [basis, dropCols, hx]
        rw [this, ih]
        constructor
        · rintro ⟨pre, e', post, h1, h2, h3⟩
          refine ⟨x :: pre, e', post, by simp [h1], h2, ?_⟩
          rcases h3 with h3 | ⟨e, he, h3⟩
          · exact Or.inl h3
          · exact Or.inr ⟨e, by simp [he], h3⟩
        · rintro ⟨pre, e', post, h1, h2, h3⟩
          cases pre with
          | nil =>
            simp only [List.nil_append, List.cons.injEq] at h1
            rw [h1.1, h2] at hx
            exact absurd hx hc
          | cons a pre =>
            simp only [List.cons_append, List.cons.injEq] at h1
            refine ⟨pre, e', post, h1.2, h2, ?_⟩
            rcases h3 with h3 | ⟨e, he, h4, h3⟩
            · exact Or.inl h3
            · rcases List.mem_cons.mp he with rfl | he
              · exact absurd (h1.1 ▸ hx) h4
              · exact Or.inr ⟨e, he, h4, h3⟩
      · have hb : basis p (x :: X) rows y = (x.1, seen p y rows x.2) :: basis p X rows y := by
          simp [basis, dropCols, hx]
        rw [hb, mem_duplicated]
        constructor
        · rintro ⟨pre, e', post, h1, h2, h3⟩
          cases pre with
          | nil =>
            simp only [List.nil_append, List.cons.injEq] at h1
            rw [← h1.1] at h2 h3
            simp only [List.not_mem_nil, false_and, exists_false, or_false] at h3
            exact ⟨[], x, X, rfl, h2, Or.inl h3⟩
          | cons a pre =>
            simp only [List.cons_append, List.cons.injEq] at h1
            have := (ih ((seen p y rows x.2).cells :: old)).mp ((mem_duplicated _ _ _).mpr ⟨pre, e', post, h1.2, h2, by
              rcases h3 with h3 | ⟨e, he, h3⟩
              · exact Or.inl (by simp [h3])
              · rcases List.mem_cons.mp he with rfl | he
                · left
                  rw [← h3, ← h1.1]
                  simp
                · exact Or.inr ⟨e, he, h3⟩⟩)
            obtain ⟨pre', f, post', g1, g2, g3⟩ := this
            refine ⟨x :: pre', f, post', by simp [g1], g2, ?_⟩
            rcases g3 with g3 | ⟨e, he, g3⟩
            · rcases List.mem_cons.mp g3 with g3 | g3
              · exact Or.inr ⟨x, by simp, hx, g3.symm⟩
              · exact Or.inl g3
            · exact Or.inr ⟨e, by simp [he], g3⟩
        · rintro ⟨pre, e', post, h1, h2, h3⟩
          cases pre with
          | nil =>
            simp only [List.nil_append, List.cons.injEq] at h1
            rw [← h1.1] at h2 h3
            simp only [List.not_mem_nil, false_and, exists_false, or_false] at h3
            exact ⟨[], _, _, rfl, h2, Or.inl h3⟩
          | cons a pre =>
            simp only [List.cons_append, List.cons.injEq] at h1
            have := (mem_duplicated _ _ _).mp ((ih ((seen p y rows x.2).cells :: old)).mpr ⟨pre, e', post, h1.2, h2, by
              rcases h3 with h3 | ⟨e, he, h4, h3⟩
              · exact Or.inl (by simp [h3])
              · rcases List.mem_cons.mp he with rfl | he
                · left
                  rw [← h3, ← h1.1]
                  simp
                · exact Or.inr ⟨e, he, h4, h3⟩⟩)
            obtain ⟨pre', f, post', g1, g2, g3⟩ := this
            refine ⟨(x.1, seen p y rows x.2) :: pre', f, post', by simp [g1], g2, ?_⟩
            rcases g3 with g3 | ⟨e, he, g3⟩
            · rcases List.mem_cons.mp g3 with g3 | g3
              · exact Or.inr ⟨(x.1, seen p y rows x.2), by simp, g3.symm⟩
              · exact Or.inl g3
            · exact Or.inr ⟨e, by simp [he], g3⟩
  rw [gen]
  constructor
  · rintro ⟨pre, e', post, h1, h2, h3⟩
    rcases h3 with h3 | ⟨e, he, h4, h3⟩
    · simp at h3
    · obtain ⟨pre1, pre2, rfl⟩ := List.append_of_mem he
      exact ⟨pre1, pre2, post, e, e', by simp [h1], h2, h4, h3⟩
  · rintro ⟨pre, between, post, e, e', h1, h2, h4, h3⟩
    exact ⟨pre ++ e :: between, e', post, by simp [h1], h2, Or.inr ⟨e, by simp, h4, h3⟩⟩

theorem cleanData_eq (p : Cleaner V) (s : Fit) (X : Frame (Col V)) (rows : Nat) (y : Option (List (Option V))) :
    cleanData p s X rows y =
      (let a := block p.dropDuplicated s.duplicated (fun X => duplicatedCols X p.reserve) (basis p X rows y)
       let b := block p.dropIdness s.idness (fun X => idnessCols X ((keepMask p rows y).filter id).length p.reserve) a.1
       let c := block p.dropConstant s.constant (fun X => constantCols X p.reserve) b.1
       (c.1.map fun e => (e.1, p.last e.2), y.map (keepRows (keepMask p rows y)),
        { s with duplicated := a.2, idness := b.2, constant := c.2 })) := by
  have : (X.map fun e => (e.1, p.first e.2)).map (fun e => (e.1, { e.2 with cells := keepRows (keepMask p rows y) e.2.cells })) =
      X.map fun e => (e.1, seen p y rows e.2) := by
    simp [List.map_map, Function.comp_def, seen]
  simp only [cleanData, this, basis]

theorem block_new (on : Bool) (decide : Frame (Col V) → List Label) (X : Frame (Col V)) :
    (block on none decide X).1 = dropCols X (if on then decide X else []) := by
  cases on <;> simp [block, dropCols]

/-- **C113.** What a new cleaner keeps when it is fitted: exactly the columns that are not in `drop_columns` and are reserved
or, as far as the switches are on, neither equal to an earlier column, nor id-like, nor constant - judged on the rows that
have a label - in the order of the data, with the cells converted; and it remembers exactly their labels. -/
theorem C113_fit (p : Cleaner V) (X : Frame (Col V)) (hX : (labels X).Nodup) (rows : Nat) (y : Option (List (Option V))) :
    (labels (cleanFit p .new X rows y).1).Sublist (labels X) ∧
    (cleanFit p .new X rows y).2.2.columns = some (labels (cleanFit p .new X rows y).1) ∧
    ∀ c v, (c, v) ∈ (cleanFit p .new X rows y).1 ↔ ∃ col, (c, col) ∈ X ∧ v = p.last (seen p y rows col) ∧
      c ∉ p.dropColumns.getD [] ∧
      (Reserved p c ∨ ((p.dropDuplicated = true → ¬ EarlierTwin p y rows X c) ∧
        (p.dropIdness = true → ¬ IdLike (seen p y rows col) ((keepMask p rows y).filter id).length) ∧
        (p.dropConstant = true → ¬ OneValue (seen p y rows col)))) := by
  have hbn : (labels (basis p X rows y)).Nodup := by
    rw [basis_labels]
    exact hX.filter _
  refine ⟨?_, rfl, ?_⟩
  · simp only [cleanFit, cleanData_eq, Fit.new, labels_mapCols, block_new, labels_dropCols, basis_labels]
    exact (List.filter_sublist.trans List.filter_sublist).trans (List.filter_sublist.trans List.filter_sublist)
  · intro c v
    simp only [cleanFit, cleanData_eq, Fit.new, block_new]
    set D := if p.dropDuplicated then duplicatedCols (basis p X rows y) p.reserve else [] with hD
    set Xa := dropCols (basis p X rows y) D with hXa
    set I := if p.dropIdness then idnessCols Xa ((keepMask p rows y).filter id).length p.reserve else [] with hI
    set Xb := dropCols Xa I with hXb
    set K := if p.dropConstant then constantCols Xb p.reserve else [] with hK
    have hna : (labels Xa).Nodup := dropCols_nodup hbn _
    have hnb : (labels Xb).Nodup := dropCols_nodup hna _
    simp only [List.mem_map, Prod.mk.injEq, Prod.exists]
    constructor
    · rintro ⟨c', col', hm, rfl, rfl⟩
      obtain ⟨hm, hc⟩ := mem_dropCols.mp hm
      have hmb := hm
      obtain ⟨hm, hb⟩ := mem_dropCols.mp hm
      have hma := hm
      obtain ⟨hm, ha⟩ := mem_dropCols.mp hm
      obtain ⟨col, h1, rfl, h2⟩ := mem_basis.mp hm
      refine ⟨col, h1, rfl, h2, ?_⟩
      by_cases hr : Reserved p c'
      · exact Or.inl hr
      · right
        refine ⟨fun hon ht => ha ?_, fun hon ht => hb ?_, fun hon ht => hc ?_⟩
        · rw [hD, if_pos hon, duplicatedCols, List.mem_filter]
          exact ⟨(twin_basis h2).mpr ht, (notReserved_iff p c').mpr hr⟩
        · rw [hI, if_pos hon]
          exact (mem_idnessCols hna p _ hma).mpr ⟨ht, hr⟩
        · rw [hK, if_pos hon]
          exact (mem_constantCols hnb p hmb).mpr ⟨ht, hr⟩
    · rintro ⟨col, h1, rfl, h2, h3⟩
      have hbas : (c, seen p y rows col) ∈ basis p X rows y := mem_basis.mpr ⟨col, h1, rfl, h2⟩
      have hma : (c, seen p y rows col) ∈ Xa := by
        refine mem_dropCols.mpr ⟨hbas, fun hm => ?_⟩
        rw [hD] at hm
        split at hm
        · rename_i hon
          rw [duplicatedCols, List.mem_filter, twin_basis h2, notReserved_iff] at hm
          rcases h3 with h3 | h3
          · exact hm.2 h3
          · exact h3.1 hon hm.1
        · simp at hm
      have hmb : (c, seen p y rows col) ∈ Xb := by
        refine mem_dropCols.mpr ⟨hma, fun hm => ?_⟩
        rw [hI] at hm
        split at hm
        · rename_i hon
          obtain ⟨g1, g2⟩ := (mem_idnessCols hna p _ hma).mp hm
          rcases h3 with h3 | h3
          · exact g2 h3
          · exact h3.2.1 hon g1
        · simp at hm
      refine ⟨c, seen p y rows col, mem_dropCols.mpr ⟨hmb, fun hm => ?_⟩, rfl, rfl⟩
      rw [hK] at hm
      split at hm
      · rename_i hon
        obtain ⟨g1, g2⟩ := (mem_constantCols hnb p hmb).mp hm
        rcases h3 with h3 | h3
        · exact g2 h3
        · exact h3.2.2 hon g1
      · simp at hm

/-- **C113.** The rows: with labels, those whose label is not NaN (all, if these are to be kept), of every column and of the
labels themselves; without labels, all. -/
theorem C113_rows (p : Cleaner V) (rows : Nat) {A : Type} (l : List A) :
    (∀ y : List (Option V), p.dropLabelNan = true → keepRows (keepMask p rows (some y)) l =
      ((l.zip y).filter fun e => e.2.isSome).map Prod.fst) ∧
    (∀ y : List (Option V), p.dropLabelNan = true → keepRows (keepMask p rows (some y)) y = y.filter Option.isSome) ∧
    (∀ y : List (Option V), p.dropLabelNan = false → y.length = l.length → keepRows (keepMask p rows (some y)) l = l) ∧
    (l.length = rows → keepRows (keepMask p rows (none : Option (List (Option V)))) l = l) := by
  have all : ∀ {A : Type} (l : List A) (m : List Bool), m.length = l.length → (∀ b ∈ m, b = true) → keepRows m l = l := by
    intro A l
    induction l with
    | nil => intro m _ _; simp [keepRows]
    | cons a l ih =>
      intro m hl hm
      cases m with
      | nil => simp at hl
      | cons b m =>
        have := ih m (by simpa using hl) (fun b hb => hm b (by simp [hb]))
        have hb := hm b (by simp)
        subst hb
        simpa [keepRows] using this
  refine ⟨?_, ?_, ?_, ?_⟩
  · intro y hp
    simp only [keepMask, hp, if_true]
    induction l generalizing y with
    | nil => simp [keepRows]
    | cons a l ih =>
      cases y with
      | nil => simp [keepRows]
      | cons b y =>
        have := ih y
        cases b <;> simp_all [keepRows]
  · intro y hp
    simp only [keepMask, hp, if_true]
    induction y with
    | nil => rfl
    | cons b y ih => cases b <;> simp_all [keepRows]
  · intro y hp hl
    simp only [keepMask, hp, Bool.false_eq_true, if_false]
    exact all l _ (by simp [hl]) (by simp)
  · intro hl
    exact all l _ (by simp [keepMask, hl]) (by simp [keepMask])

/-- a state whose remembered columns were not dropped by its decisions, and which has taken every decision -/
def Consistent (p : Cleaner V) (s : Fit) : Prop :=
  (p.dropDuplicated = true → s.duplicated.isSome) ∧ (p.dropIdness = true → s.idness.isSome) ∧
  (p.dropConstant = true → s.constant.isSome) ∧
  ∃ cols, s.columns = some cols ∧ cols.Nodup ∧ ∀ c ∈ cols, c ∉ p.dropColumns.getD [] ∧
    (p.dropDuplicated = true → c ∉ s.duplicated.getD []) ∧ (p.dropIdness = true → c ∉ s.idness.getD []) ∧
    (p.dropConstant = true → c ∉ s.constant.getD [])

theorem block_old {on : Bool} {earlier : Option (List Label)} (h : on = true → earlier.isSome)
    (decide : Frame (Col V) → List Label) (X : Frame (Col V)) :
    block on earlier decide X = (dropCols X (if on then earlier.getD [] else []), earlier) := by
  cases on with
  | false => simp [block, dropCols]
  | true =>
    obtain ⟨l, hl⟩ := Option.isSome_iff_exists.mp (h rfl)
    simp [block, hl]

theorem block_new_snd (decide : Frame (Col V) → List Label) (X : Frame (Col V)) :
    (block true none decide X).2 = some (decide X) := rfl

theorem consistent_fit (p : Cleaner V) (X : Frame (Col V)) (hX : (labels X).Nodup) (rows : Nat) (y : Option (List (Option V))) :
    Consistent p (cleanFit p .new X rows y).2.2 := by
  have hlab : labels (cleanFit p .new X rows y).1 = labels (cleanData p .new X rows y).1 := rfl
  refine ⟨?_, ?_, ?_, labels (cleanFit p .new X rows y).1, rfl, (C113_fit p X hX rows y).1.nodup hX, ?_⟩
  · intro h; simp [cleanFit, cleanData_eq, Fit.new, block, h]
  · intro h; simp [cleanFit, cleanData_eq, Fit.new, block, h]
  · intro h; simp [cleanFit, cleanData_eq, Fit.new, block, h]
  · intro c hc
    simp only [cleanFit, cleanData_eq, Fit.new, labels_mapCols, block_new, labels_dropCols, basis_labels, List.mem_filter,
      decide_eq_true_eq] at hc
    obtain ⟨⟨⟨⟨_, h1⟩, h2⟩, h3⟩, h4⟩ := hc
    refine ⟨h1, ?_, ?_, ?_⟩
    · intro h; simpa [cleanFit, cleanData_eq, Fit.new, block, h] using h2
    · intro h
      simp only [h, if_true] at h3
      simpa only [cleanFit, cleanData_eq, Fit.new, h, block_new, block_new_snd, Option.getD_some] using h3
    · intro h
      simp only [h, if_true] at h4
      simpa only [cleanFit, cleanData_eq, Fit.new, h, block_new, block_new_snd, Option.getD_some] using h4

theorem transform_consistent {p : Cleaner V} {s : Fit} (hs : Consistent p s) {cols : List Label} (hcols : s.columns = some cols)
    (X : Frame (Col V)) (hX : (labels X).Nodup) (rows : Nat) (y : Option (List (Option V))) :
    ((∀ c ∈ cols, c ∈ labels X) → ∃ Z, cleanTransform p s X rows y = .ok (Z, y.map (keepRows (keepMask p rows y)), s) ∧
      labels Z = cols ∧ ∀ e ∈ Z, ∃ col, (e.1, col) ∈ X ∧ e.2 = p.last (seen p y rows col)) ∧
    ((∃ c ∈ cols, c ∉ labels X) → cleanTransform p s X rows y = .error .key) := by
  obtain ⟨h1, h2, h3, cols', hc', hnd, hkeep⟩ := hs
  rw [hcols] at hc'
  cases hc'
  have hdata : cleanData p s X rows y = ((dropCols (dropCols (dropCols (basis p X rows y)
      (if p.dropDuplicated then s.duplicated.getD [] else [])) (if p.dropIdness then s.idness.getD [] else []))
      (if p.dropConstant then s.constant.getD [] else [])).map (fun e => (e.1, p.last e.2)),
      y.map (keepRows (keepMask p rows y)), s) := by
    rw [cleanData_eq]
    simp only [block_old h1, block_old h2, block_old h3]
  set W := (dropCols (dropCols (dropCols (basis p X rows y)
      (if p.dropDuplicated then s.duplicated.getD [] else [])) (if p.dropIdness then s.idness.getD [] else []))
      (if p.dropConstant then s.constant.getD [] else [])).map (fun e => (e.1, p.last e.2)) with hW
  have hlabW : ∀ c, c ∈ cols → (c ∈ labels W ↔ c ∈ labels X) := by
    intro c hc
    obtain ⟨k1, k2, k3, k4⟩ := hkeep c hc
    rw [hW]
    simp only [labels_mapCols, labels_dropCols, basis_labels, List.mem_filter, decide_eq_true_eq]
    constructor
    · rintro ⟨⟨⟨⟨h, _⟩, _⟩, _⟩, _⟩
      exact h
    · intro h
      refine ⟨⟨⟨⟨h, k1⟩, ?_⟩, ?_⟩, ?_⟩
      · split
        · exact k2 (by assumption)
        · simp
      · split
        · exact k3 (by assumption)
        · simp
      · split
        · exact k4 (by assumption)
        · simp
  have hWn : (labels W).Nodup := by
    rw [hW]
    simp only [labels_mapCols, labels_dropCols, basis_labels]
    exact (((hX.filter _).filter _).filter _).filter _
  constructor
  · intro hall
    obtain ⟨Z, hZ⟩ := fr_subset_total (X := W) (cs := cols) (fun c hc => (hlabW c hc).mpr (hall c hc))
    refine ⟨Z, by simp [cleanTransform, hdata, hcols, hZ], (fr_subset_ok.mp hZ).1, ?_⟩
    intro e he
    have := (fr_subset_ok.mp hZ).2 e he
    have hm : e.1 ∈ labels W := by
      by_contra hn
      rw [fr_column_none hn] at this
      cases this
    obtain ⟨v, hv, hmem⟩ := fr_column_some hm
    rw [this] at hv
    cases hv
    rw [hW] at hmem
    obtain ⟨⟨a, b⟩, hab, heq⟩ := List.mem_map.mp hmem
    simp only [Prod.mk.injEq] at heq
    obtain ⟨col, q1, q2, _⟩ := mem_basis.mp (mem_dropCols.mp (mem_dropCols.mp (mem_dropCols.mp hab).1).1).1
    exact ⟨col, by rw [← heq.1]; exact q1, by rw [← heq.2, q2]⟩
  · rintro ⟨c, hc, hn⟩
    cases hs : subset W cols with
    | error e => simp [cleanTransform, hdata, hcols, hs, fr_subset_error hs]
    | ok Z =>
      exfalso
      obtain ⟨g1, g2⟩ := fr_subset_ok.mp hs
      rw [← g1] at hc
      obtain ⟨e, he, rfl⟩ := List.mem_map.mp hc
      have := g2 e he
      have hnW : e.1 ∉ labels W := fun h => hn ((hlabW _ (by rw [← g1]; exact List.mem_map_of_mem he)).mp h)
      rw [fr_column_none hnW] at this
      cases this

/-- **C113.** `transform` of a fitted cleaner: on any data that has the remembered columns it gives exactly these, in the
remembered order, with this data's cells, whatever this data looks like, and it learns nothing; on data that lacks one it
raises `KeyError`. The same after columns were withdrawn with `append_drop_columns`, for the columns left. -/
theorem C113_transform (p : Cleaner V) (X X' : Frame (Col V)) (hX : (labels X).Nodup) (hX' : (labels X').Nodup)
    (rows rows' : Nat) (y y' : Option (List (Option V))) (withdrawn : List Label) :
    let s := (appendDrop p (cleanFit p .new X rows y).2.2 withdrawn).2.1
    let cols := (labels (cleanFit p .new X rows y).1).filter fun c => c ∉ withdrawn
    ((∀ c ∈ cols, c ∈ labels X') → ∃ Z, cleanTransform p s X' rows' y' = .ok (Z, y'.map (keepRows (keepMask p rows' y')), s) ∧
      labels Z = cols ∧ ∀ e ∈ Z, ∃ col, (e.1, col) ∈ X' ∧ e.2 = p.last (seen p y' rows' col)) ∧
    ((∃ c ∈ cols, c ∉ labels X') → cleanTransform p s X' rows' y' = .error .key) := by
  intro s cols
  have hcols : s.columns = some cols := rfl
  obtain ⟨h1, h2, h3, cols', hc', hnd, hkeep⟩ := consistent_fit p X hX rows y
  have hc'' : cols' = labels (cleanFit p .new X rows y).1 := by
    have := (C113_fit p X hX rows y).2.1
    rw [hc'] at this
    exact Option.some.inj this
  have hcons : Consistent p s := by
    refine ⟨h1, h2, h3, cols, hcols, ?_, ?_⟩
    · rw [hc''] at hnd
      exact hnd.filter _
    · intro c hc
      exact hkeep c (by rw [hc'']; exact (List.mem_filter.mp hc).1)
  exact transform_consistent hcons hcols X' hX' rows' y'

/-- **C113, refuted for a second fit.** Fitting again uses the decisions of the first fit: whatever the new data is, exactly
the columns the first data condemned are dropped. -/
theorem C113_refit (p : Cleaner V) (X X' : Frame (Col V)) (hX : (labels X).Nodup) (rows rows' : Nat)
    (y y' : Option (List (Option V))) :
    let s := (cleanFit p .new X rows y).2.2
    labels (cleanFit p s X' rows' y').1 = (labels X').filter fun c =>
      decide (c ∉ p.dropColumns.getD [] ∧ (p.dropDuplicated = true → c ∉ s.duplicated.getD []) ∧
        (p.dropIdness = true → c ∉ s.idness.getD []) ∧ (p.dropConstant = true → c ∉ s.constant.getD [])) := by
  intro s
  obtain ⟨h1, h2, h3, _⟩ := consistent_fit p X hX rows y
  simp only [cleanFit, cleanData_eq]
  rw [block_old h1, block_old h2, block_old h3]
  simp only [labels_mapCols, labels_dropCols, basis_labels, List.filter_filter]
  apply List.filter_congr
  intro c _
  cases p.dropDuplicated <;> cases p.dropIdness <;> cases p.dropConstant <;> rw [Bool.eq_iff_iff] <;> simp [s] <;> tauto

/-- the cleaner of the feature selection (_transformer.py:150-154) on numbers, without conversions -/
def usual : Cleaner Nat :=
  { dropConstant := true, dropDuplicated := false, dropIdness := true, dropLabelNan := true, dropColumns := none,
    reserve := none, first := id, last := id }

/-- a first frame: `a` is constant, `b` is not -/
def frameA : Frame (Col Nat) :=
  [(.text "a", ⟨.float, [some 1, some 1, none]⟩), (.text "b", ⟨.float, [some 1, some 2, some 3]⟩),
   (.text "id", ⟨.int, [some 1, some 2, some 3]⟩)]

/-- a second frame: `b` is constant, `a` is not, `id` repeats -/
def frameB : Frame (Col Nat) :=
  [(.text "a", ⟨.float, [some 1, some 2, none]⟩), (.text "b", ⟨.float, [some 1, some 1, some 1]⟩),
   (.text "id", ⟨.int, [some 1, some 1, some 3]⟩)]

/-- fitting a new cleaner on each frame -/
example : labels (cleanFit usual .new frameA 3 none).1 = [.text "b"] ∧
    labels (cleanFit usual .new frameB 3 none).1 = [.text "a", .text "id"] ∧
    (labels frameA).Nodup := by decide +kernel

/-- **C113, refuted for a second fit.** One cleaner, fitted on `frameA` and again on `frameB`: it keeps the constant column
and drops the others, a new cleaner does the opposite. -/
theorem C113_refit_refuted :
    labels (cleanFit usual (cleanFit usual .new frameA 3 none).2.2 frameB 3 none).1 = [.text "b"] ∧
    labels (cleanFit usual .new frameB 3 none).1 = [.text "a", .text "id"] := by decide +kernel

/-- **C113, refuted before fitting.** `append_drop_columns` of a new cleaner raises `TypeError` for every list of columns. -/
theorem C113_append_refuted (p : Cleaner V) (cols : List Label) : (appendDrop p .new cols).2.2 = some .type := rfl

end Clean

/-! ### Feature selection -/

/-- **C114.** The selected features are the labels at the selected positions, labels of the prepared data all. -/
theorem C114_selected (columnsIn columns : List Label) (imp : List Rat) (selected : List Nat) (c : Label) :
    c ∈ (selection columnsIn columns imp selected).2 ↔ ∃ i ∈ selected, columns[i]? = some c := by
  simp [selection, List.mem_filterMap]

/-- **C114.** When columns were dropped, or when the preparation kept the order, `feature_importances_[i]` is the importance of
`feature_names_in_[i]` (0 for a dropped column). -/
theorem C114_aligned_partial {columnsIn columns : List Label} (hn : columns.Nodup) (imp : List Rat) (hi : imp.length = columns.length)
    (selected : List Nat) (h : columns.length ≠ columnsIn.length ∨ columns = columnsIn) :
    (selection columnsIn columns imp selected).1.length = columnsIn.length ∧
    ∀ (i : Nat) (c : Label), columnsIn[i]? = some c →
      (c ∉ columns → (selection columnsIn columns imp selected).1[i]? = some 0) ∧
      ∀ (k : Nat), columns[k]? = some c → (selection columnsIn columns imp selected).1[i]? = imp[k]? := by
  rcases h with h | h
  · simp only [selection, h, if_true, ne_eq, not_false_eq_true, List.length_map, true_and]
    intro i c hc
    simp only [List.getElem?_map, hc, Option.map_some]
    refine ⟨fun hm => by simp [hm], ?_⟩
    intro k hk
    have hkl : k < columns.length := (List.getElem?_eq_some_iff.mp hk).1
    have hkc : columns[k] = c := (List.getElem?_eq_some_iff.mp hk).2
    have hmem : c ∈ columns := hkc ▸ List.getElem_mem hkl
    have hidx : columns.findIdx (fun x => x = c) = k := by
      rw [List.findIdx_eq hkl]
      refine ⟨by simp [hkc], ?_⟩
      intro j hj
      simp only [decide_eq_false_iff_not]
      intro hjc
      have := (List.Nodup.getElem_inj_iff hn (hi := by omega) (hj := hkl)).mp (hjc.trans hkc.symm)
      omega
    rw [if_pos hmem, hidx, List.getD_eq_getElem?_getD, List.getElem?_eq_getElem (by omega)]
    simp
  · subst h
    simp only [selection, ne_eq, not_true_eq_false, if_false, hi, true_and]
    intro i c hc
    refine ⟨fun hm => ?_, ?_⟩
    · exact absurd (List.mem_of_getElem? hc) hm
    · intro k hk
      have hkl : k < columns.length := (List.getElem?_eq_some_iff.mp hk).1
      have hil : i < columns.length := (List.getElem?_eq_some_iff.mp hc).1
      have : i = k := by
        apply (List.Nodup.getElem_inj_iff hn (hi := hil) (hj := hkl)).mp
        rw [(List.getElem?_eq_some_iff.mp hk).2, (List.getElem?_eq_some_iff.mp hc).2]
      rw [this]

/-- `general_preprocessor` (_transformer.py:258-281): texts first, then truth values, then numbers; the transformers keep the
number of columns -/
def preparer : List (Feature (Col Nat) Unit) :=
  [⟨.callable (fun X => labels (X.filter fun e => e.2.dtype = .object ∨ e.2.dtype = .category)), some (), none⟩,
   ⟨.callable (fun X => labels (X.filter fun e => e.2.dtype = .bool)), some (), none⟩,
   ⟨.callable (fun X => labels (X.filter fun e => e.2.dtype = .int ∨ e.2.dtype = .float)), some (), none⟩]

/-- transformers that keep the number of columns -/
def sameOps : Ops (Col Nat) Unit where
  fit := fun _ _ => ()
  transform := fun _ X => X.map Prod.snd
  fitTransform := fun _ X => ((), X.map Prod.snd)
  names := fun _ _ _ => none

/-- a number and a text column -/
def frameC : Frame (Col Nat) :=
  [(.text "age", ⟨.float, [some 1, some 2, some 3]⟩), (.text "city", ⟨.object, [some 7, some 7, some 9]⟩)]

/-- **C114, refuted.** No column is dropped, but the preparation puts the text column first: the importances are reported in
that order, under the names in the order of the data. Here `city` alone is important (1, and `age` 0), and `age` is reported
with 1. -/
theorem C114_aligned_refuted (digest : String → String) :
    (labels frameC = [.text "age", .text "city"]) ∧
    (fitTransform digest sameOps preparer .no frameC).map (fun r => labels r.2) = .ok [.text "city", .text "age"] ∧
    (selection [.text "age", .text "city"] [.text "city", .text "age"] [1, 0] [0]) = ([1, 0], [.text "city"]) :=
  ⟨rfl, rfl, rfl⟩

/-- **C114, refuted.** A label of more than 64 characters that is alone in its group gets a new name: the selected features
are not columns of the data, and `transform` raises `KeyError`. -/
theorem C114_long_refuted (digest : String → String) (hd : ∀ s, (digest s).length = 32) :
    ∃ X : Frame (Col Nat), ∃ c' : Label,
      (fitTransform digest sameOps preparer .no X).map (fun r => labels r.2) = .ok [c'] ∧
      (selection (labels X) [c'] [1] [0]).2 = [c'] ∧ c' ∉ labels X ∧ subset X [c'] = .error .key := by
  have hn : Label.text (String.ofList (List.replicate 32 'x') ++ digest (String.ofList (List.replicate 65 'x'))) ∉
      labels [(Label.text (String.ofList (List.replicate 65 'x')), (⟨.float, [some 1, some 2]⟩ : Col Nat))] := by
    intro h
    have h' : String.ofList (List.replicate 32 'x') ++ digest (String.ofList (List.replicate 65 'x')) =
        String.ofList (List.replicate 65 'x') := by
      simpa only [labels, List.map_cons, List.map_nil, List.mem_singleton, Label.text.injEq] using h
    have hl := congrArg String.length h'
    rw [String.length_append, hd] at hl
    exact absurd hl (by decide)
  refine ⟨[(.text (String.ofList (List.replicate 65 'x')), ⟨.float, [some 1, some 2]⟩)],
    .text (String.ofList (List.replicate 32 'x') ++ digest (String.ofList (List.replicate 65 'x'))), by rfl, by rfl, hn, ?_⟩
  rw [subset, fr_column_none hn]

end YL.Props
