import Verif.Model.Pipeline
import Mathlib.Data.List.Nodup
import Mathlib.Tactic.SplitIfs

/-!
# C173: a pipeline of transformers treats new data as it treated the training data

Specification: what each step learns from, and what `transform` does afterwards.
-/
set_option linter.unusedSectionVars false

namespace YL.Props
open YL.Pipe

variable {X Y V M B : Type}

/-! ## Specification -/

/-- The functions of a list, one after the other. -/
def pipeThrough (ts : List (X → X)) (z : X) : X := ts.foldl (fun z t => t z) z

/-- What a step learns: from the data and the target; if that raises `TypeError`, from the
data alone. -/
def Learned (f : Learn X Y V B) (x : X) (y : Option Y) (kw : Kw V) (m : B) : Prop :=
  f x (some y) kw = .ok m ∨ (f x (some y) kw = .error .type ∧ f x none kw = .ok m)

/-- A class as scikit-learn wants it: `fit` and `transform`, and a `fit_transform`, if there
is one, does the same as the two in a row. -/
def RegularCls (c : Cls X Y V M) : Prop :=
  ∃ f t, c.fit = some f ∧ c.transform = some t ∧
    ∀ ft, c.fitTransform = some ft →
      ∀ x oy kw, ft x oy kw = (match f x oy kw with
        | .ok m => .ok (m, t m x)
        | .error e => .error e)

/-! ## Helpers -/

theorem callFit_iff (f : Learn X Y V B) (x : X) (y : Option Y) (kw : Kw V) (m : B) :
    callFit f x y kw = .ok m ↔ Learned f x y kw m := by
  unfold callFit Learned
  cases h : f x (some y) kw with
  | ok b => simp
  | error e => cases e <;> simp

theorem preStep_regular (cls : Nat → Cls X Y V M) (h : Heap M) (o : Nat) (x : X) (y : Option Y)
    (kw : Kw V) (f : Learn X Y V M) (t : M → X → X) (hf : (cls o).fit = some f)
    (ht : (cls o).transform = some t)
    (hr : ∀ ft, (cls o).fitTransform = some ft → ∀ x oy kw, ft x oy kw = (match f x oy kw with
        | .ok m => .ok (m, t m x)
        | .error e => .error e)) :
    preStep cls h o x y kw = (match callFit f x y kw with
      | .ok m => .ok (Function.update h o (some m), t m x)
      | .error e => .error e) := by
  unfold preStep
  cases hft : (cls o).fitTransform with
  | none =>
    simp only [hf, ht]
    cases callFit f x y kw <;> rfl
  | some ft =>
    have hc : callFit ft x y kw = (match callFit f x y kw with
        | .ok m => .ok (m, t m x)
        | .error e => .error e) := by
      unfold callFit
      rw [hr ft hft x (some y) kw, hr ft hft x none kw]
      cases f x (some y) kw with
      | ok m => rfl
      | error e => cases e <;> rfl
    simp only [hc]
    cases callFit f x y kw <;> rfl

theorem ftSteps_spec (cls : Nat → Cls X Y V M) (y : Option Y) (kw : Name → Kw V)
    (steps : Steps) (hd : (steps.map Prod.snd).Nodup) (hr : ∀ s ∈ steps, RegularCls (cls s.2)) :
    ∀ (h : Heap M) (x : X) (h' : Heap M) (x' : X), ftSteps cls y kw steps h x = .ok (h', x') →
      (∀ o, o ∉ steps.map Prod.snd → h' o = h o) ∧
      ∃ ts : List (X → X), ts.length = steps.length ∧ x' = pipeThrough ts x ∧
        (∀ (i : Nat) (s : Name × Nat), steps[i]? = some s →
          ∃ f t m, (cls s.2).fit = some f ∧ (cls s.2).transform = some t ∧ h' s.2 = some m ∧
            ts[i]? = some (t m) ∧ Learned f (pipeThrough (ts.take i) x) y (kw s.1) m) := by
  induction steps with
  | nil =>
    intro h x h' x' e
    cases e
    exact ⟨fun _ _ => rfl, [], rfl, rfl, fun i s hi => by simp at hi⟩
  | cons s rest ih =>
    intro h x h' x' e
    obtain ⟨f, t, hf, ht, hft⟩ := hr s (by simp)
    simp only [ftSteps] at e
    rw [preStep_regular cls h s.2 x y (kw s.1) f t hf ht hft] at e
    cases hc : callFit f x y (kw s.1) with
    | error er => rw [hc] at e; cases e
    | ok m =>
      rw [hc] at e
      simp only at e
      simp only [List.map_cons, List.nodup_cons] at hd
      obtain ⟨h1, ts, hl, hx, hs⟩ := ih hd.2 (fun s hs => hr s (by simp [hs])) _ _ _ _ e
      have hm : h' s.2 = some m := by rw [h1 s.2 hd.1]; simp
      refine ⟨?_, t m :: ts, by simp [hl], by rw [hx]; rfl, ?_⟩
      · intro o ho
        simp only [List.map_cons, List.mem_cons, not_or] at ho
        rw [h1 o ho.2, Function.update_of_ne ho.1]
      · intro i s' hi
        cases i with
        | zero =>
          simp only [List.getElem?_cons_zero, Option.some.injEq] at hi
          subst hi
          exact ⟨f, t, m, hf, ht, hm, rfl, (callFit_iff ..).1 hc⟩
        | succ i =>
          simp only [List.getElem?_cons_succ] at hi
          obtain ⟨f', t', m', a1, a2, a3, a4, a5⟩ := hs i s' hi
          exact ⟨f', t', m', a1, a2, a3, by simpa using a4, a5⟩

theorem transform_chain (cls : Nat → Cls X Y V M) (steps : Steps) : ∀ (h : Heap M)
    (ts : List (X → X)), ts.length = steps.length →
    (∀ (i : Nat) (s : Name × Nat), steps[i]? = some s →
      ∃ t m, (cls s.2).transform = some t ∧ h s.2 = some m ∧ ts[i]? = some (t m)) →
    ∀ z, transform cls steps h z = .ok (pipeThrough ts z) := by
  induction steps with
  | nil =>
    intro h ts hl _ z
    have : ts = [] := List.length_eq_zero_iff.1 (by simpa using hl)
    subst this; rfl
  | cons s rest ih =>
    intro h ts hl hs z
    cases ts with
    | nil => simp at hl
    | cons t0 ts =>
      obtain ⟨t, m, a1, a2, a3⟩ := hs 0 s rfl
      simp only [List.getElem?_cons_zero, Option.some.injEq] at a3
      simp only [transform, a1, a2]
      rw [ih h ts (by simpa using hl) (fun i s' hi => by
        obtain ⟨t', m', b1, b2, b3⟩ := hs (i + 1) s' (by simpa using hi)
        exact ⟨t', m', b1, b2, by simpa using b3⟩)]
      rw [a3]; rfl

/-- `fit` leaves the same objects as `fit_transform`. -/
theorem fitSteps_eq (cls : Nat → Cls X Y V M) (y : Option Y) (kw : Name → Kw V)
    (steps : Steps) (hr : ∀ s ∈ steps, RegularCls (cls s.2)) (hne : steps ≠ []) :
    ∀ (h : Heap M) (x : X), fitSteps cls y kw steps h x =
      (match ftSteps cls y kw steps h x with
        | .ok p => .ok p.1
        | .error e => .error e) := by
  induction steps with
  | nil => exact absurd rfl hne
  | cons s rest ih =>
    intro h x
    obtain ⟨f, t, hf, ht, hft⟩ := hr s (by simp)
    cases rest with
    | nil =>
      simp only [fitSteps, ftSteps, lastFit, hf]
      rw [preStep_regular cls h s.2 x y (kw s.1) f t hf ht hft]
      cases callFit f x y (kw s.1) <;> rfl
    | cons s' rest =>
      simp only [fitSteps]
      rw [ftSteps.eq_def]
      simp only
      rw [preStep_regular cls h s.2 x y (kw s.1) f t hf ht hft]
      cases callFit f x y (kw s.1) with
      | error e => rfl
      | ok m => exact ih (fun s hs => hr s (by simp [hs])) (by simp) _ _

/-! ## C173 -/

/-- **C173.** If `fit` succeeds on a pipeline of distinct regular transformers, then there is
one function per step such that: the step learned it from what the *earlier functions make
of the training data* (with the target, or without it when that raises `TypeError`) and from
its own parameters; and from then on `transform` of any data applies these functions in
order.  Objects outside the pipeline are untouched. -/
theorem C173_fit_partial (cls : Nat → Cls X Y V M) (steps : Steps) (hne : steps ≠ [])
    (hd : (steps.map Prod.snd).Nodup) (hr : ∀ s ∈ steps, RegularCls (cls s.2)) (h h' : Heap M) (x : X)
    (y : Option Y) (params : Kw V) (e : fit cls steps h x y params = .ok h') :
    (∀ o, o ∉ steps.map Prod.snd → h' o = h o) ∧
    ∃ (kw : Name → Kw V) (ts : List (X → X)),
      route (steps.map Prod.fst) params (fun _ => []) = .ok kw ∧ ts.length = steps.length ∧
      (∀ (i : Nat) (s : Name × Nat), steps[i]? = some s →
        ∃ f t m, (cls s.2).fit = some f ∧ (cls s.2).transform = some t ∧
          ts[i]? = some (t m) ∧ Learned f (pipeThrough (ts.take i) x) y (kw s.1) m) ∧
      ∀ z, transform cls steps h' z = .ok (pipeThrough ts z) := by
  unfold fit at e
  cases hk : route (steps.map Prod.fst) params (fun _ => []) with
  | error er => rw [hk] at e; cases e
  | ok kw =>
    rw [hk] at e
    simp only at e
    rw [fitSteps_eq cls y kw steps hr hne] at e
    rcases hft : ftSteps cls y kw steps h x with er | ⟨h2, x2⟩
    · rw [hft] at e; cases e
    · rw [hft] at e
      simp only [Except.ok.injEq] at e
      subst e
      obtain ⟨h1, ts, hl, _, hs⟩ := ftSteps_spec cls y kw steps hd hr h x h2 x2 hft
      refine ⟨h1, kw, ts, rfl, hl, ?_, ?_⟩
      · intro i s hi
        obtain ⟨f, t, m, a1, a2, _, a4, a5⟩ := hs i s hi
        exact ⟨f, t, m, a1, a2, a4, a5⟩
      · apply transform_chain cls steps h2 ts hl
        intro i s hi
        obtain ⟨f, t, m, _, a2, a3, a4, _⟩ := hs i s hi
        exact ⟨t, m, a2, a3, a4⟩

/-- **C173.** `fit_transform` is `fit` followed by `transform` of the training data: same
objects, same data, same exceptions of `fit`. -/
theorem C173_fit_transform_partial (cls : Nat → Cls X Y V M) (steps : Steps) (hne : steps ≠ [])
    (hd : (steps.map Prod.snd).Nodup) (hr : ∀ s ∈ steps, RegularCls (cls s.2)) (h : Heap M) (x : X)
    (y : Option Y) (params : Kw V) :
    (∀ e, fitTransform cls steps h x y params = .error e ↔ fit cls steps h x y params = .error e) ∧
    ∀ h' x', fitTransform cls steps h x y params = .ok (h', x') ↔
      fit cls steps h x y params = .ok h' ∧ transform cls steps h' x = .ok x' := by
  unfold fitTransform fit
  cases hk : route (steps.map Prod.fst) params (fun _ => []) with
  | error er => simp
  | ok kw =>
    simp only
    rw [fitSteps_eq cls y kw steps hr hne]
    rcases hft : ftSteps cls y kw steps h x with er | ⟨h2, x2⟩
    · simp
    · obtain ⟨_, ts, hl, hx, hs⟩ := ftSteps_spec cls y kw steps hd hr h x h2 x2 hft
      have ht := transform_chain cls steps h2 ts hl (fun i s hi => by
        obtain ⟨f, t, m, _, a2, a3, a4, _⟩ := hs i s hi
        exact ⟨t, m, a2, a3, a4⟩) x
      constructor
      · simp
      · intro h' x'
        simp only [Except.ok.injEq, Prod.mk.injEq]
        constructor
        · rintro ⟨rfl, rfl⟩
          exact ⟨rfl, by rw [ht, hx]⟩
        · rintro ⟨rfl, hh⟩
          rw [ht] at hh
          injection hh with hh
          exact ⟨rfl, by rw [hx, hh]⟩

/-- **C173.** A pipeline can be built exactly from at least one step, with distinct names,
of objects that can learn and transform, the last one with a `fit`. -/
theorem C173_construct (cls : Nat → Cls X Y V M) (steps : Steps) :
    construct cls steps = .ok () ↔
      steps ≠ [] ∧ (steps.map Prod.fst).Nodup ∧
      (∀ s ∈ steps, ((cls s.2).fit ≠ none ∨ (cls s.2).fitTransform ≠ none) ∧
        (cls s.2).transform ≠ none) ∧
      ∀ s, steps.getLast? = some s → (cls s.2).fit ≠ none := by
  unfold construct
  cases hl : steps.getLast? with
  | none =>
    have : steps = [] := by simpa using hl
    subst this
    simp
  | some last =>
    have hne : steps ≠ [] := by rintro rfl; simp at hl
    simp only
    by_cases hn : (steps.map Prod.fst).Nodup
    · rw [if_neg (fun k => k hn)]
      by_cases ha : steps.any (fun s =>
        !((cls s.2).fit.isSome || (cls s.2).fitTransform.isSome) || !(cls s.2).transform.isSome) = true
      · rw [if_pos ha]
        constructor
        · intro k; cases k
        · rintro ⟨_, _, k, _⟩
          obtain ⟨s, hs, e⟩ := List.any_eq_true.1 ha
          obtain ⟨k1, k2⟩ := k s hs
          exfalso
          revert e k1 k2
          cases (cls s.2).fit <;> cases (cls s.2).fitTransform <;> cases (cls s.2).transform <;> simp
      · rw [if_neg ha]
        have hall : ∀ s ∈ steps, ((cls s.2).fit ≠ none ∨ (cls s.2).fitTransform ≠ none) ∧
            (cls s.2).transform ≠ none := by
          intro s hs
          have := fun k => ha (List.any_eq_true.2 ⟨s, hs, k⟩)
          revert this
          cases (cls s.2).fit <;> cases (cls s.2).fitTransform <;> cases (cls s.2).transform <;> simp
        cases hf : (cls last.2).fit with
        | none => simp [hf]
        | some f =>
          simp only [Option.isSome_some, Bool.not_true, Bool.false_eq_true, if_false, true_iff]
          refine ⟨hne, hn, hall, ?_⟩
          intro s hs
          cases hs
          rw [hf]; simp
    · rw [if_pos hn]
      constructor
      · intro k; cases k
      · rintro ⟨_, k, _⟩; exact absurd k hn

/-! ### Parameters -/

/-- Two underscores somewhere in a name. -/
def HasDunder (n : Name) : Prop := ∃ a b, n = a ++ '_' :: '_' :: b

theorem splitName_cons (c : Char) (p : Name) (h : ¬ (c = '_' ∧ ∃ r, p = '_' :: r)) :
    splitName (c :: p) = (splitName p).map (fun k => (c :: k.1, k.2)) := by
  rw [splitName]
  intro r hc hp
  exact h ⟨hc, r, hp⟩

theorem splitName_append (s q : Name) (hs : ¬ HasDunder (s ++ ['_'])) :
    splitName (s ++ '_' :: '_' :: q) = some (s, q) := by
  induction s with
  | nil => rfl
  | cons c s ih =>
    have hs' : ¬ HasDunder (s ++ ['_']) := by
      rintro ⟨a, b, e⟩
      exact hs ⟨c :: a, b, by rw [List.cons_append, e]; rfl⟩
    have hc : ¬ (c = '_' ∧ (s = [] ∨ ∃ r, s = '_' :: r)) := by
      rintro ⟨rfl, rfl | ⟨r, rfl⟩⟩
      · exact hs ⟨[], [], rfl⟩
      · exact hs ⟨[], r ++ ['_'], rfl⟩
    have : splitName ((c :: s) ++ '_' :: '_' :: q)
        = (splitName (s ++ '_' :: '_' :: q)).map (fun p => (c :: p.1, p.2)) := by
      rw [List.cons_append]
      apply splitName_cons
      rintro ⟨rfl, r, hr⟩
      cases s with
      | nil => exact hc ⟨rfl, Or.inl rfl⟩
      | cons d s => injection hr with h1 h2; exact hc ⟨rfl, Or.inr ⟨s, by rw [h1]⟩⟩
    rw [this, ih hs']
    rfl

theorem splitName_sound (p s q : Name) (h : splitName p = some (s, q)) :
    p = s ++ '_' :: '_' :: q := by
  induction p generalizing s q with
  | nil => cases h
  | cons c p ih =>
    by_cases h2 : c = '_' ∧ ∃ r, p = '_' :: r
    · obtain ⟨rfl, r, rfl⟩ := h2
      simp only [splitName] at h
      cases h; rfl
    · have : splitName (c :: p) = (splitName p).map (fun k => (c :: k.1, k.2)) := splitName_cons c p h2
      rw [this] at h
      cases hp : splitName p with
      | none => rw [hp] at h; cases h
      | some k =>
        rw [hp] at h
        simp only [Option.map_some, Option.some.injEq, Prod.mk.injEq] at h
        obtain ⟨rfl, rfl⟩ := h
        rw [ih k.1 k.2 hp]; rfl

theorem splitName_none (p : Name) (h : splitName p = none) : ¬ HasDunder p := by
  induction p with
  | nil => rintro ⟨a, b, e⟩; cases a <;> cases e
  | cons c p ih =>
    by_cases h2 : c = '_' ∧ ∃ r, p = '_' :: r
    · obtain ⟨rfl, r, rfl⟩ := h2
      simp only [splitName] at h
      cases h
    · have hp : splitName p = none := by
        have : splitName (c :: p) = (splitName p).map (fun k => (c :: k.1, k.2)) := splitName_cons c p h2
        rw [this] at h
        cases hs : splitName p with
        | none => rfl
        | some k => rw [hs] at h; cases h
      rintro ⟨a, b, e⟩
      cases a with
      | nil => cases e; exact h2 ⟨rfl, b, rfl⟩
      | cons d a =>
        rw [List.cons_append] at e
        injection e with _ e
        exact ih hp ⟨a, b, e⟩

/-- **C173.** Parameters are accepted exactly if each is `step__name` for a step of the
pipeline, and then each step gets its own ones, in order. -/
theorem C173_params (names : List Name) (hn : ∀ s ∈ names, ¬ HasDunder (s ++ ['_']))
    (params : Kw V) (kw : Name → Kw V)
    (h : route names params (fun _ => []) = .ok kw) :
    (∀ p ∈ params, ∃ s ∈ names, ∃ q, p.1 = s ++ '_' :: '_' :: q) ∧
    ∀ s ∈ names, (kw s).map (fun k => (s ++ '_' :: '_' :: k.1, k.2))
      = params.filter (fun p => (s ++ ['_', '_']).isPrefixOf p.1) := by
  have key : ∀ (params : Kw V) (acc kw : Name → Kw V), route names params acc = .ok kw →
      (∀ p ∈ params, ∃ s ∈ names, ∃ q, p.1 = s ++ '_' :: '_' :: q) ∧
      ∀ s ∈ names, (kw s).map (fun k => (s ++ '_' :: '_' :: k.1, k.2))
        = (acc s).map (fun k => (s ++ '_' :: '_' :: k.1, k.2))
          ++ params.filter (fun p => (s ++ ['_', '_']).isPrefixOf p.1) := by
    intro params
    induction params with
    | nil =>
      intro acc kw h
      cases h
      exact ⟨by simp, by simp⟩
    | cons p rest ih =>
      obtain ⟨p, v⟩ := p
      intro acc kw h
      simp only [route] at h
      cases hs : splitName p with
      | none => rw [hs] at h; cases h
      | some k =>
        obtain ⟨s0, q⟩ := k
        rw [hs] at h
        simp only at h
        have hp := splitName_sound p s0 q hs
        by_cases hm : s0 ∈ names
        · rw [if_pos hm] at h
          obtain ⟨i1, i2⟩ := ih _ _ h
          refine ⟨?_, ?_⟩
          · intro p' hp'
            rcases List.mem_cons.1 hp' with rfl | hp'
            · exact ⟨s0, hm, q, hp⟩
            · exact i1 p' hp'
          · intro s hsn
            rw [i2 s hsn, List.filter_cons]
            by_cases he : s = s0
            · subst he
              have hpre : (s ++ ['_', '_']).isPrefixOf p = true := by
                rw [List.isPrefixOf_iff_prefix, hp]
                exact ⟨q, by simp⟩
              rw [if_pos hpre]
              simp [hp]
            · have hpre : ¬ (s ++ ['_', '_']).isPrefixOf p = true := by
                intro hc
                rw [List.isPrefixOf_iff_prefix] at hc
                obtain ⟨r, hr⟩ := hc
                have : splitName p = some (s, r) := by
                  rw [← hr, List.append_assoc]
                  exact splitName_append s r (hn s hsn)
                rw [hs] at this
                injection this with this
                injection this with this _
                exact he this.symm
              rw [if_neg hpre, Function.update_of_ne he]
        · rw [if_neg hm] at h; cases h
  obtain ⟨k1, k2⟩ := key params _ kw h
  exact ⟨k1, fun s hs => by simpa using k2 s hs⟩

/-- **C173.** A parameter without two underscores raises `ValueError`, one for an unknown step
`KeyError`, whichever comes first. -/
theorem C173_params_refused (names : List Name) (pre : Kw V) (p : Name) (v : V) (rest : Kw V)
    (kw : Name → Kw V) (h : route names pre (fun _ => []) = .ok kw) :
    (¬ HasDunder p → route names (pre ++ (p, v) :: rest) (fun _ => []) = .error .value) ∧
    (∀ s q, s ∉ names → ¬ HasDunder (s ++ ['_']) → p = s ++ '_' :: '_' :: q →
      route names (pre ++ (p, v) :: rest) (fun _ => []) = .error .key) := by
  have key : ∀ (pre : Kw V) (acc kw : Name → Kw V) (tail : Kw V), route names pre acc = .ok kw →
      route names (pre ++ tail) acc = route names tail kw := by
    intro pre
    induction pre with
    | nil => intro acc kw tail h; cases h; rfl
    | cons p pre ih =>
      obtain ⟨p, v⟩ := p
      intro acc kw tail h
      simp only [route, List.cons_append] at h ⊢
      cases hs : splitName p with
      | none => rw [hs] at h; cases h
      | some k =>
        rw [hs] at h
        simp only at h ⊢
        by_cases hm : k.1 ∈ names
        · rw [if_pos hm] at h ⊢; exact ih _ _ _ h
        · rw [if_neg hm] at h; cases h
  rw [key pre _ kw _ h]
  constructor
  · intro hp
    have : splitName p = none := by
      cases hs : splitName p with
      | none => rfl
      | some k => exact absurd ⟨k.1, k.2, splitName_sound p k.1 k.2 hs⟩ hp
    simp only [route, this]
  · rintro s q hs hd rfl
    simp only [route, splitName_append s q hd, if_neg hs]

/-! ### Findings -/

/-- A transformer that learns the sum of the data and its target, adds it to the data, and
raises `TypeError` for a target over 100 (say, because it is a string). -/
def supervised : Cls Int Int Unit Int :=
  ⟨some (fun x oy _ => match oy with
      | some (some y) => if y > 100 then .error .type else .ok (x + y)
      | _ => .ok x), none, some (fun m x => x + m)⟩

theorem supervised_regular : RegularCls supervised := ⟨_, _, rfl, rfl, fun ft h => by cases h⟩

/-- **C173, finding.** A supervised step whose `fit` raises `TypeError` for its target is
silently fitted without the target. -/
theorem C173_target_dropped_refuted :
    ∃ h', fit (fun _ => supervised) [("a".toList, 0)] (fun _ => none) 1 (some 101) [] = .ok h' ∧
      fit (fun _ => supervised) [("a".toList, 0)] (fun _ => none) 1 none [] = .ok h' :=
  ⟨_, rfl, rfl⟩

/-- **C173, finding.** With one object in two steps the second training replaces the first:
`fit_transform` and `transform` disagree on the training data. -/
theorem C173_shared_object_refuted :
    (fitTransform (fun _ => supervised) [("a".toList, 0), ("b".toList, 0)] (fun _ => none) 1
        (some 2) []).map Prod.snd = .ok 10 ∧
    (match fit (fun _ => supervised) [("a".toList, 0), ("b".toList, 0)] (fun _ => none) 1
        (some 2) [] with
      | .ok h' => transform (fun _ => supervised) [("a".toList, 0), ("b".toList, 0)] h' 1
      | .error e => .error e) = .ok 13 := ⟨rfl, rfl⟩

/-- Non-vacuity: two distinct regular objects. -/
example : ∃ h', fit (fun _ => supervised) [("a".toList, 0), ("b".toList, 1)] (fun _ => none) 1
      (some 2) [("b__p".toList, ())] = .ok h' ∧
    transform (fun _ => supervised) [("a".toList, 0), ("b".toList, 1)] h' 5 = .ok 14 :=
  ⟨_, rfl, rfl⟩

example : ¬ HasDunder ("a-1".toList ++ ['_']) := by
  rintro ⟨a, b, e⟩
  rcases a with _ | ⟨c1, _ | ⟨c2, _ | ⟨c3, _ | ⟨c4, a⟩⟩⟩⟩ <;> simp at e

end YL.Props
