import Verif.Model.Seed

/-!
# C172: seeded calls are reproducible

Specification: after any two histories the same seeded call gives the same result.
-/
set_option linter.unusedSectionVars false

namespace YL.Props
open YL.Seed

variable {N T O A R : Type}

/-! ## Specification -/

/-- The seeds the documentation promises to work at a call: a number numpy accepts; at the
methods of a network also not 0. -/
def SeedWorks : Site → Int → Prop
  | .why, i => 0 ≤ i ∧ i < 4294967296
  | .discovery, i => 0 ≤ i ∧ i < 4294967296
  | .network, i => 1 ≤ i ∧ i < 4294967296
  | .deepIV, _ => False

/-- A call is reproducible with a seed: whatever happened before in two processes, it gives
the same result in both. -/
def Reproducible (g : Gens N T O) (site : Site) (s : Arg) : Prop :=
  ∀ (body : Body N T A R) (a : A) (w w' : World N T O) (h h' : List (Op N T O A R)),
    (call g body site s a (run g w h)).1 = (call g body site s a (run g w' h')).1

/-! ## C172 -/

theorem setRandomState_int (g : Gens N T O) (i : Int) (h : 0 ≤ i ∧ i < 4294967296)
    (w : World N T O) :
    setRandomState g (.int i) w = (.ok (), { w with np := g.npSeed i, torch := g.torchSeed i }) := by
  have : seedable i = true := by
    simp only [seedable, decide_eq_true_eq]; exact ⟨h.1, h.2⟩
  simp only [setRandomState, this, if_true]

theorem seedAt_int (g : Gens N T O) (site : Site) (i : Int) (h : SeedWorks site i)
    (w : World N T O) :
    seedAt g site (.int i) w = (.ok (), { w with np := g.npSeed i, torch := g.torchSeed i }) := by
  cases site with
  | why => exact setRandomState_int g i h w
  | discovery => exact setRandomState_int g i h w
  | network =>
    have h : 1 ≤ i ∧ i < 4294967296 := h
    have : truthy (.int i) = true := by simp [truthy]; omega
    simp only [seedAt, this, if_true]
    exact setRandomState_int g i ⟨by omega, h.2⟩ w
  | deepIV => exact h.elim

/-- **C172.** With a seed, `Why.fit`, the discovery classes and the methods of a network give
the same result whatever was drawn before, by the user or by other calls. -/
theorem C172_reproducible_partial (g : Gens N T O) (site : Site) (i : Int) (h : SeedWorks site i) :
    Reproducible (A := A) (R := R) g site (.int i) := by
  intro body a w w' hs hs'
  simp only [call, seedAt_int g site i h]

/-- **C172.** It is the result the call has on freshly seeded streams. -/
theorem C172_seeded (g : Gens N T O) (site : Site) (i : Int) (h : SeedWorks site i)
    (body : Body N T A R) (a : A) (w : World N T O) :
    (call g body site (.int i) a w).1 = .ok (body a (g.npSeed i) (g.torchSeed i)).1 := by
  simp only [call, seedAt_int g site i h]

/-- **C172.** A method of a network called with seed 0 does what it does without a seed. -/
theorem C172_zero_is_none (g : Gens N T O) (body : Body N T A R) (a : A) (w : World N T O) :
    call g body .network (.int 0) a w = call g body .network .none a w := rfl

/-- **C172.** `DeepIV.fit` does the same whatever its seed. -/
theorem C172_deepiv_ignores (g : Gens N T O) (body : Body N T A R) (s : Arg) (a : A)
    (w : World N T O) : call g body .deepIV s a w = call g body .deepIV .none a w := rfl

/-- A call without a seed gives what the current streams give. -/
theorem C172_unseeded (g : Gens N T O) (site : Site) (body : Body N T A R) (a : A)
    (w : World N T O) : (call g body site .none a w).1 = .ok (body a w.np w.torch).1 := by
  cases site <;> rfl

/-- Two streams of numbers. -/
def counting : Gens Int Int Nat := ⟨id, id, fun o => (o, o + 1)⟩

/-- **C172, finding.** The methods of a network are not reproducible with seed 0, and
`DeepIV.fit` is not with any seed. -/
theorem C172_zero_refuted : ¬ Reproducible (A := Unit) (R := Int) counting .network (.int 0) := by
  intro h
  have := h (fun _ n t => (n, n + 1, t)) () ⟨0, 0, fun _ => 0⟩ ⟨1, 0, fun _ => 0⟩ [] []
  cases this

theorem C172_deepiv_refuted (s : Arg) :
    ¬ Reproducible (A := Unit) (R := Int) counting .deepIV s := by
  intro h
  have := h (fun _ n t => (n, n + 1, t)) () ⟨0, 0, fun _ => 0⟩ ⟨1, 0, fun _ => 0⟩ [] []
  cases this

/-- **C172.** With a `RandomState` object the result depends on the state of that object
alone, and the call advances it by one draw. -/
theorem C172_object (g : Gens N T O) (site : Site) (hs : site ≠ .deepIV) (k : Nat)
    (body : Body N T A R) (a : A) (w : World N T O) :
    (call g body site (.obj k) a w).1
      = .ok (body a (g.npSeed (g.randint (w.objs k)).1) (g.torchSeed (g.randint (w.objs k)).1)).1 ∧
    (call g body site (.obj k) a w).2.objs k = (g.randint (w.objs k)).2 ∧
    ∀ j, j ≠ k → (call g body site (.obj k) a w).2.objs j = w.objs j := by
  cases site with
  | deepIV => exact absurd rfl hs
  | why =>
    refine ⟨rfl, ?_, ?_⟩
    · simp [call, seedAt, setRandomState]
    · intro j hj; simp [call, seedAt, setRandomState, hj]
  | discovery =>
    refine ⟨rfl, ?_, ?_⟩
    · simp [call, seedAt, setRandomState]
    · intro j hj; simp [call, seedAt, setRandomState, hj]
  | network =>
    refine ⟨rfl, ?_, ?_⟩
    · simp [call, seedAt, truthy, setRandomState]
    · intro j hj; simp [call, seedAt, truthy, setRandomState, hj]

/-- **C172, finding.** So two calls in a row with one such object need not agree. -/
theorem C172_object_refuted : ¬ Reproducible (A := Unit) (R := Int) counting .why (.obj 0) := by
  intro h
  have := h (fun _ n t => (n, n, t)) () ⟨0, 0, fun _ => 0⟩ ⟨0, 0, fun _ => 0⟩ []
    [.lib (fun _ n t => (n, n, t)) .why (.obj 0) ()]
  cases this

/-- **C172.** What is refused: numbers numpy does not accept with `ValueError`, numpy
integers with `AttributeError` (networks take a numpy zero for no seed); nothing is computed
and no stream is touched. -/
theorem C172_refused (g : Gens N T O) (site : Site) (s : Arg) (body : Body N T A R) (a : A)
    (w : World N T O) (e : Err) :
    (call g body site s a w).1 = .error e ↔
      (∃ i, s = .int i ∧ (i < 0 ∨ 4294967296 ≤ i) ∧ site ≠ .deepIV ∧ e = .value) ∨
      (∃ i, s = .npInt i ∧ site ≠ .deepIV ∧ (site = .network → i ≠ 0) ∧ e = .attr) := by
  have key : ∀ st : Site, st ≠ .deepIV → (st = .network → truthy s = true) →
      seedAt g st s w = setRandomState g s w := by
    intro st h1 h2
    cases st with
    | deepIV => exact absurd rfl h1
    | network => simp only [seedAt, h2 rfl, if_true]
    | why => rfl
    | discovery => rfl
  by_cases hd : site = .deepIV
  · subst hd
    simp [call, seedAt]
  by_cases ht : site = .network ∧ truthy s = false
  · obtain ⟨rfl, ht⟩ := ht
    have hc : (call g body .network s a w).1 = .ok (body a w.np w.torch).1 := by
      simp [call, seedAt, ht]
    rw [hc]
    constructor
    · intro h; cases h
    · rintro (⟨i, rfl, h, _⟩ | ⟨i, rfl, _, h, _⟩)
      · have : i = 0 := by simpa [truthy] using ht
        omega
      · have : i = 0 := by simpa [truthy] using ht
        exact absurd this (h rfl)
  · have hk := key site hd (fun e => by
      cases hb : truthy s with
      | true => rfl
      | false => exact absurd ⟨e, hb⟩ ht)
    simp only [call, hk]
    cases s with
    | none => simp [setRandomState]
    | obj k => simp [setRandomState]
    | npInt i =>
      simp only [setRandomState]
      constructor
      · intro h
        have : Err.attr = e := by injection h
        subst this
        refine Or.inr ⟨i, rfl, hd, ?_, rfl⟩
        rintro rfl h0
        subst h0
        exact ht ⟨rfl, rfl⟩
      · rintro (⟨j, h, _⟩ | ⟨j, _, _, _, rfl⟩)
        · cases h
        · rfl
    | int i =>
      by_cases hi : seedable i = true
      · have hi' : 0 ≤ i ∧ i < 4294967296 := by
          simp only [seedable, decide_eq_true_eq] at hi
          exact ⟨hi.1, hi.2⟩
        simp only [setRandomState, hi, if_true]
        constructor
        · intro h; cases h
        · rintro (⟨j, hj, h, _⟩ | ⟨j, hj, _⟩)
          · injection hj with hj; subst hj; omega
          · cases hj
      · have hi' : ¬ (0 ≤ i ∧ i < 4294967296) := fun h => hi (by
          simp only [seedable, decide_eq_true_eq]; exact ⟨h.1, h.2⟩)
        simp only [setRandomState, if_neg hi]
        constructor
        · intro h
          have : Err.value = e := by injection h
          subst this
          exact Or.inl ⟨i, rfl, by omega, hd, rfl⟩
        · rintro (⟨j, _, _, _, rfl⟩ | ⟨j, hj, _⟩)
          · rfl
          · cases hj

theorem C172_refused_touches_nothing (g : Gens N T O) (site : Site) (s : Arg)
    (body : Body N T A R) (a : A) (w : World N T O) (e : Err)
    (h : (call g body site s a w).1 = .error e) : (call g body site s a w).2 = w := by
  have key : ∀ e w', setRandomState g s w = (.error e, w') → w' = w := by
    intro e w' h
    unfold setRandomState at h
    cases s with
    | none => cases h
    | obj k => cases h
    | npInt i => cases h; rfl
    | int i =>
      simp only at h
      by_cases hi : seedable i = true
      · rw [if_pos hi] at h; cases h
      · rw [if_neg hi] at h; cases h; rfl
  have key2 : ∀ e w', seedAt g site s w = (.error e, w') → w' = w := by
    intro e w' h
    cases site with
    | why => exact key e w' h
    | discovery => exact key e w' h
    | deepIV => cases h
    | network =>
      simp only [seedAt] at h
      by_cases ht : truthy s = true
      · rw [if_pos ht] at h; exact key e w' h
      · rw [if_neg ht] at h; cases h
  unfold call at h ⊢
  rcases hs : seedAt g site s w with ⟨r, w'⟩
  rw [hs] at h
  cases r with
  | error e' => exact key2 e' w' hs
  | ok u => cases h

/-- **C172, finding.** A seeded call also resets the streams of the calling program: after
it the global streams are a function of the seed and the call alone, whatever the program
had drawn before — random numbers the program draws after two such calls repeat. -/
theorem C172_streams_reset_refuted (g : Gens N T O) (site : Site) (i : Int) (h : SeedWorks site i)
    (body : Body N T A R) (a : A) (w w' : World N T O) :
    (call g body site (.int i) a w).2.np = (call g body site (.int i) a w').2.np ∧
    (call g body site (.int i) a w).2.torch = (call g body site (.int i) a w').2.torch := by
  constructor <;> simp only [call, seedAt_int g site i h]

/-- **C172.** `estimate_raw` with a working seed draws the same numbers for the two
predictions: the effect of a treatment value against itself is zero, whatever the network
and the numbers drawn. -/
theorem C172_common_numbers {P : Type} (g : Gens N T O) (i : Int) (h : SeedWorks .network i)
    (doBody : Body N T A P) (predict : Body N T P Int) (treat control : A) (w : World N T O) :
    let made := fun c => (doBody c (g.npSeed i) (g.torchSeed i)).1
    let predicted := fun c => (predict (made c) (g.npSeed i) (g.torchSeed i)).1
    (estimateRaw g doBody predict (.int i) treat control w).1
      = .ok (predicted treat - predicted control) ∧
    (estimateRaw g doBody predict (.int i) treat treat w).1 = .ok 0 := by
  intro made predicted
  have key : ∀ c : A, (estimateRaw g doBody predict (.int i) treat c w).1
      = .ok (predicted treat - predicted c) := by
    intro c
    simp only [estimateRaw, call, seedAt_int g .network i h, made, predicted]
  exact ⟨key control, by rw [key treat, Int.sub_self]⟩

/-- Without a seed it need not be. -/
theorem C172_common_numbers_unseeded_refuted :
    (estimateRaw counting (fun (_ : Unit) n t => ((), n, t)) (fun (_ : Unit) n t => (n, n + 1, t)) .none () ()
      ⟨0, 0, fun _ => 0⟩).1 = .ok (-1) := rfl

/-- Non-vacuity: seeds that work, and a history that draws. -/
example : SeedWorks .network 7 ∧ SeedWorks .why 0 := ⟨⟨by decide, by decide⟩, by decide, by decide⟩

example : (call counting (fun (_ : Unit) n t => (n + 5, n + 1, t)) .why (.int 7) ()
    (run counting ⟨0, 0, fun _ => 0⟩
      [.user (fun w => { w with np := w.np + 3 }),
       .lib (fun _ n t => (n, n + 1, t)) .discovery .none ()])).1 = .ok 12 := rfl

end YL.Props
