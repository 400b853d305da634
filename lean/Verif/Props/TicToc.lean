import Verif.Model.TicToc
import Mathlib.Tactic.SplitIfs
import Mathlib.Tactic.Ring
import Mathlib.Data.List.Induction
import Mathlib.Data.List.Nodup
import Mathlib.Algebra.BigOperators.Group.List.Basic

/-!
# C171: the timing decorator

Specification: a timed function does what the function does, and the report counts.
-/
set_option linter.unusedSectionVars false

namespace YL.Props
open YL.TicToc

/-! ## Specification -/

/-- How often the iterator `c` itself occurs among the arguments. -/
def occurrences (c : Nat) (args : List Val) : Nat :=
  args.countP (fun v => match v with | .iter d => d == c | _ => false)

/-- A mapping among the arguments whose class cannot be called without arguments. -/
def hasBadDict (args : List Val) : Bool :=
  args.any (fun v => match v with | .dict ok _ => !ok | _ => false)

/-- Will the call write its arguments to the log? -/
def describes (cur level : Int) (details : Bool) (args : List Val) : Bool :=
  decide (cur ≤ level) && details && !args.isEmpty

/-! ## Helpers -/

theorem fmtElems_taken (l : List Val) : ∀ r : List Flat, r.length < 5 →
    (fmtElems l r).2 = min (r.length + l.length) 5 := by
  induction l with
  | nil => intro r hr; simp [fmtElems]; omega
  | cons e rest ih =>
    intro r hr
    simp only [fmtElems, List.length_append, List.length_cons, List.length_nil]
    split_ifs with h
    · show _ = _
      simp; omega
    · rw [ih _ (by simp; omega)]
      simp; omega

theorem drop_min (l : List Val) : l.drop (min l.length 5) = l.drop 5 := by
  by_cases h : l.length ≤ 5
  · rw [Nat.min_eq_left h, List.drop_length, List.drop_eq_nil_of_le h]
  · rw [Nat.min_eq_right (by omega)]

theorem format_heap (h : Heap) (v : Val) (f : Fmt) (h' : Heap) (e : format h v = .ok (f, h'))
    (c : Nat) : h' c = (h c).drop (5 * occurrences c [v]) := by
  cases v with
  | lit i => cases e; rfl
  | str s => cases e; rfl
  | seq ty l => cases e; rfl
  | dict ok l =>
    cases ok
    · cases e
    · cases e; rfl
  | obj ty => cases e; rfl
  | iter d =>
    simp only [format, Except.ok.injEq, Prod.mk.injEq] at e
    rw [← e.2, fmtElems_taken _ [] (by simp), Function.update_apply]
    by_cases hc : c = d
    · subst hc
      rw [if_pos rfl]
      have := drop_min (h c)
      simp [occurrences, this]
    · rw [if_neg hc]
      have : d ≠ c := fun e => hc e.symm
      simp [occurrences, this]

theorem format_error (h : Heap) (v : Val) :
    (∃ f h', format h v = .ok (f, h')) ∧ hasBadDict [v] = false ∨
    format h v = .error .type ∧ hasBadDict [v] = true := by
  cases v with
  | dict ok l =>
    cases ok
    · right; exact ⟨rfl, rfl⟩
    · left; exact ⟨⟨_, _, rfl⟩, rfl⟩
  | _ => left; exact ⟨⟨_, _, rfl⟩, rfl⟩

theorem formatAll_spec (args : List Val) : ∀ h : Heap,
    (∃ fs h', formatAll h args = .ok (fs, h') ∧ fs.length = args.length ∧
      ∀ c, h' c = (h c).drop (5 * occurrences c args)) ∧ hasBadDict args = false ∨
    formatAll h args = .error .type ∧ hasBadDict args = true := by
  induction args with
  | nil => intro h; left; exact ⟨⟨[], h, rfl, rfl, fun c => rfl⟩, rfl⟩
  | cons v vs ih =>
    intro h
    have hb : hasBadDict (v :: vs) = (hasBadDict [v] || hasBadDict vs) := by
      simp [hasBadDict]
    have hocc : ∀ c, occurrences c (v :: vs) = occurrences c [v] + occurrences c vs := by
      intro c; unfold occurrences
      rw [← List.countP_append]; rfl
    rcases format_error h v with ⟨⟨f, h1, e1⟩, b1⟩ | ⟨e1, b1⟩
    · rcases ih h1 with ⟨⟨fs, h2, e2, hl, hh⟩, b2⟩ | ⟨e2, b2⟩
      · left
        refine ⟨⟨f :: fs, h2, by simp only [formatAll, e1, e2], by simp [hl], ?_⟩,
          by rw [hb, b1, b2]; rfl⟩
        intro c
        rw [hh c, format_heap h v f h1 e1 c, List.drop_drop, hocc c, Nat.mul_add]
      · right
        exact ⟨by simp only [formatAll, e1, e2], by rw [hb, b1, b2]; rfl⟩
    · right
      exact ⟨by simp only [formatAll, e1], by rw [hb, b1]; rfl⟩

/-! ## C171: decoration -/

/-- **C171.** Decorating twice is decorating once, at whatever levels and names. -/
theorem C171_idempotent (cur level cur' level' : Int) (name name' : Option (List Char))
    (details details' : Bool) (f g : Fn) (h : decorate cur level name details f = .ok g)
    (hl : cur ≤ level) : decorate cur' level' name' details' g = .ok g := by
  have : ∃ l d n i, g = .timed l d n i := by
    unfold decorate at h
    rw [if_neg (by omega)] at h
    cases f with
    | timed l d n i => cases h; exact ⟨_, _, _, _, rfl⟩
    | plain b q n s bi =>
      simp only at h
      split_ifs at h
      cases h
      exact ⟨_, _, _, _, rfl⟩
  obtain ⟨l, d, n, i, rfl⟩ := this
  unfold decorate
  split_ifs <;> rfl

/-- **C171.** Below the level in force at decoration the function itself is returned: it
will never be timed, even if the level is lowered later. -/
theorem C171_below (cur level : Int) (name : Option (List Char)) (details : Bool) (f : Fn)
    (h : level < cur) : decorate cur level name details f = .ok f := by
  unfold decorate; rw [if_pos h]

/-- **C171.** Decoration fails only with `details=True` on a function whose signature
cannot be inspected (some built-ins), with `ValueError`. -/
theorem C171_decorate_fails (cur level : Int) (name : Option (List Char)) (details : Bool)
    (f : Fn) (e : Err) :
    decorate cur level name details f = .error e ↔
      e = .value ∧ cur ≤ level ∧ details = true ∧
        ∃ b q n bi, f = .plain b q n false bi := by
  unfold decorate
  by_cases hl : level < cur
  · rw [if_pos hl]
    constructor
    · intro h; cases h
    · rintro ⟨_, h, _⟩; omega
  · rw [if_neg hl]
    cases f with
    | timed l d n i =>
      constructor
      · intro h; cases h
      · rintro ⟨_, _, _, _, _, _, _, h⟩; cases h
    | plain b q n s bi =>
      simp only
      cases details <;> cases s <;>
        simp only [Bool.not_true, Bool.not_false, Bool.and_true, Bool.and_false, Bool.true_and,
          Bool.false_and, Bool.false_eq_true, if_false, if_true, reduceCtorEq, false_and, and_false]
      · simp
        exact ⟨fun h => ⟨h.symm, by omega⟩, fun h => h.1.symm⟩
      · simp

/-! ## C171: the call -/

/-- **C171.** A timed call whose arguments are not described in the log (level below the
one in force, `details=False`, or no arguments) is the call itself: same result or
exception, same effects; it is counted once. -/
theorem C171_transparent_plain (cur level : Int) (details : Bool) (logger : List Char) (f : Fn)
    (args : List Val) (h : Heap) (hd : describes cur level details args = false) :
    (call cur (.timed level details logger f) args h).res = (call cur f args h).res ∧
    (call cur (.timed level details logger f) args h).heap = (call cur f args h).heap ∧
    (call cur (.timed level details logger f) args h).counted
      = (call cur f args h).counted ++ [logger] ∧
    (call cur (.timed level details logger f) args h).lines = (call cur f args h).lines ++
      (if cur ≤ level then [(logger, [])] else []) := by
  simp only [call]
  by_cases hl : cur ≤ level
  · have hd' : (details && !args.isEmpty) = false := by
      simpa [describes, hl] using hd
    rw [if_pos (show level ≥ cur from hl), hd', if_neg (by simp), if_pos hl]
    exact ⟨rfl, rfl, rfl, rfl⟩
  · rw [if_neg (show ¬ level ≥ cur from hl), if_neg hl]
    exact ⟨rfl, rfl, rfl, by simp⟩

/-- **C171.** A timed call that describes its arguments: if the arguments bind and none is
a mapping that cannot be rebuilt, result or exception are those of the function, it is
counted and one line is logged; the effects are those of the function, except that every
iterator among the arguments loses five more elements for each time it was passed. -/
theorem C171_call_partial (cur level : Int) (details : Bool) (logger : List Char) (f : Fn)
    (args : List Val) (h : Heap) (hd : describes cur level details args = true)
    (hb : bindsTo f args = true) (hg : hasBadDict args = false) :
    (call cur (.timed level details logger f) args h).res = (call cur f args h).res ∧
    (∀ c, (call cur (.timed level details logger f) args h).heap c
      = ((call cur f args h).heap c).drop (5 * occurrences c args)) ∧
    (call cur (.timed level details logger f) args h).counted
      = (call cur f args h).counted ++ [logger] ∧
    (∃ fs, fs.length = args.length ∧
      (call cur (.timed level details logger f) args h).lines
        = (call cur f args h).lines ++ [(logger, fs)]) := by
  have hl : cur ≤ level := by
    simp only [describes, Bool.and_eq_true, decide_eq_true_eq] at hd; exact hd.1.1
  have hd' : (details && !args.isEmpty) = true := by simpa [describes, hl] using hd
  rcases formatAll_spec args (call cur f args h).heap with ⟨⟨fs, h2, e2, hlen, hh⟩, _⟩ | ⟨_, b⟩
  · have : call cur (.timed level details logger f) args h =
        ⟨(call cur f args h).res, h2, (call cur f args h).lines ++ [(logger, fs)],
          (call cur f args h).counted ++ [logger]⟩ := by
      simp only [call]
      rw [if_pos (show level ≥ cur from hl), hd', if_pos rfl, hb, if_neg (by simp), e2]
    rw [this]
    exact ⟨rfl, hh, rfl, fs, hlen, rfl⟩
  · rw [hg] at b; cases b

/-- **C171.** In particular, without iterators among the arguments the call is transparent. -/
theorem C171_transparent (cur level : Int) (details : Bool) (logger : List Char) (f : Fn)
    (args : List Val) (h : Heap) (hb : bindsTo f args = true) (hg : hasBadDict args = false)
    (hi : ∀ c, Val.iter c ∉ args) :
    (call cur (.timed level details logger f) args h).res = (call cur f args h).res ∧
    (call cur (.timed level details logger f) args h).heap = (call cur f args h).heap ∧
    (call cur (.timed level details logger f) args h).counted
      = (call cur f args h).counted ++ [logger] := by
  cases hd : describes cur level details args with
  | false =>
    have := C171_transparent_plain cur level details logger f args h hd
    exact ⟨this.1, this.2.1, this.2.2.1⟩
  | true =>
    have := C171_call_partial cur level details logger f args h hd hb hg
    refine ⟨this.1, ?_, this.2.2.1⟩
    funext c
    have h0 : occurrences c args = 0 := by
      unfold occurrences
      rw [List.countP_eq_zero]
      intro v hv
      cases v with
      | iter d =>
        intro e
        have : d = c := by simpa using e
        exact hi d hv
      | _ => simp
    rw [this.2.1 c, h0]; rfl

/-- **C171.** If the arguments do not bind, or one is a mapping whose class cannot be called
without arguments, the call raises `TypeError` whatever the function did, and it is
neither logged nor counted. -/
theorem C171_masked (cur level : Int) (details : Bool) (logger : List Char) (f : Fn)
    (args : List Val) (h : Heap) (hd : describes cur level details args = true)
    (hg : bindsTo f args = false ∨ hasBadDict args = true) :
    (call cur (.timed level details logger f) args h).res = .error .type ∧
    (call cur (.timed level details logger f) args h).counted = (call cur f args h).counted ∧
    (call cur (.timed level details logger f) args h).lines = (call cur f args h).lines := by
  have hl : cur ≤ level := by
    simp only [describes, Bool.and_eq_true, decide_eq_true_eq] at hd; exact hd.1.1
  have hd' : (details && !args.isEmpty) = true := by simpa [describes, hl] using hd
  simp only [call]
  rw [if_pos (show level ≥ cur from hl), hd', if_pos rfl]
  cases hb : bindsTo f args with
  | false => rw [if_pos (by simp)]; exact ⟨rfl, rfl, rfl⟩
  | true =>
    rw [if_neg (by simp)]
    rcases hg with hg | hg
    · rw [hb] at hg; cases hg
    · rcases formatAll_spec args (call cur f args h).heap with ⟨_, b⟩ | ⟨e, _⟩
      · rw [hg] at b; cases b
      · rw [e]; exact ⟨rfl, rfl, rfl⟩

/-- The identity function. -/
def identityFn : Fn := .plain (fun args h => (.ok (args.headD (.lit 0)), h)) (some "m.f".toList)
  "f".toList true (fun a => a.length == 1)

/-- **C171, finding.** Timing with details eats elements of an iterator that the function
only passed on: the caller gets the iterator without its first five elements. -/
theorem C171_iterator_refuted :
    ∃ (f g : Fn) (args : List Val) (h : Heap),
      decorate 20 20 none true f = .ok g ∧ bindsTo f args = true ∧
      ((call 20 f args h).heap 0).length = 7 ∧ ((call 20 g args h).heap 0).length = 2 := by
  refine ⟨identityFn, _, [.iter 0], fun _ => List.replicate 7 (.lit 1), rfl, rfl, rfl, ?_⟩
  rfl

/-- **C171, finding.** Timing with details turns a successful call into a `TypeError` when
an argument is a mapping whose class needs arguments. -/
theorem C171_mapping_refuted :
    ∃ (f g : Fn) (args : List Val) (h : Heap),
      decorate 20 20 none true f = .ok g ∧ bindsTo f args = true ∧
      (∃ v, (call 20 f args h).res = .ok v) ∧ (call 20 g args h).res = .error .type :=
  ⟨identityFn, _, [.dict false []], fun _ => [], rfl, rfl, ⟨_, rfl⟩, rfl⟩

/-- Non-vacuity: a described call with two arguments, one of them a dict. -/
example : describes 20 20 true [.lit 1, .dict true [(.lit 1, .lit 2)]] = true ∧
    bindsTo (.plain (fun _ h => (.ok (.lit 0), h)) none [] true (fun a => a.length == 2))
      [.lit 1, .dict true [(.lit 1, .lit 2)]] = true ∧
    hasBadDict [.lit 1, .dict true [(.lit 1, .lit 2)]] = false := ⟨rfl, rfl, rfl⟩

/-! ## C171: what is logged of an argument -/

theorem fmtElems_size (l : List Val) : ∀ r : List Flat, r.length < 5 →
    ∃ r' more, (fmtElems l r).1 = .coll r' more ∧ r'.length = min (r.length + l.length) 5 ∧
      r' = (r ++ l.map fmtFlat).take 5 ∧ (more = true ↔ 5 ≤ r.length + l.length) := by
  induction l with
  | nil =>
    intro r hr
    refine ⟨r, false, rfl, by simp; omega, by simp; omega, ?_⟩
    simp; omega
  | cons e rest ih =>
    intro r hr
    simp only [fmtElems]
    split_ifs with h
    · simp only [List.length_append, List.length_cons, List.length_nil] at h
      refine ⟨_, true, rfl, by simp; omega, ?_, by simp; omega⟩
      have : r.length + 1 = 5 := by omega
      have e2 : (r ++ List.map fmtFlat (e :: rest)) = (r ++ [fmtFlat e]) ++ rest.map fmtFlat := by
        simp
      rw [e2, List.take_append_of_le_length (by simp; omega), List.take_of_length_le (by simp; omega)]
    · obtain ⟨r', m, h1, h2, h3, h4⟩ := ih (r ++ [fmtFlat e]) (by
        simp only [List.length_append, List.length_cons, List.length_nil] at h ⊢; omega)
      refine ⟨r', m, h1, ?_, ?_, ?_⟩
      · rw [h2]; simp; omega
      · rw [h3]; simp
      · rw [h4]; simp; omega

/-- **C171.** Of a collection the first five elements are logged; the mark `'...'` is added
from five elements on — also when there are exactly five and nothing is left out. -/
theorem C171_collection (h : Heap) (ty : String) (l : List Val) :
    ∃ r more, format h (.seq ty l) = .ok (.coll r more, h) ∧ r = (l.map fmtFlat).take 5 ∧
      (more = true ↔ 5 ≤ l.length) := by
  obtain ⟨r, m, h1, _, h3, h4⟩ := fmtElems_size l [] (by simp)
  refine ⟨r, m, ?_, by simpa using h3, by simpa using h4⟩
  simp only [format, h1]

theorem assign_length (r : List (Flat × Flat)) (k v : Flat) :
    r.length ≤ (assign r k v).length ∧ (assign r k v).length ≤ r.length + 1 := by
  unfold assign; split_ifs <;> simp

theorem fmtItems_size (l : List (Val × Val)) : ∀ r : List (Flat × Flat), r.length < 5 →
    ∃ r' more, fmtItems l r = .dict r' more ∧ r'.length ≤ 5 ∧ (more = true ↔ r'.length = 5) := by
  induction l with
  | nil => intro r hr; exact ⟨r, false, rfl, by omega, by simp; omega⟩
  | cons kv rest ih =>
    obtain ⟨k, v⟩ := kv
    intro r hr
    have ha := assign_length r (fmtFlat k) (fmtFlat v)
    simp only [fmtItems]
    split_ifs with h
    · exact ⟨_, true, rfl, by omega, by simp; omega⟩
    · exact ih _ (by omega)

/-- **C171.** Of a mapping at most five entries are logged. -/
theorem C171_mapping_short (h : Heap) (l : List (Val × Val)) :
    ∃ r more, format h (.dict true l) = .ok (.dict r more, h) ∧ r.length ≤ 5 ∧
      (more = true ↔ r.length = 5) := by
  obtain ⟨r, m, h1, h2, h3⟩ := fmtItems_size l [] (by simp)
  exact ⟨r, m, by simp only [format, if_true, h1], h2, h3⟩

/-- **C171.** A string is logged in full up to ten characters, and cut after ten with its
length otherwise. -/
theorem C171_string (h : Heap) (s : List Char) :
    (s.length ≤ 10 → format h (.str s) = .ok (.flat (.text s), h)) ∧
    (10 < s.length → format h (.str s) = .ok (.flat (.cut (s.take 10) s.length), h)) := by
  constructor
  · intro hs
    have : ¬ s.length > 10 := by omega
    simp only [format, fmtFlat, if_neg this]
  · intro hs
    have : s.length > 10 := hs
    simp only [format, fmtFlat, if_pos this]

/-! ## C171: the report -/

/-- The counters after a history of counted calls (logger, elapsed seconds). -/
def tally (hist : List (List Char × ℚ)) : Stats :=
  hist.foldl (fun s c => count s c.1 c.2) []

/-- The elapsed times of the calls under one name. -/
def timesOf (hist : List (List Char × ℚ)) (k : List Char) : List ℚ :=
  (hist.filter (fun c => c.1 == k)).map Prod.snd

theorem count_keys (s : Stats) (k : List Char) (e : ℚ) :
    (count s k e).map Prod.fst =
      if k ∈ s.map Prod.fst then s.map Prod.fst else s.map Prod.fst ++ [k] := by
  induction s with
  | nil => simp [count]
  | cons p s ih =>
    obtain ⟨k', v⟩ := p
    simp only [count]
    by_cases h : k' = k
    · subst h; rw [if_pos rfl]; simp
    · rw [if_neg h, List.map_cons, ih]
      have h' : k ≠ k' := fun e => h e.symm
      by_cases hm : k ∈ s.map Prod.fst
      · rw [if_pos hm, if_pos (by simp only [List.map_cons, List.mem_cons]; exact Or.inr hm)]; rfl
      · rw [if_neg hm, if_neg (by
          simp only [List.map_cons, List.mem_cons, not_or]; exact ⟨h', hm⟩)]; rfl

theorem count_mem (s : Stats) (hn : (s.map Prod.fst).Nodup) (k : List Char) (e : ℚ)
    (k' : List Char) (v : Nat × ℚ) :
    (k', v) ∈ count s k e ↔
      (k' ≠ k ∧ (k', v) ∈ s) ∨
      (k' = k ∧ ((∃ w, (k, w) ∈ s ∧ v = (w.1 + 1, w.2 + e)) ∨
        (k ∉ s.map Prod.fst ∧ v = (1, e)))) := by
  induction s with
  | nil => simp [count]
  | cons p s ih =>
    obtain ⟨a, b⟩ := p
    simp only [List.map_cons, List.nodup_cons] at hn
    have ih := ih hn.2
    simp only [count]
    by_cases h : a = k
    · subst h
      rw [if_pos rfl]
      have hno : ∀ w, (a, w) ∉ s := fun w hw => hn.1 (List.mem_map.2 ⟨_, hw, rfl⟩)
      simp only [List.mem_cons, Prod.mk.injEq, List.map_cons, true_or, not_true, false_and, or_false]
      constructor
      · rintro (⟨rfl, rfl⟩ | hm)
        · exact Or.inr ⟨rfl, b, Or.inl ⟨trivial, rfl⟩, rfl⟩
        · by_cases hk : k' = a
          · subst hk; exact absurd hm (hno v)
          · exact Or.inl ⟨hk, Or.inr hm⟩
      · rintro (⟨hk, ⟨rfl, _⟩ | hm⟩ | ⟨rfl, w, ⟨_, rfl⟩ | hm, rfl⟩)
        · exact absurd rfl hk
        · exact Or.inr hm
        · exact Or.inl ⟨rfl, rfl⟩
        · exact absurd hm (hno w)
    · rw [if_neg h, List.mem_cons, ih]
      have h' : k ≠ a := fun e => h e.symm
      simp only [List.mem_cons, Prod.mk.injEq, List.map_cons, h', false_and, false_or]
      constructor
      · rintro (⟨rfl, rfl⟩ | ⟨hk, hm⟩ | ⟨rfl, hm⟩)
        · exact Or.inl ⟨h, Or.inl ⟨rfl, rfl⟩⟩
        · exact Or.inl ⟨hk, Or.inr hm⟩
        · exact Or.inr ⟨rfl, hm⟩
      · rintro (⟨hk, ⟨rfl, rfl⟩ | hm⟩ | ⟨rfl, hm⟩)
        · exact Or.inl ⟨rfl, rfl⟩
        · exact Or.inr (Or.inl ⟨hk, hm⟩)
        · exact Or.inr (Or.inr ⟨rfl, hm⟩)

theorem tally_spec (hist : List (List Char × ℚ)) :
    ((tally hist).map Prod.fst).Nodup ∧
    (∀ k, k ∈ (tally hist).map Prod.fst ↔ timesOf hist k ≠ []) ∧
    (∀ k v, (k, v) ∈ tally hist ↔
      timesOf hist k ≠ [] ∧ v = ((timesOf hist k).length, (timesOf hist k).sum)) := by
  induction hist using List.reverseRecOn with
  | nil => simp [tally, timesOf]
  | append_singleton hist c ih =>
    obtain ⟨i1, i2, i3⟩ := ih
    have ht : tally (hist ++ [c]) = count (tally hist) c.1 c.2 := by
      unfold tally; rw [List.foldl_append]; rfl
    have ho : ∀ k, timesOf (hist ++ [c]) k = timesOf hist k ++ (if c.1 = k then [c.2] else []) := by
      intro k
      unfold timesOf
      rw [List.filter_append, List.map_append]
      congr 1
      by_cases h : c.1 = k <;> simp [h]
    rw [ht]
    refine ⟨?_, ?_, ?_⟩
    · rw [count_keys]
      split_ifs with hm
      · exact i1
      · rw [List.nodup_append]
        refine ⟨i1, by simp, ?_⟩
        rintro a ha b hb rfl
        rw [List.mem_singleton] at hb
        exact hm (hb ▸ ha)
    · intro k
      rw [count_keys, ho k]
      split_ifs with hm hk hk
      · subst hk; simp [hm]
      · rw [i2 k]; simp
      · subst hk; simp
      · have : k ≠ c.1 := fun e => hk e.symm
        rw [List.mem_append, i2 k]; simp [this]
    · intro k v
      rw [count_mem _ i1, ho k]
      by_cases hk : c.1 = k
      · subst hk
        simp only [ne_eq, not_true, false_and, true_and, false_or, if_true]
        constructor
        · rintro (⟨w, hw, rfl⟩ | ⟨hno, rfl⟩)
          · rw [i3] at hw
            obtain ⟨_, rfl⟩ := hw
            exact ⟨by simp, by simp⟩
          · have : timesOf hist c.1 = [] := by
              by_contra h; exact hno ((i2 _).2 h)
            rw [this]
            exact ⟨by simp, by simp⟩
        · rintro ⟨_, rfl⟩
          by_cases hm : timesOf hist c.1 = []
          · right
            rw [hm]
            exact ⟨fun h => (i2 _).1 h hm, by simp⟩
          · left
            exact ⟨_, (i3 _ _).2 ⟨hm, rfl⟩, by simp⟩
      · have h' : k ≠ c.1 := fun e => hk e.symm
        simp only [ne_eq, h', not_false_eq_true, true_and, false_and, or_false, if_neg hk,
          List.append_nil]
        exact i3 k v

theorem put_keys (r : List (List Char × (Nat × ℚ × ℚ))) (k : List Char) (v : Nat × ℚ × ℚ)
    (h : k ∉ r.map Prod.fst) : put r k v = r ++ [(k, v)] := by
  induction r with
  | nil => rfl
  | cons p r ih =>
    obtain ⟨k', v'⟩ := p
    simp only [List.map_cons, List.mem_cons, not_or] at h
    simp only [put]
    rw [if_neg (fun e => h.1 e.symm), ih h.2]
    rfl

/-- The line of the report for one counter. -/
def reportRow (kv : List Char × (Nat × ℚ)) : List Char × (Nat × ℚ × ℚ) :=
  (cutName kv.1, (kv.2.1, kv.2.2, kv.2.2 / kv.2.1))

theorem report_rows (s : Stats) (h : (s.map (fun kv => cutName kv.1)).Nodup) :
    report s = s.map reportRow := by
  have : ∀ (t : Stats) (r : List (List Char × (Nat × ℚ × ℚ))),
      (r.map Prod.fst ++ t.map (fun kv => cutName kv.1)).Nodup →
      t.foldl (fun r kv => put r (cutName kv.1) (kv.2.1, kv.2.2, kv.2.2 / kv.2.1)) r
        = r ++ t.map reportRow := by
    intro t
    induction t with
    | nil => intro r _; simp
    | cons kv t ih =>
      intro r hr
      rw [List.foldl_cons, put_keys]
      · rw [ih]
        · simp [reportRow]
        · simpa using hr
      · intro hm
        rw [List.nodup_append] at hr
        exact hr.2.2 _ hm _ (by simp) rfl
  have := this s [] (by simpa using h)
  simpa [report] using this

/-- The default name of a timed function. -/
def defaultName (q : List Char) : List Char := "[tic-toc]".toList ++ q ++ "@".toList

theorem cutName_default (q : List Char) : cutName (defaultName q) = q := by
  unfold cutName defaultName
  have h1 : ("[tic-toc]".toList ++ q ++ "@".toList).length - sfx.length
      = ("[tic-toc]".toList ++ q).length := by
    rw [List.length_append]; exact Nat.add_sub_cancel ..
  rw [h1, List.take_left']
  · exact List.drop_left' rfl
  · rfl

/-- **C171.** In every history of counted calls of functions with default names, the report
has exactly one line for each function called: the number of its calls, the sum of their
times and the average. -/
theorem C171_report_partial (hist : List (List Char × ℚ)) :
    let named := hist.map (fun c => (defaultName c.1, c.2))
    ((report (tally named)).map Prod.fst).Nodup ∧
    ∀ (q : List Char) (n : Nat) (total average : ℚ),
      (q, (n, total, average)) ∈ report (tally named) ↔
        let times := (hist.filter (fun c => c.1 == q)).map Prod.snd
        times ≠ [] ∧ n = times.length ∧ total = times.sum ∧ average = total / n := by
  intro named
  have inj : ∀ a b, defaultName a = defaultName b → a = b := by
    intro a b h
    rw [← cutName_default a, h, cutName_default]
  have ht : ∀ q, timesOf named (defaultName q) = (hist.filter (fun c => c.1 == q)).map Prod.snd := by
    intro q
    simp only [timesOf, named]
    rw [List.filter_map, List.map_map]
    have : (hist.filter ((fun c : List Char × ℚ => c.1 == defaultName q) ∘
        fun c => (defaultName c.1, c.2))) = hist.filter (fun c => c.1 == q) := by
      apply List.filter_congr
      intro c _
      by_cases h : c.1 = q
      · simp [h]
      · have : defaultName c.1 ≠ defaultName q := fun e => h (inj _ _ e)
        simp [h, this]
    rw [this]
    rfl
  have hk : ∀ k ∈ (tally named).map Prod.fst, ∃ q, k = defaultName q := by
    intro k hk
    have := ((tally_spec named).2.1 k).1 hk
    obtain ⟨x, hx⟩ := List.exists_mem_of_ne_nil _ this
    simp only [timesOf, List.mem_map, List.mem_filter, named] at hx
    obtain ⟨_, ⟨⟨c, _, rfl⟩, h2⟩, _⟩ := hx
    exact ⟨c.1, (by simpa using h2 : defaultName c.1 = k).symm⟩
  have hnd : ((tally named).map (fun kv => cutName kv.1)).Nodup := by
    have e : (tally named).map (fun kv => cutName kv.1)
        = ((tally named).map Prod.fst).map cutName := by rw [List.map_map]; rfl
    rw [e]
    refine List.Nodup.map_on ?_ (tally_spec named).1
    intro a ha b hb hab
    obtain ⟨x, rfl⟩ := hk a ha
    obtain ⟨y, rfl⟩ := hk b hb
    rw [cutName_default, cutName_default] at hab
    rw [hab]
  rw [report_rows _ hnd]
  constructor
  · rw [List.map_map]; exact hnd
  · intro q n total average
    simp only
    rw [← ht q]
    constructor
    · intro hm
      obtain ⟨⟨k, v⟩, hkv, e⟩ := List.mem_map.1 hm
      obtain ⟨x, rfl⟩ := hk k (List.mem_map.2 ⟨_, hkv, rfl⟩)
      simp only [reportRow, cutName_default, Prod.mk.injEq] at e
      obtain ⟨rfl, rfl, rfl, rfl⟩ := e
      obtain ⟨h1, h2⟩ := ((tally_spec named).2.2 _ _).1 hkv
      exact ⟨h1, by rw [h2], by rw [h2], by rw [h2]⟩
    · rintro ⟨h1, rfl, rfl, rfl⟩
      refine List.mem_map.2 ⟨(defaultName q, _), ((tally_spec named).2.2 _ _).2 ⟨h1, rfl⟩, ?_⟩
      simp only [reportRow, cutName_default]

/-- **C171, finding.** Functions timed under names of their own are reported under mangled
names: nine characters are cut in front and one at the end, and names that agree then
replace one another — one of the two functions is missing. -/
theorem C171_custom_name_refuted :
    report (tally [("load".toList, 2), ("save".toList, 3)]) = [([], (1, 3, 3))] ∧
    report (tally [("prepare-data".toList, 2)]) = [("at".toList, (1, 2, 2))] := by
  decide +kernel

/-- Non-vacuity: three calls of two functions. -/
example : report (tally [(defaultName "m.f".toList, 1), (defaultName "m.g".toList, 5),
    (defaultName "m.f".toList, 2)])
    = [("m.f".toList, (2, 3, 3 / 2)), ("m.g".toList, (1, 5, 5))] := by decide +kernel

/-- The decorator gives default names. -/
theorem C171_default_name (cur level : Int) (details : Bool) (b : Body) (q n : List Char)
    (bi : List Val → Bool) (h : cur ≤ level) :
    decorate cur level none details (.plain b (some q) n true bi)
      = .ok (.timed level details (defaultName q) (.plain b (some q) n true bi)) := by
  unfold decorate
  rw [if_neg (by omega)]
  cases details <;> rfl

end YL.Props
