import Verif.Model.Logging
import Mathlib.Tactic.SplitIfs
import Mathlib.Data.List.Induction

/-!
# C169, C170: what the loggers print

Specification: over a history of calls, which call prints what.
-/
set_option linter.unusedSectionVars false

namespace YL.Props
open YL.Log

/-! ## Specification -/

/-- The stack of a call of `log_every_n` or `log_first_n`. -/
def countedStack : Op → Option (List Frame)
  | .everyN _ _ _ _ u => some u
  | .firstN _ _ _ _ u => some u
  | _ => none

/-- The nearest frame in another file than the calling code's own. -/
def outerSite (user : List Frame) : String × Nat :=
  match user with
  | [] => ("<unknown>", 0)
  | f :: rest =>
    match rest.find? (fun g => g.file != f.file) with
    | some g => (g.file, g.line)
    | none => ("<unknown>", 0)

/-- The number of calls of `log_every_n` and `log_first_n` in `h` made from code that was
itself entered from the same line of another file. -/
def earlier (h : List Op) (t : String × Nat) : Nat :=
  (h.filterMap countedStack).countP (fun u => outerSite u == t)

/-- The value a successful `set_level` sets. -/
def levelSet : Op → Option Int
  | .setLevel (.int i) => some i
  | .setLevel (.str s) => (toLevel 0 (.str s)).toOption
  | _ => none

/-- The level in force after `h`: the one of the last successful `set_level`, or the one
the module started with. -/
def levelInForce (l0 : Int) (h : List Op) : Int := ((h.filterMap levelSet).getLast?).getD l0

/-- The line of the calling code. -/
def callSite (user : List Frame) : String × Nat :=
  match user with
  | [] => ("(unknown file)", 0)
  | f :: _ => (f.file, f.line)

/-- What printing one message gives. -/
def line (lvl : Int) (msg : String) (user : List Frame) : Rec :=
  ⟨if lvl < 30 then .stdout else .stderr, lvl, msg, callSite user⟩

/-- Calling code that is not the logging module itself. -/
def Outside (user : List Frame) : Prop := ∃ f rest, user = f :: rest ∧ f.file ≠ ownFile

/-! ## Helpers -/

theorem fileAndLine_eq (user : List Frame) : fileAndLine user = outerSite user := by
  unfold fileAndLine outerSite getCaller
  cases user with
  | nil => rfl
  | cons f rest =>
    simp only [List.drop_succ_cons, List.drop_zero]
    cases rest.find? (fun g => g.file != f.file) <;> rfl

theorem findCaller_eq (inner user : List Frame) (hin : ∀ f ∈ inner, f.file = ownFile)
    (hu : Outside user) : findCaller inner user = callSite user := by
  obtain ⟨f, rest, rfl, hf⟩ := hu
  have : (inner ++ f :: rest).find? (fun g => g.file != ownFile) = some f := by
    rw [List.find?_append, List.find?_eq_none.2 (by
      intro g hg; simp [hin g hg])]
    simp [hf]
  unfold findCaller getCaller
  simp only [List.drop_succ_cons, List.drop_zero, this, callSite]

theorem handle_eq (lvl : Int) (msg : String) (user : List Frame) (h0 : 0 ≤ lvl) :
    handle lvl msg (callSite user) = [line lvl msg user] := by
  unfold handle line WARN
  by_cases h : lvl < 30
  · have : ¬ (30 : Int) ≤ lvl := by omega
    simp [h, h0, this]
  · have : (30 : Int) ≤ lvl := by omega
    simp [h, h0, this]

theorem run_append (st : St) (a b : List Op) : run st (a ++ b) = run (run st a) b := by
  induction a generalizing st with
  | nil => rfl
  | cons o os ih => simp only [List.cons_append, run]; exact ih _

theorem logRec_level (st : St) (l : Int) (m : String) (s : String × Nat) :
    (logRec st l m s).level = st.level := by unfold logRec; split_ifs <;> rfl

theorem logRec_counts (st : St) (l : Int) (m : String) (s : String × Nat) :
    (logRec st l m s).counts = st.counts := by unfold logRec; split_ifs <;> rfl

theorem logIf_level (st : St) (l : Int) (m : String) (c : Bool) (s : String × Nat) :
    (logIf st l m c s).level = st.level := by
  unfold logIf; split_ifs
  · exact logRec_level ..
  · rfl

theorem logIf_counts (st : St) (l : Int) (m : String) (c : Bool) (s : String × Nat) :
    (logIf st l m c s).counts = st.counts := by
  unfold logIf; split_ifs
  · exact logRec_counts ..
  · rfl

theorem toLevel_str_cur (a b : Int) (s : List Char) : toLevel a (.str s) = toLevel b (.str s) := rfl

theorem step_level (st : St) (o : Op) : (step st o).1.level = (levelSet o).getD st.level := by
  cases o with
  | setLevel v =>
    cases v with
    | none => rfl
    | int i => rfl
    | str s =>
      simp only [step, levelSet]
      rw [toLevel_str_cur st.level 0]
      cases toLevel 0 (.str s) <;> rfl
  | loggerSetLevel lg l => rfl
  | log lg lvl msg u => exact logRec_level ..
  | named lg m msg u => exact logRec_level ..
  | fatal lg msg u => exact logRec_level ..
  | everyN lg lvl msg n u =>
    simp only [step]
    split_ifs
    · rfl
    · exact logIf_level ..
  | firstN lg lvl msg n u => exact logIf_level ..

theorem run_level (l0 : Int) (h : List Op) : (run (init l0) h).level = levelInForce l0 h := by
  induction h using List.reverseRecOn with
  | nil => rfl
  | append_singleton h o ih =>
    rw [run_append]
    show (step _ o).1.level = _
    rw [step_level, ih]
    unfold levelInForce
    rw [List.filterMap_append]
    cases hl : levelSet o with
    | none => simp [hl]
    | some l => simp [hl]

theorem step_counts (st : St) (o : Op) (t : String × Nat) :
    (step st o).1.counts t =
      if (countedStack o).any (fun u => outerSite u == t)
      then some (1 + (st.counts t).getD (-1)) else st.counts t := by
  cases o with
  | setLevel v =>
    simp only [countedStack, Option.any_none]
    cases v with
    | none => rfl
    | int i => rfl
    | str s =>
      simp only [step]
      cases toLevel st.level (.str s) <;> rfl
  | loggerSetLevel lg l => rfl
  | log lg lvl msg u => simp [countedStack, step, logRec_counts]
  | named lg m msg u => simp [countedStack, step, logRec_counts]
  | fatal lg msg u => simp [countedStack, step, logRec_counts]
  | everyN lg lvl msg n u =>
    have : (step st (.everyN lg lvl msg n u)).1.counts
        = (nextCount st (fileAndLine u)).2.counts := by
      simp only [step]
      split_ifs
      · rfl
      · exact logIf_counts ..
    rw [this, fileAndLine_eq]
    simp only [nextCount, countedStack, Option.any_some, beq_iff_eq, Function.update_apply]
    by_cases h : outerSite u = t
    · subst h; simp
    · rw [if_neg (fun e => h e.symm), if_neg h]
  | firstN lg lvl msg n u =>
    have : (step st (.firstN lg lvl msg n u)).1.counts
        = (nextCount st (fileAndLine u)).2.counts := logIf_counts ..
    rw [this, fileAndLine_eq]
    simp only [nextCount, countedStack, Option.any_some, beq_iff_eq, Function.update_apply]
    by_cases h : outerSite u = t
    · subst h; simp
    · rw [if_neg (fun e => h e.symm), if_neg h]

theorem run_counts (l0 : Int) (h : List Op) (t : String × Nat) :
    1 + ((run (init l0) h).counts t).getD (-1) = (earlier h t : Int) := by
  induction h using List.reverseRecOn with
  | nil => rfl
  | append_singleton h o ih =>
    rw [run_append]
    show 1 + ((step _ o).1.counts t).getD (-1) = _
    rw [step_counts]
    unfold earlier at *
    rw [List.filterMap_append, List.countP_append]
    cases hc : countedStack o with
    | none => simp [hc, ih]
    | some u =>
      by_cases hu : outerSite u = t
      · simp [hc, hu]; rw [ih]; omega
      · simp [hc, hu, ih]

theorem logRec_out (st : St) (lvl : Int) (msg : String) (inner user : List Frame)
    (hin : ∀ f ∈ inner, f.file = ownFile) (hu : Outside user) (h0 : 0 ≤ lvl) :
    (logRec st lvl msg (findCaller inner user)).out =
      st.out ++ (if st.level ≤ lvl then [line lvl msg user] else []) := by
  rw [findCaller_eq inner user hin hu]
  unfold logRec isEnabledFor
  rw [handle_eq _ _ _ h0]
  by_cases h : st.level ≤ lvl <;> simp [h]

/-! ## C169: counting loggers -/

/-- **C169.** In every history, a call of `log_every_n(level, msg, n)` prints its message
exactly when the level is in force and `n` divides the number of earlier counted calls
with the same *outer* line (and it prints it once, with the file and line of the call). -/
theorem C169_every_n_partial (l0 : Int) (h : List Op) (lg : String) (lvl : Int) (msg : String)
    (n : Int) (user : List Frame) (hn : n ≠ 0) (hu : Outside user) (h0 : 0 ≤ lvl) :
    (run (init l0) (h ++ [.everyN lg lvl msg n user])).out = (run (init l0) h).out ++
      (if levelInForce l0 h ≤ lvl ∧ n ∣ (earlier h (outerSite user) : Int)
        then [line lvl msg user] else []) := by
  rw [run_append]
  show (step _ _).1.out = _
  simp only [step, if_neg hn]
  have hc : (nextCount (run (init l0) h) (fileAndLine user)).1 = (earlier h (outerSite user) : Int) := by
    rw [fileAndLine_eq]; exact run_counts ..
  have hl : (nextCount (run (init l0) h) (fileAndLine user)).2.level = levelInForce l0 h :=
    run_level ..
  have ho : (nextCount (run (init l0) h) (fileAndLine user)).2.out = (run (init l0) h).out := rfl
  unfold logIf
  rw [hc]
  by_cases hd : n ∣ (earlier h (outerSite user) : Int)
  · rw [if_pos (by simpa using Int.emod_eq_zero_of_dvd hd),
      logRec_out _ _ _ _ _ (by simp) hu h0, hl, ho]
    simp [hd]
  · rw [if_neg (by simpa using fun e => hd (Int.dvd_of_emod_eq_zero e)), ho]
    simp [hd]

/-- **C169.** The same for `log_first_n(level, msg, n)`: it prints exactly when fewer than
`n` counted calls with the same outer line came before. -/
theorem C169_first_n_partial (l0 : Int) (h : List Op) (lg : String) (lvl : Int) (msg : String)
    (n : Int) (user : List Frame) (hu : Outside user) (h0 : 0 ≤ lvl) :
    (run (init l0) (h ++ [.firstN lg lvl msg n user])).out = (run (init l0) h).out ++
      (if levelInForce l0 h ≤ lvl ∧ (earlier h (outerSite user) : Int) < n
        then [line lvl msg user] else []) := by
  rw [run_append]
  show (step _ _).1.out = _
  simp only [step]
  have hc : (nextCount (run (init l0) h) (fileAndLine user)).1 = (earlier h (outerSite user) : Int) := by
    rw [fileAndLine_eq]; exact run_counts ..
  have hl : (nextCount (run (init l0) h) (fileAndLine user)).2.level = levelInForce l0 h :=
    run_level ..
  have ho : (nextCount (run (init l0) h) (fileAndLine user)).2.out = (run (init l0) h).out := rfl
  unfold logIf
  rw [hc]
  by_cases hd : (earlier h (outerSite user) : Int) < n
  · rw [if_pos (by simpa using hd), logRec_out _ _ _ _ _ (by simp) hu h0, hl, ho]
    simp [hd]
  · rw [if_neg (by simpa using hd), ho]
    simp [hd]

/-- A counted call with `n = 0` to `log_every_n` raises `ZeroDivisionError`, prints nothing
and still counts. -/
theorem C169_every_zero (l0 : Int) (h : List Op) (lg : String) (lvl : Int) (msg : String)
    (user : List Frame) (t : String × Nat) :
    (step (run (init l0) h) (.everyN lg lvl msg 0 user)).2 = some .zeroDivision ∧
    (run (init l0) (h ++ [.everyN lg lvl msg 0 user])).out = (run (init l0) h).out ∧
    earlier (h ++ [.everyN lg lvl msg 0 user]) t
      = earlier h t + (if outerSite user = t then 1 else 0) := by
  refine ⟨by simp [step], ?_, ?_⟩
  · rw [run_append]; simp [run, step, nextCount]
  · unfold earlier
    simp [List.filterMap_append, countedStack, List.countP_cons]

theorem earlier_replicate (k : Nat) (o : Op) (u : List Frame) (ho : countedStack o = some u) :
    earlier (List.replicate k o) (outerSite u) = k := by
  induction k with
  | zero => rfl
  | succ k ih =>
    unfold earlier at *
    rw [List.replicate_succ, List.filterMap_cons, ho]
    simp [ih]

theorem inForce_replicate (k : Nat) (o : Op) (l0 : Int) (ho : levelSet o = none) :
    levelInForce l0 (List.replicate k o) = l0 := by
  have : (List.replicate k o).filterMap levelSet = [] := by
    rw [List.filterMap_eq_nil_iff]
    intro a ha
    rw [List.eq_of_mem_replicate ha, ho]
  unfold levelInForce; rw [this]; rfl

/-- **C169.** `k` calls in a row of one `log_first_n(…, n)` print `min k n` lines. -/
theorem C169_first_n_row (l0 : Int) (k n : Nat) (lg : String) (lvl : Int) (msg : String)
    (user : List Frame) (hu : Outside user) (h0 : 0 ≤ lvl) (hl : l0 ≤ lvl) :
    (run (init l0) (List.replicate k (.firstN lg lvl msg n user))).out
      = List.replicate (min k n) (line lvl msg user) := by
  induction k with
  | zero => simp [run, init]
  | succ k ih =>
    rw [List.replicate_succ', C169_first_n_partial l0 _ lg lvl msg n user hu h0, ih,
      inForce_replicate k _ l0 rfl, earlier_replicate k _ user rfl]
    by_cases h : k < n
    · rw [if_pos ⟨hl, by exact_mod_cast h⟩, ← List.replicate_succ']
      congr 1; omega
    · rw [if_neg (fun e => h (by exact_mod_cast e.2)), List.append_nil]
      congr 1; omega

/-- **C169.** `k` calls in a row of one `log_every_n(…, n)` print `⌈k / n⌉` lines. -/
theorem C169_every_n_row (l0 : Int) (k n : Nat) (hn : 0 < n) (lg : String) (lvl : Int)
    (msg : String) (user : List Frame) (hu : Outside user) (h0 : 0 ≤ lvl) (hl : l0 ≤ lvl) :
    (run (init l0) (List.replicate k (.everyN lg lvl msg n user))).out
      = List.replicate ((k + n - 1) / n) (line lvl msg user) := by
  induction k with
  | zero =>
    have : (0 + n - 1) / n = 0 := Nat.div_eq_of_lt (by omega)
    rw [this]; simp [run, init]
  | succ k ih =>
    rw [List.replicate_succ', C169_every_n_partial l0 _ lg lvl msg n user (by omega) hu h0, ih,
      inForce_replicate k _ l0 rfl, earlier_replicate k _ user rfl]
    have e1 : k + 1 + n - 1 = k + n := by omega
    rw [e1, Nat.add_div_right _ hn]
    by_cases h : n ∣ k
    · rw [if_pos ⟨hl, by exact_mod_cast h⟩]
      obtain ⟨q, rfl⟩ := h
      have : (n * q + n - 1) / n = q := by
        rw [Nat.add_sub_assoc (by omega), Nat.mul_add_div hn, Nat.div_eq_of_lt (by omega)]
        omega
      rw [this, Nat.mul_div_cancel_left _ hn, ← List.replicate_succ']
    · rw [if_neg (fun e => h (by exact_mod_cast e.2)), List.append_nil]
      congr 1
      have hr : 0 < k % n := Nat.pos_of_ne_zero (fun e => h (Nat.dvd_of_mod_eq_zero e))
      have hk := Nat.div_add_mod k n
      have hlt := Nat.mod_lt k hn
      generalize k / n = q at *
      generalize k % n = r at *
      subst hk
      have : n * q + r + n - 1 = n * (q + 1) + (r - 1) := by
        rw [Nat.mul_add]; omega
      rw [this, Nat.mul_add_div hn, Nat.div_eq_of_lt (by omega)]

/-- The docstring's claim, for the call sites of a history: a `log_first_n(…, n)` prints
whenever fewer than `n` counted calls at *its own line* came before. -/
def CountsPerCallSite : Prop :=
  ∀ (h : List Op) (lvl : Int) (msg : String) (n : Int) (user : List Frame),
    Outside user → 20 ≤ lvl →
    let c := (h.filterMap countedStack).countP (fun u => callSite u == callSite user)
    ((run (init 20) (h ++ [.firstN "m" lvl msg n user])).out.length
        = (run (init 20) h).out.length + (if (c : Int) < n then 1 else 0))

/-- **C169, finding.** The claim is false: two different lines of a script share a counter
(`_get_caller` starts at the caller's frame and skips the caller's file), so the second
line's message is lost. -/
theorem C169_two_lines_refuted : ¬ CountsPerCallSite := by
  intro H
  have h := H [.firstN "m" 20 "a" 1 [⟨"script.py", 1⟩]] 20 "b" 1 [⟨"script.py", 2⟩]
    ⟨_, _, rfl, by decide⟩ (by omega)
  revert h; decide +kernel

/-- **C169, finding.** And one line that is reached from two lines of another file has two
counters: a message meant to be printed once is printed twice. -/
theorem C169_one_line_twice_refuted :
    (run (init 20)
      [.firstN "m" 20 "once" 1 [⟨"lib.py", 7⟩, ⟨"main.py", 1⟩],
       .firstN "m" 20 "once" 1 [⟨"lib.py", 7⟩, ⟨"main.py", 2⟩]]).out
    = [⟨.stdout, 20, "once", ("lib.py", 7)⟩, ⟨.stdout, 20, "once", ("lib.py", 7)⟩] := by
  decide +kernel

/-- **C169.** The claim holds for the call sites of a history whose outer lines correspond
one to one with the call sites. -/
theorem C169_per_site_partial (l0 : Int) (h : List Op) (lg : String) (lvl : Int) (msg : String)
    (n : Int) (user : List Frame) (hu : Outside user) (h0 : 0 ≤ lvl)
    (h1 : ∀ u ∈ h.filterMap countedStack,
      outerSite u = outerSite user ↔ callSite u = callSite user) :
    (run (init l0) (h ++ [.firstN lg lvl msg n user])).out = (run (init l0) h).out ++
      (if levelInForce l0 h ≤ lvl ∧
          (((h.filterMap countedStack).countP
            (fun u => callSite u == callSite user) : Nat) : Int) < n
        then [line lvl msg user] else []) := by
  rw [C169_first_n_partial l0 h lg lvl msg n user hu h0]
  have : earlier h (outerSite user) = (h.filterMap countedStack).countP
      (fun u => callSite u == callSite user) := by
    unfold earlier
    apply List.countP_congr
    intro u hu
    simp [h1 u hu]
  rw [this]

/-- Non-vacuity of `C169_per_site_partial`: two call sites in two files. -/
example : ∀ u ∈ [Op.firstN "m" 20 "a" 1 [⟨"a.py", 3⟩, ⟨"main.py", 1⟩],
      .firstN "m" 20 "b" 1 [⟨"b.py", 5⟩, ⟨"main.py", 2⟩]].filterMap countedStack,
    outerSite u = outerSite [⟨"b.py", 5⟩, ⟨"main.py", 2⟩] ↔
      callSite u = callSite [⟨"b.py", 5⟩, ⟨"main.py", 2⟩] := by decide +kernel

/-- Non-vacuity: every third call of five prints, calls 1 and 4. -/
example : (run (init 20) (List.replicate 5 (.everyN "m" 30 "x" 3 [⟨"s.py", 4⟩]))).out
    = [⟨.stderr, 30, "x", ("s.py", 4)⟩, ⟨.stderr, 30, "x", ("s.py", 4)⟩] := by decide +kernel

/-! ## C170: levels and streams -/

/-- **C170.** In every history, `log(level, msg)` on any logger prints the message once if
the level is at least the one in force and not at all otherwise; it goes to stdout below
WARN and to stderr from WARN on, with the file and line of the call. -/
theorem C170_log (l0 : Int) (h : List Op) (lg : String) (lvl : Int) (msg : String)
    (user : List Frame) (hu : Outside user) (h0 : 0 ≤ lvl) :
    (run (init l0) (h ++ [.log lg lvl msg user])).out = (run (init l0) h).out ++
      (if levelInForce l0 h ≤ lvl then [line lvl msg user] else []) := by
  rw [run_append]
  show (step _ _).1.out = _
  simp only [step]
  rw [logRec_out _ _ _ _ _ (by simp) hu h0, run_level]

/-- **C170.** `debug`, `info`, `warn`, `warning`, `error` print at 10, 20, 30, 30, 40. -/
theorem C170_named (l0 : Int) (h : List Op) (lg : String) (m : Method) (msg : String)
    (user : List Frame) (hu : Outside user) :
    let lvl : Int := match m with
      | .debug => 10 | .info => 20 | .warn => 30 | .warning => 30 | .error => 40
    (run (init l0) (h ++ [.named lg m msg user])).out = (run (init l0) h).out ++
      (if levelInForce l0 h ≤ lvl then [line lvl msg user] else []) := by
  intro lvl
  have hl : m.level = lvl := by cases m <;> rfl
  rw [run_append]
  show (step _ _).1.out = _
  simp only [step]
  rw [logRec_out _ _ _ _ _ (by simp) hu (by rw [hl]; cases m <;> decide), run_level, hl]

/-- **C170.** A negative level is never printed, whatever `set_level` was given. -/
theorem C170_negative (l0 : Int) (h : List Op) (lg : String) (lvl : Int) (msg : String)
    (user : List Frame) (hl : lvl < 0) :
    (run (init l0) (h ++ [.log lg lvl msg user])).out = (run (init l0) h).out := by
  rw [run_append]
  show (step _ _).1.out = _
  have : ¬ 0 ≤ lvl := by omega
  simp only [step, logRec, handle, this, and_false, if_false, List.append_nil]
  split_ifs <;> rfl

/-- **C170, finding.** `fatal` always raises `TypeError` (it calls `self.exception()`
without the message), after having printed the message. -/
theorem C170_fatal_refuted (l0 : Int) (h : List Op) (lg : String) (msg : String)
    (user : List Frame) (hu : Outside user) :
    (step (run (init l0) h) (.fatal lg msg user)).2 = some .type ∧
    (run (init l0) (h ++ [.fatal lg msg user])).out = (run (init l0) h).out ++
      (if levelInForce l0 h ≤ 50 then [line 50 msg user] else []) := by
  refine ⟨rfl, ?_⟩
  rw [run_append]
  show (step _ _).1.out = _
  simp only [step]
  rw [logRec_out _ _ _ _ _ (by simp) hu (by decide), run_level]
  rfl

/-- Nothing else raises but `set_level` on a bad value and `log_every_n` with 0. -/
theorem C170_raises (st : St) (o : Op) (e : Err) (h : (step st o).2 = some e) :
    (∃ v, o = .setLevel v ∧ levelSet o = none) ∨ (∃ lg m u, o = .fatal lg m u) ∨
      (∃ lg l m u, o = .everyN lg l m 0 u) := by
  cases o with
  | setLevel v =>
    left
    refine ⟨v, rfl, ?_⟩
    cases v with
    | none => rfl
    | int i => cases h
    | str s =>
      simp only [step] at h
      simp only [levelSet]
      rw [toLevel_str_cur st.level 0] at h
      cases hr : toLevel 0 (.str s) with
      | ok l => rw [hr] at h; cases h
      | error e => rfl
  | loggerSetLevel lg l => cases h
  | log lg lvl msg u => cases h
  | named lg m msg u => cases h
  | fatal lg msg u => right; left; exact ⟨_, _, _, rfl⟩
  | everyN lg lvl msg n u =>
    right; right
    simp only [step] at h
    split_ifs at h with hn
    · subst hn; exact ⟨_, _, _, _, rfl⟩
  | firstN lg lvl msg n u => cases h

/-- Is it a `setLevel` of one logger? -/
def isOwnLevel : Op → Bool
  | .loggerSetLevel _ _ => true
  | _ => false

theorem logRec_frame {st st' : St} {l : Int} {m : String} {c : String × Nat}
    (e : st.level = st'.level ∧ st.counts = st'.counts ∧ st.out = st'.out) :
    (logRec st l m c).level = (logRec st' l m c).level ∧
    (logRec st l m c).counts = (logRec st' l m c).counts ∧
    (logRec st l m c).out = (logRec st' l m c).out := by
  unfold logRec isEnabledFor
  rw [e.1]
  by_cases h : st'.level ≤ l
  · simp only [h, decide_true, if_true]; exact ⟨trivial, e.2.1, by rw [e.2.2]⟩
  · simp only [h, decide_false, Bool.false_eq_true, if_false]; exact e

theorem logIf_frame {st st' : St} {l : Int} {m : String} {b : Bool} {c : String × Nat}
    (e : st.level = st'.level ∧ st.counts = st'.counts ∧ st.out = st'.out) :
    (logIf st l m b c).level = (logIf st' l m b c).level ∧
    (logIf st l m b c).counts = (logIf st' l m b c).counts ∧
    (logIf st l m b c).out = (logIf st' l m b c).out := by
  unfold logIf
  cases b
  · exact e
  · exact logRec_frame e

theorem step_frame (st st' : St) (o : Op) (h : isOwnLevel o = false)
    (e : st.level = st'.level ∧ st.counts = st'.counts ∧ st.out = st'.out) :
    (step st o).1.level = (step st' o).1.level ∧ (step st o).1.counts = (step st' o).1.counts ∧
      (step st o).1.out = (step st' o).1.out := by
  obtain ⟨l, c, w, out⟩ := st
  obtain ⟨l', c', w', out'⟩ := st'
  simp only at e
  obtain ⟨rfl, rfl, rfl⟩ := e
  cases o with
  | setLevel v =>
    cases v with
    | none => exact ⟨rfl, rfl, rfl⟩
    | int i => exact ⟨rfl, rfl, rfl⟩
    | str s =>
      simp only [step]
      cases toLevel l (.str s) <;> exact ⟨rfl, rfl, rfl⟩
  | loggerSetLevel lg l => cases h
  | log lg lvl msg u => exact logRec_frame ⟨rfl, rfl, rfl⟩
  | named lg m msg u => exact logRec_frame ⟨rfl, rfl, rfl⟩
  | fatal lg msg u => exact logRec_frame ⟨rfl, rfl, rfl⟩
  | everyN lg lvl msg n u =>
    simp only [step, nextCount]
    by_cases hn : n = 0
    · rw [if_pos hn, if_pos hn]; exact ⟨rfl, rfl, rfl⟩
    · rw [if_neg hn, if_neg hn]; exact logIf_frame ⟨rfl, rfl, rfl⟩
  | firstN lg lvl msg n u => exact logIf_frame ⟨rfl, rfl, rfl⟩

theorem run_frame (h : List Op) : ∀ st st' : St,
    (st.level = st'.level ∧ st.counts = st'.counts ∧ st.out = st'.out) →
    (run st h).out = (run st' (h.filter (fun o => !isOwnLevel o))).out := by
  induction h with
  | nil => intro st st' e; exact e.2.2
  | cons o os ih =>
    intro st st' e
    cases ho : isOwnLevel o with
    | true =>
      rw [List.filter_cons_of_neg (by simp [ho])]
      apply ih
      cases o <;> first | exact e | cases ho
    | false =>
      rw [List.filter_cons_of_pos (by simp [ho])]
      exact ih _ _ (step_frame st st' o ho e)

/-- **C170.** The level a single logger is given with `setLevel` has no effect on anything
printed, by any logger: dropping all such calls from a history changes nothing. -/
theorem C170_own_level_ignored (l0 : Int) (h : List Op) :
    (run (init l0) h).out
      = (run (init l0) (h.filter (fun o => !isOwnLevel o))).out :=
  run_frame h _ _ ⟨rfl, rfl, rfl⟩

/-- **C170.** What is printed is never taken back: the output only grows. -/
theorem C170_output_grows (st : St) (h : List Op) : st.out <+: (run st h).out := by
  induction h generalizing st with
  | nil => exact List.prefix_refl _
  | cons o os ih =>
    refine List.IsPrefix.trans ?_ (ih _)
    have hr : ∀ (s : St) l m c, s.out <+: (logRec s l m c).out := by
      intro s l m c; unfold logRec; split_ifs
      · exact List.prefix_append _ _
      · exact List.prefix_refl _
    have hi : ∀ (s : St) l m b c, s.out <+: (logIf s l m b c).out := by
      intro s l m b c; unfold logIf; split_ifs
      · exact hr ..
      · exact List.prefix_refl _
    cases o with
    | setLevel v =>
      cases v with
      | none => exact List.prefix_refl _
      | int i => exact List.prefix_refl _
      | str s =>
        simp only [step]
        cases toLevel st.level (.str s) <;> exact List.prefix_refl _
    | loggerSetLevel lg l => exact List.prefix_refl _
    | log lg lvl msg u => exact hr ..
    | named lg m msg u => exact hr ..
    | fatal lg msg u => exact hr ..
    | everyN lg lvl msg n u =>
      simp only [step]
      split_ifs
      · exact List.prefix_refl _
      · exact hi (nextCount st (fileAndLine u)).2 ..
    | firstN lg lvl msg n u => exact hi (nextCount st (fileAndLine u)).2 ..

/-- The accepted names, in capitals. -/
def LevelName (s : String) (l : Int) : Prop :=
  (l = 50 ∧ (s = "FATAL" ∨ s = "F")) ∨ (l = 40 ∧ (s = "ERROR" ∨ s = "ERR" ∨ s = "E")) ∨
  (l = 30 ∧ (s = "WARNING" ∨ s = "WARN" ∨ s = "W")) ∨ (l = 20 ∧ (s = "INFO" ∨ s = "I")) ∨
  (l = 10 ∧ (s = "DEBUG" ∨ s = "D"))

/-- **C170.** `set_level(i)` with an integer stores it as it is. -/
theorem C170_level_int (st : St) (i : Int) :
    (step st (.setLevel (.int i))).1.level = i ∧ (step st (.setLevel (.int i))).2 = none :=
  ⟨rfl, rfl⟩

/-- **C170.** A single digit gives that number. -/
theorem C170_level_digit (cur : Int) (d : Fin 10) :
    toLevel cur (.str [Char.ofNat (48 + d)]) = .ok (d : Nat) := by
  rw [toLevel_str_cur cur 0]
  revert d; decide +kernel

/-- **C170.** A name counts, in any case. -/
theorem C170_level_names (cur : Int) (s : List Char) (n : String) (l : Int)
    (hn : LevelName n l) (hs : upper s = n.toList) : toLevel cur (.str s) = .ok l := by
  simp only [toLevel]
  rw [hs]
  rcases hn with ⟨rfl, h⟩ | ⟨rfl, h⟩ | ⟨rfl, h⟩ | ⟨rfl, h⟩ | ⟨rfl, h⟩ <;>
    (first
      | (rcases h with rfl | rfl | rfl <;> rfl)
      | (rcases h with rfl | rfl <;> rfl))

/-- **C170.** Everything else is refused with `ValueError`. -/
theorem C170_level_rejects (cur : Int) (s : List Char)
    (hn : ∀ n l, LevelName n l → upper s ≠ n.toList)
    (hd : ∀ c : Char, c.isDigit → s ≠ [c] ∧ s ≠ [c, '\n']) :
    toLevel cur (.str s) = .error .value := by
  simp only [toLevel]
  have h1 : name2level.find? (fun p => p.1.toList == upper s) = none := by
    rw [List.find?_eq_none]
    intro p hp he
    have he : p.1.toList = upper s := by simpa using he
    refine hn p.1 p.2 ?_ he.symm
    simp only [name2level, List.mem_cons, List.not_mem_nil, or_false] at hp
    unfold LevelName
    rcases hp with rfl | rfl | rfl | rfl | rfl | rfl | rfl | rfl | rfl | rfl | rfl | rfl <;>
      simp [FATAL, ERROR, WARN, INFO, DEBUG]
  have h2 : oneDigit s = none := by
    rcases s with _ | ⟨c, _ | ⟨d, _ | ⟨e, r⟩⟩⟩
    · rfl
    · simp only [oneDigit]
      by_cases hc : c.isDigit
      · exact absurd rfl (hd c hc).1
      · simp [hc]
    · simp only [oneDigit]
      by_cases hc : c.isDigit
      · by_cases h2 : d = '\n'
        · subst h2; exact absurd rfl (hd c hc).2
        · simp [h2]
      · simp [hc]
    · rfl
  rw [h1, h2]

/-- **C170.** A `set_level` that raises leaves the level as it was. -/
theorem C170_failed_set (st : St) (v : LevelArg) (e : Err)
    (h : (step st (.setLevel v)).2 = some e) : (step st (.setLevel v)).1 = st := by
  cases v with
  | none => rfl
  | int i => cases h
  | str s =>
    simp only [step] at h ⊢
    cases hr : toLevel st.level (.str s) with
    | ok l => rw [hr] at h; cases h
    | error e => rfl

/-- **C170, finding.** Levels do not go through their own text: `set_level(str(get_level()))`
raises for every standard level. -/
theorem C170_level_text_refuted :
    ∀ l ∈ [FATAL, ERROR, WARN, INFO, DEBUG],
      toLevel 20 (.str (toString l).toList) = .error .value := by decide +kernel

/-- **C170.** The level at start: the first item of the environment that spells
`YLEARN_LOG_LEVEL` in any case and has an acceptable value wins; bad values are passed
over; without any, INFO for a source tree and WARN for an installed package. -/
theorem C170_start (dev : Bool) (env : List (List Char × List Char)) :
    initLevel dev env =
      ((env.filterMap (fun kv =>
        if upper kv.1 = "YLEARN_LOG_LEVEL".toList
        then (toLevel 0 (.str kv.2)).toOption else none)).head?).getD
          (if dev then 20 else 30) := by
  induction env with
  | nil => rfl
  | cons kv rest ih =>
    obtain ⟨k, v⟩ := kv
    simp only [initLevel, List.filterMap_cons]
    by_cases hk : upper k = "YLEARN_LOG_LEVEL".toList
    · rw [if_pos hk, if_pos hk]
      simp only [toLevel]
      cases name2level.find? (fun p => p.1.toList == upper v) with
      | some p => rfl
      | none =>
        cases oneDigit v with
        | some i => rfl
        | none => exact ih
    · rw [if_neg hk, if_neg hk]; exact ih

/-- Non-vacuity: levels in force, streams, own levels. -/
example : (run (init 20)
    [.log "a" 10 "no" [⟨"s.py", 1⟩], .named "a" .info "yes" [⟨"s.py", 2⟩],
     .setLevel (.str "wArn".toList), .loggerSetLevel "a" 10, .named "a" .info "no" [⟨"s.py", 3⟩],
     .named "b" .error "yes" [⟨"s.py", 4⟩], .setLevel (.str "10".toList),
     .named "b" .warn "yes" [⟨"s.py", 5⟩]]).out
    = [⟨.stdout, 20, "yes", ("s.py", 2)⟩, ⟨.stderr, 40, "yes", ("s.py", 4)⟩,
       ⟨.stderr, 30, "yes", ("s.py", 5)⟩] := by decide +kernel

example : Outside [⟨"s.py", 1⟩] := ⟨_, _, rfl, by decide⟩

end YL.Props
