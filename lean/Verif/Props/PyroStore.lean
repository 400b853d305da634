import Mathlib.Tactic.Common
import Verif.Model.PyroStore

/-!
# C137: Bayesian networks do not disturb each other through Pyro's global store
-/

set_option linter.unusedVariables false

namespace YL.Props

open YL Pyro

variable {S R E : Type}

/-- the answers of the calls selected by `p`, in order -/
def selAnswers (p : Call S R E → Bool) : List (Call S R E) → List (Answer R E) → List (Answer R E)
  | c :: cs, a :: as => if p c then a :: selAnswers p cs as else selAnswers p cs as
  | _, _ => []

/-- after any calls, also failing ones, the store is what it was -/
theorem C137_store_restored (empty : S) (cs : List (Call S R E)) : ∀ (w : World S), (∀ c ∈ cs, c.resume = true) →
    (run empty w cs).1.store = w.store := by
  induction cs with
  | nil => intro w _; rfl
  | cons c cs ih =>
    intro w h
    simp only [run]
    rw [ih _ (fun d hd => h d (List.mem_cons_of_mem _ hd))]
    have hc := h c (List.mem_cons_self ..)
    unfold step
    rw [hc]
    by_cases hf : (c.check && !(w.objs c.obj).isFitted) = true
    · rw [if_pos hf]
    · rw [if_neg hf]; rfl

/-- a method runs with exactly the parameters its own network learned, or with an empty store -/
theorem C137_own_parameters (empty : S) (w : World S) (c : Call S R E) (h : c.resume = true)
    (hf : c.check = true → (w.objs c.obj).isFitted = true) :
    (step empty w c).2 = answerOf (c.body ((w.objs c.obj).saved.getD empty)).2 := by
  unfold step
  have : ¬ ((c.check && !(w.objs c.obj).isFitted) = true) := by
    intro hh
    simp only [Bool.and_eq_true, Bool.not_eq_true'] at hh
    rw [hf hh.1] at hh
    exact absurd hh.2 (by decide)
  rw [if_neg this, h]
  rfl

/-- an unfitted network refuses -/
theorem C137_refused (empty : S) (w : World S) (c : Call S R E) (h : c.check = true) (hf : (w.objs c.obj).isFitted = false) :
    step empty w c = (w, .refused) := by
  unfold step
  rw [h, hf]
  rfl

/-- whether a call concerns the networks in `P` -/
def inside (P : Nat → Bool) (c : Call S R E) : Bool := P c.obj

/-- noninterference: let `P` be a set of networks such that no call copies a network from inside `P` to outside or back.
Then in any history the answers of the calls on networks of `P`, and the final state of these networks, are those of the
history without all other calls, started with any other content of the global store -/
theorem C137_noninterference (empty : S) (P : Nat → Bool) (cs : List (Call S R E)) : ∀ (w w' : World S),
    (∀ c ∈ cs, c.resume = true) → (∀ c ∈ cs, P c.obj = P c.dest) → (∀ i, P i = true → w.objs i = w'.objs i) →
    (∀ i, P i = true → (run empty w cs).1.objs i = (run empty w' (cs.filter (inside P))).1.objs i) ∧
      selAnswers (inside P) cs (run empty w cs).2 = (run empty w' (cs.filter (inside P))).2 := by
  induction cs with
  | nil => intro w w' _ _ h; exact ⟨h, rfl⟩
  | cons c cs ih =>
    intro w w' hr hd h
    have hrc := hr c (List.mem_cons_self ..)
    have hdc := hd c (List.mem_cons_self ..)
    have hr' := fun d hd => hr d (List.mem_cons_of_mem c hd)
    have hd' := fun d hdd => hd d (List.mem_cons_of_mem c hdd)
    by_cases hp : P c.obj = true
    · have hsame := h c.obj hp
      have hin : inside P c = true := hp
      rw [List.filter_cons_of_pos hin]
      simp only [run, selAnswers, hin, if_true]
      have hstep : (step empty w c).2 = (step empty w' c).2 ∧
          ∀ i, P i = true → (step empty w c).1.objs i = (step empty w' c).1.objs i := by
        unfold step
        rw [hrc, ← hsame]
        by_cases hf : (c.check && !(w.objs c.obj).isFitted) = true
        · rw [if_pos hf, if_pos hf]; exact ⟨rfl, h⟩
        · rw [if_neg hf, if_neg hf]
          refine ⟨rfl, fun i hi => ?_⟩
          simp only [if_true]
          cases (c.body ((w.objs c.obj).saved.getD empty)).2 with
          | raised e => exact h i hi
          | ret r => exact h i hi
          | saved r =>
            simp only [after, hsame]
            by_cases e : i = c.dest
            · rw [if_pos e, if_pos e]
            · rw [if_neg e, if_neg e]; exact h i hi
      obtain ⟨q1, q2⟩ := ih (step empty w c).1 (step empty w' c).1 hr' hd' hstep.2
      exact ⟨q1, by rw [q2, hstep.1]⟩
    · have hin : inside P c = false := by simpa [inside] using hp
      rw [List.filter_cons_of_neg (by rw [hin]; decide)]
      simp only [run, selAnswers, hin, Bool.false_eq_true, if_false]
      apply ih _ _ hr' hd'
      intro i hi
      rw [← h i hi]
      have hne : i ≠ c.dest := by
        intro e
        rw [e, ← hdc] at hi
        exact hp hi
      unfold step
      rw [hrc]
      by_cases hf : (c.check && !(w.objs c.obj).isFitted) = true
      · rw [if_pos hf]
      · rw [if_neg hf]
        simp only [if_true]
        cases (c.body ((w.objs c.obj).saved.getD empty)).2 with
        | raised e => rfl
        | ret r => rfl
        | saved r => simp only [after, if_neg hne]

/-- a failing call leaves every network as it was -/
theorem C137_failed_call_frame (empty : S) (w : World S) (c : Call S R E) (e : E) (h : (step empty w c).2 = .raised e) :
    (step empty w c).1.objs = w.objs := by
  unfold step at h ⊢
  by_cases hf : (c.check && !(w.objs c.obj).isFitted) = true
  · rw [if_pos hf]
  · rw [if_neg hf] at h ⊢
    cases hr : c.resume with
    | true =>
      rw [hr] at h
      simp only [if_true] at h ⊢
      cases hb : (c.body ((w.objs c.obj).saved.getD empty)).2 with
      | raised e' => rfl
      | ret r => rw [hb] at h; cases h
      | saved r => rw [hb] at h; cases h
    | false =>
      rw [hr] at h
      simp only [Bool.false_eq_true, if_false] at h ⊢
      cases hb : (c.body w.store).2 with
      | raised e' => rfl
      | ret r => rw [hb] at h; cases h
      | saved r => rw [hb] at h; cases h

/-- fitting an already fitted network does not start afresh: the body sees the parameters of the previous fit -/
theorem C137_refit_starts_from_old (empty : S) (w : World S) (c d : Call S R E) (hc : c.resume = true) (hd : d.resume = true)
    (hcc : c.check = false) (hdc : d.check = false) (hin : c.dest = c.obj) (hob : d.obj = c.obj) (r : R) (s : S)
    (h : c.body ((w.objs c.obj).saved.getD empty) = (s, .saved r)) :
    (step empty (step empty w c).1 d).2 = answerOf (d.body s).2 := by
  have : ((step empty w c).1.objs d.obj).saved.getD empty = s := by
    unfold step
    rw [hc, hcc, h, hob]
    simp [after, hin]
  rw [C137_own_parameters empty _ d hd (fun hh => by rw [hdc] at hh; cases hh), this]

/-- a training loop that, as `pyro.param` does, keeps what is already in the store -/
def keepBody (data : Nat) : Option Nat → Option Nat × Outcome Nat Unit
  | none => (some data, .saved data)
  | some v => (some v, .saved v)

/-- so the result of `fit` on new data depends on the history: a fresh network learns 7, one fitted before keeps 3 -/
theorem C137_refit_refuted :
    (run (S := Option Nat) none ⟨none, fun _ => ⟨false, none⟩⟩
      [⟨0, 0, false, true, true, keepBody 3⟩, ⟨0, 0, false, true, true, keepBody 7⟩, ⟨1, 1, false, true, true, keepBody 7⟩]).2 =
      [.ok 3, .ok 3, .ok 7] := by decide

/-- without `resume_param_state` a call works on the global store and leaves its parameters there -/
theorem C137_no_resume_refuted :
    (run (S := Option Nat) none ⟨none, fun _ => ⟨false, none⟩⟩
      [⟨0, 0, false, false, true, keepBody 3⟩, ⟨1, 1, false, false, true, keepBody 7⟩]).2 = [.ok 3, .ok 3] ∧
    (run (S := Option Nat) none ⟨none, fun _ => ⟨false, none⟩⟩ [(⟨0, 0, false, false, true, keepBody 3⟩ : Call (Option Nat) Nat Unit)]).1.store
      = some 3 := by decide

/-- an example history with two networks, one of whose calls fails -/
example : (run (S := Option Nat) none ⟨some 9, fun _ => ⟨false, none⟩⟩
      [⟨0, 0, false, true, true, keepBody 3⟩, ⟨1, 1, true, true, false, fun s => (s, .ret (s.getD 0))⟩,
       ⟨1, 1, false, true, true, fun s => (some 8, .raised ())⟩, ⟨0, 0, true, true, false, fun s => (s, .ret (s.getD 0))⟩]).2 =
      [.ok 3, .refused, .raised (), .ok 3] := by decide

end YL.Props
