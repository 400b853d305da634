import Verif.Props.BNModel

set_option linter.unusedSectionVars false

/-! C73, C74: histories of calls on a fitted Bayesian network object. -/

namespace YL.Props

open YL Spec BN

variable {α : Type} [LinearOrder α] {R V W : Type}

/-- The interventions a user has asked for successfully: what a node is set to, if anything; later calls win. -/
def asked (iv : List (α × R)) (before : α → Option R) (v : α) : Option R := (kget iv v).orElse (fun _ => before v)

/-- A call succeeds on this object: it raises nothing. -/
def succeeds (n : Net α R V W) (o : Op α R V W) : Prop := ∀ e, (step n o).2 ≠ .raised e

theorem encodeAll_spec (enc : α → Option (R → V)) : ∀ (iv : List (α × R)) (l : List (α × V)), encodeAll enc iv = .ok l →
    ∀ v, kget l v = match kget iv v with
      | none => none
      | some r => (enc v).map (fun f => f r)
  | [], l, h => by cases h; intro v; rfl
  | (k, r) :: iv, l, h => by
    rw [encodeAll] at h
    cases he : enc k with
    | none => rw [he] at h; cases h
    | some f =>
      rw [he] at h
      dsimp only at h
      cases hr : encodeAll enc iv with
      | error e => rw [hr] at h; cases h
      | ok m =>
        rw [hr] at h
        cases h
        intro v
        have ih := encodeAll_spec enc iv m hr v
        rw [get_cons, get_cons]
        by_cases hk : k = v
        · subst hk; simp [he]
        · simp only [hk, if_false]; exact ih

theorem encodeAll_ok_iff (enc : α → Option (R → V)) (iv : List (α × R)) :
    (∃ l, encodeAll enc iv = .ok l) ↔ ∀ k ∈ iv.map (·.1), (enc k).isSome := by
  induction iv with
  | nil => simp [encodeAll]
  | cons e iv ih =>
    obtain ⟨k, r⟩ := e
    simp only [List.map_cons, List.mem_cons, forall_eq_or_imp, ← ih, encodeAll]
    cases he : enc k with
    | none => simp
    | some f =>
      cases hr : encodeAll enc iv with
      | error e => simp
      | ok m => simp

theorem encodeAll_error (enc : α → Option (R → V)) (iv : List (α × R)) (e : Err) (h : encodeAll enc iv = .error e) :
    e = .key := by
  induction iv with
  | nil => cases h
  | cons x iv ih =>
    obtain ⟨k, r⟩ := x
    rw [encodeAll] at h
    cases he : enc k with
    | none => rw [he] at h; cases h; rfl
    | some f =>
      rw [he] at h
      dsimp only at h
      cases hr : encodeAll enc iv with
      | error e' => rw [hr] at h; cases h; exact ih hr
      | ok m => rw [hr] at h; cases h

theorem step_do_nil (n : Net α R V W) (w : W) : step n (.doIn [] w) = (n, .raised .assertion) := rfl

theorem step_do_error {n : Net α R V W} {iv : List (α × R)} (hiv : iv ≠ []) {e : Err}
    (h : encodeAll n.enc (upd n.interventions iv) = .error e) (w : W) :
    step n (.doIn iv w) = (if n.interventions = [] then n else { n with interventions := upd n.interventions iv }, .raised e) := by
  simp only [step, hiv, if_false, h]

theorem step_do_ok {n : Net α R V W} {iv : List (α × R)} (hiv : iv ≠ []) {l : List (α × V)}
    (h : encodeAll n.enc (upd n.interventions iv) = .ok l) (w : W) :
    step n (.doIn iv w) = ({ n with interventions := upd n.interventions iv, weights := w, nodeParams := [] }, .none) := by
  simp only [step, hiv, if_false, h]

/-- The values written into the parameters never contradict the interventions. -/
def ParamsOk (n : Net α R V W) : Prop :=
  (∃ l, encodeAll n.enc n.interventions = .ok l) ∧
  ∀ v x, kget n.nodeParams v = some x → ∃ r, kget n.interventions v = some r ∧ (enc' n v r) = some x
where
  enc' (n : Net α R V W) (v : α) (r : R) : Option V := (n.enc v).map (fun f => f r)

theorem predict_cond {n : Net α R V W} (h : ParamsOk n) :
    ∃ c, step n .predict = ({ n with nodeParams := c }, .conditioned n.weights c) ∧
      ∀ v, kget c v = match kget n.interventions v with
        | none => none
        | some r => (n.enc v).map (fun f => f r) := by
  obtain ⟨⟨l, hl⟩, h2⟩ := h
  refine ⟨upd n.nodeParams l, by simp [step, hl], fun v => ?_⟩
  have h3 := encodeAll_spec n.enc n.interventions l hl v
  rw [show upd n.nodeParams l = l ++ n.nodeParams from rfl, get_append, h3]
  cases hi : kget n.interventions v with
  | none =>
    simp only [Option.orElse]
    cases hn : kget n.nodeParams v with
    | none => rfl
    | some x => obtain ⟨r, hr, _⟩ := h2 v x hn; rw [hi] at hr; cases hr
  | some r =>
    have : (n.enc v).isSome := (encodeAll_ok_iff n.enc n.interventions).1 ⟨l, hl⟩ v (by
      by_contra hk
      rw [get_eq_none.2 hk] at hi; cases hi)
    obtain ⟨f, hf⟩ := Option.isSome_iff_exists.1 this
    simp [hf]

/-- A `fit` whose data has all columns named in the interventions. -/
def fitOk (n : Net α R V W) : Op α R V W → Prop
  | .fit enc _ => ∀ k ∈ n.interventions.map (·.1), (enc k).isSome
  | _ => True

theorem paramsOk_step {n : Net α R V W} (h : ParamsOk n) (o : Op α R V W) (hs : succeeds n o) (hf : fitOk n o) :
    ParamsOk (step n o).1 := by
  cases o with
  | fit enc w => exact ⟨(encodeAll_ok_iff enc n.interventions).2 hf, fun v x hx => by simp [step, kget] at hx⟩
  | doIn iv w =>
    unfold succeeds at hs
    by_cases hiv : iv = []
    · subst hiv; exact h
    · cases hr : encodeAll n.enc (upd n.interventions iv) with
      | error e => rw [step_do_error hiv hr] at hs; exact absurd rfl (hs e)
      | ok l =>
        rw [step_do_ok hiv hr]
        exact ⟨⟨l, hr⟩, fun v x hx => by simp [kget] at hx⟩
  | predict =>
    obtain ⟨c, h1, h2⟩ := predict_cond h
    rw [h1]
    refine ⟨h.1, fun v x hx => ?_⟩
    have := h2 v
    simp only at hx
    rw [hx] at this
    cases hi : kget n.interventions v with
    | none => rw [hi] at this; cases this
    | some r => rw [hi] at this; exact ⟨r, by rw [← hi], this.symm⟩
  | estimate => exact h

/-- C73. After any history of successful calls on a freshly fitted object (training data always with the intervened columns),
`predict` and `sample` condition the model on exactly the current interventions, encoded, and nothing else; calling them, or
`estimate`, any number of times before makes no difference. -/
theorem C73_predict_history (enc : α → Option (R → V)) (w : W) (os : List (Op α R V W))
    (hok : ∀ pre o post, os = pre ++ o :: post →
      succeeds (steps ⟨enc, w, [], []⟩ pre) o ∧ fitOk (steps ⟨enc, w, [], []⟩ pre) o) :
    let n := steps ⟨enc, w, [], []⟩ os
    ∃ c, (step n .predict).2 = .conditioned n.weights c ∧ ∀ v, condOf c v =
      match kget n.interventions v with
      | none => none
      | some r => (n.enc v).map (fun f => f r) := by
  have key : ∀ (os : List (Op α R V W)) (n : Net α R V W), ParamsOk n →
      (∀ pre o post, os = pre ++ o :: post → succeeds (steps n pre) o ∧ fitOk (steps n pre) o) → ParamsOk (steps n os) := by
    intro os
    induction os with
    | nil => intro n h _; exact h
    | cons o os ih =>
      intro n h hall
      rw [steps]
      refine ih _ (paramsOk_step h o (hall [] o os rfl).1 (hall [] o os rfl).2) (fun pre o' post hp => ?_)
      exact hall (o :: pre) o' post (by rw [hp]; rfl)
  intro n
  have hP : ParamsOk n := key os _ ⟨⟨[], rfl⟩, fun v x hx => by simp [kget] at hx⟩ hok
  obtain ⟨c, h1, h2⟩ := predict_cond hP
  exact ⟨c, by rw [h1], h2⟩

/-- The interventions in force after a history, as the user sees it: every successful `do` adds its own, later ones win; no
other call changes them. -/
def inForce : List (Op α R V W) → (α → Option R) → α → Option R
  | [], f => f
  | .doIn iv _ :: os, f => inForce os (asked iv f)
  | _ :: os, f => inForce os f

/-- C73. Successful `do` calls accumulate, the last setting of a node wins, and `predict`, `sample` and `estimate` leave the
interventions alone. -/
theorem C73_interventions_accumulate (os : List (Op α R V W)) : ∀ (n : Net α R V W),
    (∀ pre o post, os = pre ++ o :: post → succeeds (steps n pre) o) →
    ∀ v, kget (steps n os).interventions v = inForce os (kget n.interventions) v := by
  induction os with
  | nil => intro n _ v; rfl
  | cons o os ih =>
    intro n hall v
    have h0 := hall [] o os rfl
    have ih' := ih (step n o).1 (fun pre o' post hp => hall (o :: pre) o' post (by rw [hp]; rfl)) v
    rw [steps, ih']
    cases o with
    | fit enc w => rfl
    | predict =>
      have : (step n .predict).1.interventions = n.interventions := by
        unfold step
        cases encodeAll n.enc n.interventions <;> rfl
      rw [this]; rfl
    | estimate => rfl
    | doIn iv w =>
      have : kget (step n (.doIn iv w)).1.interventions = asked iv (kget n.interventions) := by
        unfold succeeds at h0
        simp only [steps] at h0
        by_cases hiv : iv = []
        · subst hiv; exact absurd rfl (h0 .assertion)
        · cases hr : encodeAll n.enc (upd n.interventions iv) with
          | error e => rw [step_do_error hiv hr] at h0; exact absurd rfl (h0 e)
          | ok l =>
            rw [step_do_ok hiv hr]
            funext u
            exact get_append iv n.interventions u
      rw [this]; rfl

/-- C73. `do(…, inplace=False)` never changes the object it is called on, whether it succeeds or not. -/
theorem C73_do_copy_frame (n : Net α R V W) (iv : List (α × R)) (w : W) : (doCopy n iv w).1 = n := by
  unfold doCopy
  split <;> rfl

/-- C73. `do` succeeds exactly when the intervention is not empty and all nodes of it, and of the interventions already in
force, are columns of the training data; otherwise it raises. -/
theorem C73_do_succeeds_iff (n : Net α R V W) (iv : List (α × R)) (w : W) :
    succeeds n (.doIn iv w) ↔ iv ≠ [] ∧ ∀ k, k ∈ iv.map (·.1) ∨ k ∈ n.interventions.map (·.1) → (n.enc k).isSome := by
  have hmem : (∀ k, k ∈ iv.map (·.1) ∨ k ∈ n.interventions.map (·.1) → (n.enc k).isSome) ↔
      ∀ k ∈ (upd n.interventions iv).map (·.1), (n.enc k).isSome := by
    simp only [upd, List.map_append, List.mem_append]
  rw [hmem, ← encodeAll_ok_iff]
  unfold succeeds
  by_cases hiv : iv = []
  · subst hiv; simp [step_do_nil]
  · cases hr : encodeAll n.enc (upd n.interventions iv) with
    | error e => simp [step_do_error hiv hr]
    | ok l => simp [step_do_ok hiv hr, hiv]

/-! ### violations -/

/-- a network with the nodes "x" and "y"; values are encoded as themselves -/
def demoEnc (v : String) : Option (Int → Int) := if v = "x" ∨ v = "y" then some id else none

/-- a fitted network (weights are a version number) -/
def demoNet : Net String Int Int Nat := ⟨demoEnc, 1, [], []⟩

/-- what a call conditions on, as a list of pairs -/
def _root_.YL.BN.Out.pairs {α V W : Type} : Out α V W → Option (List (α × V))
  | .conditioned _ c => some c
  | _ => none

/-- C74, violation: after `do({x: 7})`, `estimate` is conditioned on nothing, but after a mere `predict` in between it is
conditioned on `x = 7`: a reading call changes what a later call computes. -/
theorem C74_predict_changes_estimate_refuted :
    (step (steps demoNet [.doIn [("x", 7)] 2]) .estimate).2.pairs = some [] ∧
    (step (steps demoNet [.doIn [("x", 7)] 2, .predict]) .estimate).2.pairs = some [("x", 7)] := by decide +kernel

/-- C74. Without any intervention, `predict`, `sample` and `estimate` change nothing at all. -/
theorem C74_reads_pure (n : Net α R V W) (h : n.interventions = []) (hp : n.nodeParams = []) :
    (step n .predict).1 = n ∧ (step n .estimate).1 = n := by
  obtain ⟨enc, w, np, iv⟩ := n
  simp only at h hp
  subst h hp
  exact ⟨rfl, rfl⟩

/-- C74, violation: a `do` that fails on an unknown node leaves the object with the bad intervention if it already had one,
and from then on `predict` and `sample` raise KeyError. -/
theorem C74_failed_do_poisons_refuted :
    let n := steps demoNet [.doIn [("x", 7)] 2]
    let m := (step n (.doIn [("z", 1)] 3)).1
    (step n .predict).2.pairs = some [("x", 7)] ∧ m.interventions = [("z", 1), ("x", 7)] ∧ (step m .predict).2.pairs = none := by
  decide +kernel

/-- C74. A failing first `do` leaves the object unchanged. -/
theorem C74_failed_first_do_frame (n : Net α R V W) (h : n.interventions = []) (iv : List (α × R)) (w : W) (e : Err)
    (he : (step n (.doIn iv w)).2 = .raised e) : (step n (.doIn iv w)).1 = n := by
  by_cases hiv : iv = []
  · subst hiv; rfl
  · cases hr : encodeAll n.enc (upd n.interventions iv) with
    | error e' => simp [step_do_error hiv hr, h]
    | ok l => rw [step_do_ok hiv hr] at he; cases he

/-- C74, violation: fitting again does not lift the interventions: `predict` of the refitted object is still conditioned on
them, unlike the `predict` of a new object fitted to the same data. -/
theorem C74_refit_keeps_interventions_refuted :
    (step (steps demoNet [.doIn [("x", 7)] 2, .fit demoEnc 3]) .predict).2.pairs = some [("x", 7)] ∧
    (step (steps (⟨demoEnc, 3, [], []⟩ : Net String Int Int Nat) []) .predict).2.pairs = some [] := by decide +kernel

/-- non-vacuity of the history theorems: a history with two interventions on the same node and reads in between -/
example : let os : List (Op String Int Int Nat) := [.predict, .doIn [("x", 7)] 2, .predict, .estimate, .doIn [("x", 8), ("y", 1)] 3]
    kget (steps demoNet os).interventions "x" = some 8 ∧ kget (steps demoNet os).interventions "y" = some 1 ∧
    (step (steps demoNet os) .predict).2.pairs = some [("x", 8), ("y", 1), ("x", 7)] := by decide +kernel

end YL.Props
