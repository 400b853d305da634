import Verif.Model.Factory

/-!
# C165: the factories build models that fit the tasks
-/

set_option linter.unusedSectionVars false

namespace YL.Spec

open YL Fact WhyP

/-- a task is discrete: the flag says so, or its name is not that of regression -/
def DiscreteTask : TaskArg → Prop
  | .flag b => b = true
  | .name s => s ≠ "regression"

/-- a model made from a name classifies iff the target is discrete -/
def Suits {O : Type} (o : Out O) (disc : Prop) : Prop := ∀ f r s, o = .made f r s → (r = false ↔ disc)

/-- a factory with the default arguments of its constructor -/
inductive IsDefault {O : Type} : Factory O → Prop
  | dml : IsDefault (.dml (.name "rf") (.name "rf") (.name "lr") none)
  | dr : IsDefault (.dr (.name "gb") (.name "rf") (.name "gb") none)
  | ml : IsDefault (.metaLearner 't' (.name "gb"))
  | s : IsDefault (.sLearner (.name "gb"))
  | t : IsDefault (.tLearner (.name "gb"))
  | x : IsDefault (.xLearner (.name "gb") (.name "lr"))
  | tree : IsDefault .tree
  | grf : IsDefault .grf
  | bound : IsDefault (.bound (.name "gb") (.name "rf"))
  | iv : IsDefault (.iv (.name "lr") (.name "rf"))
  | deepIV : IsDefault .deepIV
  | rloss : IsDefault (.rloss (.name "rf") (.name "rf") none)

/-- the names `general_estimator` knows -/
def knownNames : List String := ["gbm", "lgbm", "lightgbm", "xgb", "xgboost", "dt", "rf", "gb", "lr", "lasso"]

end YL.Spec

namespace YL.Props

open YL Spec Fact WhyP

variable {O : Type}

instance (t : TaskArg) : Decidable (DiscreteTask t) := by cases t <;> (unfold DiscreteTask; infer_instance)

theorem discrete_iff (t : TaskArg) : discrete (some t) = true ↔ DiscreteTask t := by
  cases t with
  | flag b => exact Iff.rfl
  | name s => simp [discrete, TaskArg.discrete, DiscreteTask]

theorem creators_none (s : String) : creators s = none ↔ s ∉ knownNames := by
  unfold creators knownNames
  constructor
  · intro h hm
    simp only [List.mem_cons, List.not_mem_nil, or_false] at hm
    rcases hm with rfl | rfl | rfl | rfl | rfl | rfl | rfl | rfl | rfl | rfl <;> exact absurd h (by decide)
  · intro h
    simp only [List.mem_cons, List.not_mem_nil, or_false, not_or] at h
    obtain ⟨h1, h2, h3, h4, h5, h6, h7, h8, h9, h10⟩ := h
    rw [if_neg (by tauto), if_neg (by tauto), if_neg h6, if_neg h7, if_neg h8, if_neg h9, if_neg h10]

theorem create_made {e : Env} {seed : Option Nat} {t : Resolved} {f : Family} {p : Family × Bool × Option Nat} (h : create e seed t f = .ok p) :
    p.1 = f ∧ p.2.1 = t.isRegression ∧ (p.2.2 = seed ∨ f = .lr ∧ t.isRegression = true ∧ p.2.2 = none) := by
  cases f
  case gbm =>
    simp only [create] at h
    split at h
    · injection h with h; subst h; simp
    · cases h
  case xgb =>
    simp only [create] at h
    split at h
    · injection h with h; subst h; simp
    · cases h
  case dt => unfold create at h; injection h with h; subst h; simp
  case rf => unfold create at h; injection h with h; subst h; simp
  case gb => unfold create at h; injection h with h; subst h; simp
  case lr =>
    unfold create at h; injection h with h; subst h
    cases ht : t.isRegression <;> simp
  case lasso =>
    unfold create at h
    cases ht : t.isRegression
    · rw [ht] at h; simp at h
    · rw [ht] at h; simp at h; subst h; simp

theorem finish_made {e : Env} {seed : Option Nat} {t : Resolved} {g : Given O} {f : Family} {r : Bool} {s : Option Nat}
    (h : finish e seed t g = .ok (.made f r s)) :
    r = t.isRegression ∧ (s = seed ∨ f = .lr ∧ r = true ∧ s = none) ∧ ((f = .gbm → e.lgbm = true) ∧ (f = .xgb → e.xgb = true)) := by
  cases g with
  | object o => simp [finish] at h
  | absent => simp [finish] at h
  | name n =>
    unfold finish at h
    cases hc : creators n with
    | none => simp [hc] at h
    | some f' =>
      simp only [hc] at h
      cases hk : create e seed t f' with
      | error x => simp [hk] at h
      | ok p =>
        simp only [hk] at h
        injection h with h
        injection h with h1 h2 h3
        obtain ⟨k1, k2, k3⟩ := create_made hk
        subst h1 h2 h3
        refine ⟨k2, ?_, ?_⟩
        · rw [k1, k2]; exact k3
        · rw [k1]
          refine ⟨fun hf => ?_, fun hf => ?_⟩ <;> subst hf <;> simp only [create] at hk <;> split at hk <;> first | assumption | cases hk

/-- a model made for a given task -/
theorem model_suits {e : Env} {g : Given O} {t : TaskArg} {seed : Option Nat} {o : Out O} (h : model e g (some t) seed = .ok o) : Suits o (DiscreteTask t) := by
  rintro f r s rfl
  have h' : ∃ res, resolve (some t) none = .ok res ∧ ∃ g', finish e seed res g' = .ok (Out.made (O := O) f r s) := by
    unfold model at h
    simp only [Option.isNone_some, Bool.false_eq_true, if_false] at h
    cases g with
    | absent => cases h
    | name n =>
      simp only [generalEstimator] at h
      cases hr : resolve (some t) none with
      | error x => simp [hr] at h
      | ok res => simp only [hr] at h; exact ⟨res, rfl, _, h⟩
    | object o =>
      simp only [generalEstimator] at h
      cases hr : resolve (some t) none with
      | error x => simp [hr] at h
      | ok res => simp only [hr] at h; exact ⟨res, rfl, _, h⟩
  obtain ⟨res, hr, g', hg⟩ := h'
  have := (finish_made hg).1
  rw [this]
  cases t with
  | flag b =>
    simp only [resolve, Except.ok.injEq] at hr
    subst hr
    cases b <;> simp [Resolved.isRegression, DiscreteTask]
  | name n =>
    simp only [resolve, Except.ok.injEq] at hr
    subst hr
    simp [Resolved.isRegression, DiscreteTask]

theorem model_task {e : Env} {g : Given O} {t : Option TaskArg} {seed : Option Nat} {o : Out O} (h : model e g t seed = .ok o) : ∃ a, t = some a := by
  cases t with
  | none => simp [model] at h
  | some a => exact ⟨a, rfl⟩

theorem model_fits {e : Env} {g : Given O} {t : Option TaskArg} {seed : Option Nat} {o : Out O} (h : model e g t seed = .ok o) :
    ∃ a, t = some a ∧ Suits o (DiscreteTask a) := by
  obtain ⟨a, rfl⟩ := model_task h
  exact ⟨a, rfl, model_suits h⟩

theorem two_ok {a b : Except FErr (Out O)} {p : Out O × Out O} (h : two a b = .ok p) : a = .ok p.1 ∧ b = .ok p.2 := by
  unfold two at h
  cases a with
  | error e => simp at h
  | ok a =>
    cases b with
    | error e => simp at h
    | ok b => injection h with h; subst h; exact ⟨rfl, rfl⟩

/-- the models and flags of an estimator are those of the call -/
structure FitsTasks (c : Call) (m : Made O) : Prop where
  outcome : ∀ o, m.outcome = some o → ∃ t, c.yTask = some t ∧ Suits o (DiscreteTask t)
  treatment : ∀ o, m.treatment = some o → ∃ t, c.xTask = some t ∧ Suits o (DiscreteTask t)
  final : ∀ o, m.final = some o → Suits o False

theorem regression_suits {e : Env} {g : Given O} {seed : Option Nat} {o : Out O} (h : model e g (some (.name "regression")) seed = .ok o) : Suits o False := by
  intro f r s ho
  rw [model_suits h f r s ho]
  simp [DiscreteTask]

theorem xFinal_suits {c : Call} {g : Given O} {fin : Option (Out O)} (h : xFinal c g = .ok fin) : ∀ o, fin = some o → Suits o False := by
  unfold xFinal at h
  rintro o rfl
  split at h
  · cases hm : model c.env g (some (.name "regression")) c.seed with
    | error e => rw [hm] at h; simp [Except.map] at h
    | ok a =>
      rw [hm] at h
      simp [Except.map] at h
      subst h
      exact regression_suits hm
  · simp at h

theorem metaMade_ok {c : Call} {cls : Cls} {g : Given O} {final : Except FErr (Option (Out O))} {m : Made O} (h : metaMade c cls g final = .ok m) :
    discrete c.xTask = true ∧ ∃ fin a, final = .ok fin ∧ model c.env g c.yTask c.seed = .ok a ∧
      m = ⟨cls, some a, none, fin, discrete c.yTask, discrete c.xTask, discrete c.yTask, none⟩ := by
  unfold metaMade at h
  split at h
  case isFalse => simp at h
  case isTrue hd =>
    cases final with
    | error e => simp at h
    | ok fin =>
      simp only at h
      cases hm : model c.env g c.yTask c.seed with
      | error e => simp [hm] at h
      | ok a =>
        simp only [hm] at h
        injection h with h
        exact ⟨hd, fin, a, rfl, rfl, h.symm⟩

theorem meta_consistent {c : Call} {cls : Cls} {g : Given O} {final : Except FErr (Option (Out O))} {m : Made O} (h : metaMade c cls g final = .ok m)
    (hf : ∀ fin, final = .ok fin → ∀ o, fin = some o → Suits o False) : FitsTasks c m := by
  obtain ⟨-, fin, a, h1, h2, rfl⟩ := metaMade_ok h
  refine ⟨fun o ho => ?_, fun o ho => by simp at ho, fun o ho => hf fin h1 o ho⟩
  injection ho with ho
  subst ho
  exact model_fits h2

/-- **C165**: whatever a factory returns: its outcome model classifies iff the outcome task is discrete, its treatment model classifies iff the treatment task is
discrete, and its final models regress (models passed as objects are left as they are). -/
theorem C165_kinds (f : Factory O) (c : Call) (m : Made O) (h : f.call c = .ok m) : FitsTasks c m := by
  cases f with
  | dml y x yx cf =>
    simp only [Factory.call] at h
    split at h
    case isFalse => simp at h
    case isTrue =>
      cases h2 : two (model c.env y c.yTask c.seed) (model c.env x c.xTask c.seed) with
      | error e => simp [h2] at h
      | ok p =>
        simp only [h2] at h
        cases h3 : model c.env yx (some (.name "regression")) c.seed with
        | error e => simp [h3] at h
        | ok fm =>
          simp only [h3] at h
          injection h with h
          subst h
          obtain ⟨e1, e2⟩ := two_ok h2
          exact ⟨fun o ho => by injection ho with ho; subst ho; exact model_fits e1, fun o ho => by injection ho with ho; subst ho; exact model_fits e2,
            fun o ho => by injection ho with ho; subst ho; exact regression_suits h3⟩
  | dr y x yx cf =>
    simp only [Factory.call] at h
    split at h
    case isFalse => simp at h
    case isTrue =>
      cases h2 : two (model c.env y c.yTask c.seed) (model c.env x c.xTask c.seed) with
      | error e => simp [h2] at h
      | ok p =>
        simp only [h2] at h
        cases h3 : model c.env yx (some (.name "regression")) c.seed with
        | error e => simp [h3] at h
        | ok fm =>
          simp only [h3] at h
          injection h with h
          subst h
          obtain ⟨e1, e2⟩ := two_ok h2
          exact ⟨fun o ho => by injection ho with ho; subst ho; exact model_fits e1, fun o ho => by injection ho with ho; subst ho; exact model_fits e2,
            fun o ho => by injection ho with ho; subst ho; exact regression_suits h3⟩
  | metaLearner tag g =>
    simp only [Factory.call] at h
    cases hc : metaClass tag with
    | none => simp [hc] at h
    | some cls =>
      simp only [hc] at h
      exact meta_consistent h (fun fin hf o ho => by injection hf with hf; subst hf; simp at ho)
  | sLearner g =>
    simp only [Factory.call] at h
    exact meta_consistent h (fun fin hf o ho => by injection hf with hf; subst hf; simp at ho)
  | tLearner g =>
    simp only [Factory.call] at h
    exact meta_consistent h (fun fin hf o ho => by injection hf with hf; subst hf; simp at ho)
  | xLearner g fm =>
    simp only [Factory.call] at h
    exact meta_consistent h (fun fin hf => xFinal_suits hf)
  | tree =>
    simp only [Factory.call] at h
    split at h
    · injection h with h; subst h; exact ⟨by simp, by simp, by simp⟩
    · simp at h
  | grf =>
    simp only [Factory.call] at h
    injection h with h; subst h; exact ⟨by simp, by simp, by simp⟩
  | bound y x =>
    simp only [Factory.call] at h
    split at h
    case isFalse => simp at h
    case isTrue =>
      cases h2 : two (model c.env y c.yTask c.seed) (model c.env x c.xTask c.seed) with
      | error e => simp [h2] at h
      | ok p =>
        simp only [h2] at h
        injection h with h
        subst h
        obtain ⟨e1, e2⟩ := two_ok h2
        exact ⟨fun o ho => by injection ho with ho; subst ho; exact model_fits e1, fun o ho => by injection ho with ho; subst ho; exact model_fits e2, by simp⟩
  | iv y x =>
    simp only [Factory.call] at h
    split at h
    case isFalse => simp at h
    case isTrue =>
      cases h2 : two (model c.env y c.yTask c.seed) (model c.env x c.xTask c.seed) with
      | error e => simp [h2] at h
      | ok p =>
        simp only [h2] at h
        injection h with h
        subst h
        obtain ⟨e1, e2⟩ := two_ok h2
        exact ⟨fun o ho => by injection ho with ho; subst ho; exact model_fits e1, fun o ho => by injection ho with ho; subst ho; exact model_fits e2, by simp⟩
  | deepIV =>
    simp only [Factory.call] at h
    split at h
    · injection h with h; subst h; exact ⟨by simp, by simp, by simp⟩
    · simp at h
  | rloss y x cf =>
    simp only [Factory.call] at h
    cases h2 : two (model c.env y c.yTask c.seed) (model c.env x c.xTask c.seed) with
    | error e => simp [h2] at h
    | ok p =>
      simp only [h2] at h
      injection h with h
      subst h
      obtain ⟨e1, e2⟩ := two_ok h2
      exact ⟨fun o ho => by injection ho with ho; subst ho; exact model_fits e1, fun o ho => by injection ho with ho; subst ho; exact model_fits e2, by simp⟩

theorem told_aux (f : Factory O) (c : Call) (m : Made O) (h : f.call c = .ok m) (P Q : Prop) (dx : discrete c.xTask = true ↔ P)
    (dy : discrete c.yTask = true ↔ Q) :
    (m.cls ≠ .permutedDR → (m.toldTreatment = true ↔ P)) ∧
    (m.cls ≠ .permutedDR → m.cls ≠ .bound → m.cls ≠ .permutedTree → m.cls ≠ .rloss → (m.toldOutcome = true ↔ Q)) ∧
    (m.proba = true → m.toldOutcome = true) := by
  have meta' : ∀ cls g final, metaMade c cls g final = .ok m → (m.toldTreatment = true ↔ P) ∧ (m.toldOutcome = true ↔ Q) ∧
      (m.proba = true → m.toldOutcome = true) := by
    intro cls g final hm
    obtain ⟨-, fin, a, -, -, rfl⟩ := metaMade_ok hm
    exact ⟨dx, dy, fun h => h⟩
  have pack : (m.toldTreatment = true ↔ P) ∧ (m.toldOutcome = true ↔ Q) ∧ (m.proba = true → m.toldOutcome = true) →
      (m.cls ≠ .permutedDR → (m.toldTreatment = true ↔ P)) ∧
      (m.cls ≠ .permutedDR → m.cls ≠ .bound → m.cls ≠ .permutedTree → m.cls ≠ .rloss → (m.toldOutcome = true ↔ Q)) ∧
      (m.proba = true → m.toldOutcome = true) := fun k => ⟨fun _ => k.1, fun _ _ _ _ => k.2.1, k.2.2⟩
  cases f with
  | dml y x yx cf =>
    simp only [Factory.call] at h
    repeat' split at h
    all_goals first | (simp at h; done) | skip
    injection h with h; subst h
    exact pack ⟨dx, dy, fun h => h⟩
  | dr y x yx cf =>
    simp only [Factory.call] at h
    repeat' split at h
    all_goals first | (simp at h; done) | skip
    injection h with h; subst h
    exact ⟨fun k => absurd rfl k, fun k => absurd rfl k, by simp⟩
  | metaLearner tag g =>
    simp only [Factory.call] at h
    cases hc : metaClass tag with
    | none => simp [hc] at h
    | some cls => simp only [hc] at h; exact pack (meta' _ _ _ h)
  | sLearner g =>
    simp only [Factory.call] at h
    exact pack (meta' _ _ _ h)
  | tLearner g =>
    simp only [Factory.call] at h
    exact pack (meta' _ _ _ h)
  | xLearner g fm =>
    simp only [Factory.call] at h
    exact pack (meta' _ _ _ h)
  | tree =>
    simp only [Factory.call] at h
    split at h
    case isFalse => simp at h
    case isTrue hd =>
      injection h with h; subst h
      exact ⟨fun _ => ⟨fun _ => dx.1 hd, fun _ => rfl⟩, fun _ _ k => absurd rfl k, by simp⟩
  | grf =>
    simp only [Factory.call] at h
    injection h with h; subst h
    exact pack ⟨dx, dy, by simp⟩
  | bound y x =>
    simp only [Factory.call] at h
    repeat' split at h
    all_goals first | (simp at h; done) | skip
    injection h with h; subst h
    exact ⟨fun _ => dx, fun _ k => absurd rfl k, by simp⟩
  | iv y x =>
    simp only [Factory.call] at h
    repeat' split at h
    all_goals first | (simp at h; done) | skip
    injection h with h; subst h
    exact pack ⟨dx, dy, by simp⟩
  | deepIV =>
    simp only [Factory.call] at h
    repeat' split at h
    all_goals first | (simp at h; done) | skip
    injection h with h; subst h
    exact pack ⟨dx, dy, by simp⟩
  | rloss y x cf =>
    simp only [Factory.call] at h
    repeat' split at h
    all_goals first | (simp at h; done) | skip
    injection h with h; subst h
    exact ⟨fun _ => dx, fun _ _ _ k => absurd rfl k, by simp⟩

/-- **C165**: what the estimator is told about the treatment is the truth (all factories but the doubly robust one, which C124_dr_refuted is about), and what it
is told about the outcome too, except by the factories for doubly robust estimators, bounds, causal trees and R-loss -/
theorem C165_told (f : Factory O) (c : Call) (m : Made O) (h : f.call c = .ok m) (tx ty : TaskArg) (hx : c.xTask = some tx) (hy : c.yTask = some ty) :
    (m.cls ≠ .permutedDR → (m.toldTreatment = true ↔ DiscreteTask tx)) ∧
    (m.cls ≠ .permutedDR → m.cls ≠ .bound → m.cls ≠ .permutedTree → m.cls ≠ .rloss → (m.toldOutcome = true ↔ DiscreteTask ty)) ∧
    (m.proba = true → m.toldOutcome = true) := by
  have dx := discrete_iff tx
  have dy := discrete_iff ty
  rw [← hx] at dx
  rw [← hy] at dy
  exact told_aux f c m h _ _ dx dy

/-- **C165**: a task that was not given counts as discrete -/
theorem C165_told_none (f : Factory O) (c : Call) (m : Made O) (h : f.call c = .ok m) :
    (c.xTask = none → m.cls ≠ .permutedDR → m.toldTreatment = true) ∧
    (c.yTask = none → m.cls ≠ .permutedDR → m.cls ≠ .bound → m.cls ≠ .permutedTree → m.cls ≠ .rloss → m.toldOutcome = true) := by
  have k := told_aux f c m h _ _ Iff.rfl Iff.rfl
  exact ⟨fun e h1 => (k.1 h1).2 (by rw [e]; rfl), fun e h1 h2 h3 h4 => (k.2.1 h1 h2 h3 h4).2 (by rw [e]; rfl)⟩

example (c : Call) : ∃ m, (Factory.grf (O := Unit)).call c = .ok m ∧ m.cls = .grf := ⟨_, rfl, rfl⟩

/-- a discrete outcome for a doubly robust estimator, a bound or the R-loss (the default scorer of `Why`): the outcome model is a classifier, but the estimator
is not told, so it takes the predicted class labels for conditional means -/
theorem C165_told_refuted (c : Call) (hy : c.yTask = some (.flag true)) (hx : c.xTask = some (.flag true)) (hc : c.covariate = true) (f : Factory O)
    (hf : f = .dr (.name "gb") (.name "rf") (.name "gb") none ∨ f = .bound (.name "gb") (.name "rf") ∨ f = .rloss (.name "rf") (.name "rf") none) :
    ∃ m fam s, f.call c = .ok m ∧ m.outcome = some (.made fam false s) ∧ m.toldOutcome = false ∧ m.proba = false := by
  have hg : ∀ t, t = TaskArg.flag true → model (O := O) c.env (.name "gb") (some t) c.seed = .ok (.made .gb false c.seed) := by rintro t rfl; rfl
  have hr : ∀ t, t = TaskArg.flag true → model (O := O) c.env (.name "rf") (some t) c.seed = .ok (.made .rf false c.seed) := by rintro t rfl; rfl
  have hreg : model (O := O) c.env (.name "gb") (some (.name "regression")) c.seed = .ok (.made .gb true c.seed) := rfl
  rcases hf with rfl | rfl | rfl
  · refine ⟨⟨.permutedDR, some (.made .gb false c.seed), some (.made .rf false c.seed), some (.made .gb true c.seed), false, true, false, some (cfFold none c.size)⟩, .gb, c.seed, ?_, rfl, rfl, rfl⟩
    simp only [Factory.call, hx, hy, hg _ rfl, hr _ rfl, two, hreg]
    rw [if_pos (by simp)]
  · refine ⟨⟨.bound, some (.made .gb false c.seed), some (.made .rf false c.seed), none, false, true, false, none⟩, .gb, c.seed, ?_, rfl, rfl, rfl⟩
    simp only [Factory.call, hx, hy, hg _ rfl, hr _ rfl, two, hc, if_true]
    rfl
  · refine ⟨⟨.rloss, some (.made .rf false c.seed), some (.made .rf false c.seed), none, false, true, false, some (cfFold none c.size)⟩, .rf, c.seed, ?_, rfl, rfl, rfl⟩
    simp only [Factory.call, hx, hy, hr _ rfl, two]
    rfl

/-- what a factory needs -/
def Needs (c : Call) (tx : TaskArg) : Factory O → Prop
  | .dml .. => c.covariate = true
  | .dr .. => tx ≠ .name "regression"
  | .metaLearner .. => DiscreteTask tx
  | .sLearner _ => DiscreteTask tx
  | .tLearner _ => DiscreteTask tx
  | .xLearner .. => DiscreteTask tx
  | .tree => DiscreteTask tx
  | .grf => True
  | .bound .. => c.covariate = true
  | .iv .. => c.instrument = true
  | .deepIV => c.instrument = true
  | .rloss .. => True

/-- **C165**: a factory with default arguments returns an estimator exactly when it gets what it needs; nothing else is required, whatever is installed -/
theorem C165_accepts (f : Factory O) (hf : IsDefault f) (c : Call) (tx ty : TaskArg) (hx : c.xTask = some tx) (hy : c.yTask = some ty) :
    (∃ m, f.call c = .ok m) ↔ Needs c tx f := by
  have built : ∀ (n : String) (t : TaskArg), n = "gb" ∨ n = "rf" ∨ n = "lr" → ∃ o, model (O := O) c.env (.name n) (some t) c.seed = .ok o := by
    intro n t hn
    rcases hn with rfl | rfl | rfl <;> cases t <;> exact ⟨_, rfl⟩
  have dx := discrete_iff tx
  have metaOk : ∀ cls (fin : Except FErr (Option (Out O))), (∃ a, fin = .ok a) → ((∃ m, metaMade (O := O) c cls (.name "gb") fin = .ok m) ↔ DiscreteTask tx) := by
    rintro cls fin ⟨a, rfl⟩
    constructor
    · rintro ⟨m, hm⟩
      have := (metaMade_ok hm).1
      rw [hx] at this
      exact dx.1 this
    · intro hd
      obtain ⟨o, ho⟩ := built "gb" ty (by simp)
      unfold metaMade
      rw [hx, if_pos (dx.2 hd), hy, ho]
      exact ⟨_, rfl⟩
  obtain ⟨og, hg⟩ := built "gb" ty (by simp)
  obtain ⟨orf, hr⟩ := built "rf" ty (by simp)
  obtain ⟨olr, hl⟩ := built "lr" ty (by simp)
  obtain ⟨oxr, hxr⟩ := built "rf" tx (by simp)
  obtain ⟨ol, hlr⟩ := built "lr" (.name "regression") (by simp)
  obtain ⟨ogr, hgr⟩ := built "gb" (.name "regression") (by simp)
  cases hf with
  | dml =>
    simp only [Factory.call, Needs, hx, hy, hr, hxr, hlr, two]
    cases c.covariate <;> simp
  | dr =>
    simp only [Factory.call, Needs, hx, hy, hg, hxr, hgr, two]
    by_cases h : tx = .name "regression" <;> simp [h]
  | ml => exact metaOk _ _ ⟨_, rfl⟩
  | s => exact metaOk _ _ ⟨_, rfl⟩
  | t => exact metaOk _ _ ⟨_, rfl⟩
  | x =>
    refine metaOk _ _ ?_
    unfold xFinal
    rw [hlr]
    split <;> exact ⟨_, rfl⟩
  | tree =>
    simp only [Factory.call, Needs, hx, ← dx]
    cases discrete (some tx) <;> simp
  | grf => simp [Factory.call, Needs]
  | bound =>
    simp only [Factory.call, Needs, hx, hy, hg, hxr, two]
    cases c.covariate <;> simp
  | iv =>
    simp only [Factory.call, Needs, hx, hy, hl, hxr, two]
    cases c.instrument <;> simp
  | deepIV =>
    simp only [Factory.call, Needs]
    cases c.instrument <;> simp
  | rloss => simp [Factory.call, Needs, hx, hy, hr, hxr, two]

/-- **C165**: without a name the model comes from an installed library, for every task and installation, and is of the right kind -/
theorem C165_default_model (e : Env) (t : TaskArg) (seed : Option Nat) :
    ∃ f r, generalEstimator (O := O) e none .absent (some t) seed = .ok (.made f r seed) ∧ (r = false ↔ DiscreteTask t) ∧
      (f = .gbm → e.lgbm = true ∧ e.darwin = false) ∧ (f = .xgb → e.xgb = true) ∧ (f = .xgb ∨ f = .gbm ∨ f = .rf) := by
  obtain ⟨x, l, d⟩ := e
  have hk : ∀ t : TaskArg, ∃ res, resolve (some t) none = .ok res ∧ (res.isRegression = false ↔ DiscreteTask t) := by
    intro t
    cases t with
    | flag b => exact ⟨_, rfl, by cases b <;> simp [Resolved.isRegression, DiscreteTask]⟩
    | name n => exact ⟨_, rfl, by simp [Resolved.isRegression, DiscreteTask]⟩
  obtain ⟨res, h1, h2⟩ := hk t
  unfold generalEstimator
  rw [h1]
  cases x
  · cases l
    · exact ⟨.rf, _, rfl, h2, by simp, by simp, by simp⟩
    · cases d
      · exact ⟨.gbm, _, rfl, h2, by simp, by simp, by simp⟩
      · exact ⟨.rf, _, rfl, h2, by simp, by simp, by simp⟩
  · exact ⟨.xgb, _, rfl, h2, by simp, by simp, by simp⟩

/-- a library asked for by name that is not installed: an unbound name instead of a message -/
theorem C165_missing_library_refuted (e : Env) (t : TaskArg) (seed : Option Nat) :
    (e.xgb = false → generalEstimator (O := O) e none (.name "xgb") (some t) seed = .error .name) ∧
    (e.lgbm = false → generalEstimator (O := O) e none (.name "lightgbm") (some t) seed = .error .name) := by
  obtain ⟨x, l, d⟩ := e
  constructor <;> (intro h; cases t <;> (simp only at h; subst h; rfl))

/-- without a task the inferred one is not understood: a regression target gets a classifier, for every name and every data -/
theorem C165_inferred_refuted (e : Env) (inferred : String × List Nat) (g : Given O) (seed : Option Nat) (f : Family) (r : Bool) (s : Option Nat)
    (h : generalEstimator e (some inferred) g none seed = .ok (.made f r s)) : r = false := by
  simp only [generalEstimator, resolve] at h
  exact (finish_made h).1

example (e : Env) : generalEstimator (O := Unit) e (some ("regression", [])) (.name "rf") none (some 7) = .ok (.made .rf false (some 7)) := rfl

/-- **C165**: a model made from a name gets the seed; only linear regression, which draws nothing, gets none -/
theorem C165_seed (e : Env) (inferred : Option (String × List Nat)) (g : Given O) (task : Option TaskArg) (seed : Option Nat) (f : Family) (r : Bool)
    (s : Option Nat) (h : generalEstimator e inferred g task seed = .ok (.made f r s)) : s = seed ∨ f = .lr ∧ r = true ∧ s = none := by
  unfold generalEstimator at h
  cases hr : resolve task inferred with
  | error x => simp [hr] at h
  | ok t =>
    simp only [hr] at h
    exact (finish_made h).2.1

/-- **C165**: a model passed as an object is copied, whatever the task -/
theorem C165_object (e : Env) (o : O) (t : TaskArg) (seed : Option Nat) : model e (.object o) (some t) seed = .ok (.copyOf o) := by
  cases t <;> rfl

/-- a misspelt name is not reported: the string itself is taken for the model -/
theorem C165_misspelt_refuted (e : Env) (n : String) (h : n ∉ knownNames) (t : TaskArg) (seed : Option Nat) :
    model (O := O) e (.name n) (some t) seed = .ok (.text n) := by
  have := (creators_none n).2 h
  cases t <;> simp [model, generalEstimator, resolve, finish, this]

/-- the X-learner made by its own factory gets a regressor for the effects of a discrete outcome; the one made by the general factory of the meta learners gets
none, so that the effects, which are differences of probabilities, are learned by copies of the classifier (meta_learner.py:1132) -/
theorem C165_ml_x_refuted (c : Call) (hx : c.xTask = some (.flag true)) (hy : c.yTask = some (.flag true)) :
    (∃ m s s', (Factory.xLearner (O := O) (.name "gb") (.name "lr")).call c = .ok m ∧ m.cls = .permutedX ∧ m.outcome = some (.made .gb false s) ∧
      m.final = some (.made .lr true s') ∧ m.proba = true) ∧
    (∃ m s, (Factory.metaLearner (O := O) 'x' (.name "gb")).call c = .ok m ∧ m.cls = .permutedX ∧ m.outcome = some (.made .gb false s) ∧ m.final = none ∧
      m.proba = true) := by
  obtain ⟨env, size, yt, xt, cov, ins, seed⟩ := c
  simp only at hx hy
  subst hx hy
  exact ⟨⟨_, _, _, rfl, rfl, rfl, rfl, rfl⟩, ⟨_, _, rfl, rfl, rfl, rfl, rfl⟩⟩

/-- **C165**: a name can be registered once; registering changes no other entry -/
theorem C165_register (up : Char → Bool) (lower : Char → List Char) (reg : List (List Char × List Char)) (name : Option (List Char)) (cls : List Char) :
    (∃ tag, (∀ n, name = some n → tag = n) ∧ (name = none → tag = tagOf up lower cls) ∧
      ((tag ∈ reg.map (·.1) ∧ register up lower reg name cls = .error .assertion) ∨
       (tag ∉ reg.map (·.1) ∧ ∃ reg', register up lower reg name cls = .ok reg' ∧ reg'.lookup tag = some cls ∧
         ∀ k, k ≠ tag → reg'.lookup k = reg.lookup k))) := by
  have look : ∀ (r : List (List Char × List Char)) (k t : List Char), (k ∉ r.map (·.1) ∨ k ≠ t) →
      (r ++ [(t, cls)]).lookup k = if k ∈ r.map (·.1) then r.lookup k else if k = t then some cls else none := by
    intro r k t _
    induction r with
    | nil =>
      by_cases hk : k = t
      · simp [hk]
      · have : (k == t) = false := by simpa using hk
        simp [List.lookup, this, hk]
    | cons p r ih =>
      obtain ⟨a, b⟩ := p
      by_cases hk : k = a
      · subst hk; simp [List.lookup]
      · have hb : (k == a) = false := by simpa using hk
        have := ih (by
          rename_i hor
          rcases hor with h | h
          · exact .inl (fun hm => h (by simp at hm ⊢; tauto))
          · exact .inr h)
        simp only [List.cons_append, List.lookup, hb, this, List.map_cons, List.mem_cons, hk, false_or]
  have hnone : ∀ (r : List (List Char × List Char)) (k : List Char), k ∉ r.map (·.1) → r.lookup k = none := by
    intro r k
    induction r with
    | nil => simp
    | cons p r ih =>
      intro h
      simp only [List.map_cons, List.mem_cons, not_or] at h
      have hb : (k == p.1) = false := by simpa using h.1
      simp [List.lookup, hb, ih h.2]
  have main : ∀ tag : List Char, (tag ∈ reg.map (·.1) ∧ (if tag ∈ reg.map (·.1) then Except.error FErr.assertion else .ok (reg ++ [(tag, cls)])) = .error .assertion) ∨
       (tag ∉ reg.map (·.1) ∧ ∃ reg', (if tag ∈ reg.map (·.1) then Except.error FErr.assertion else .ok (reg ++ [(tag, cls)])) = .ok reg' ∧
         reg'.lookup tag = some cls ∧ ∀ k, k ≠ tag → reg'.lookup k = reg.lookup k) := by
    intro tag
    by_cases ht : tag ∈ reg.map (·.1)
    · exact .inl ⟨ht, if_pos ht⟩
    · refine .inr ⟨ht, _, if_neg ht, ?_, fun k hk => ?_⟩
      · rw [look reg tag tag (.inl ht), if_neg ht, if_pos rfl]
      · rw [look reg k tag (.inr hk)]
        by_cases hm : k ∈ reg.map (·.1)
        · rw [if_pos hm]
        · rw [if_neg hm, if_neg hk, hnone reg k hm]
  cases name with
  | none => exact ⟨tagOf up lower cls, by simp, fun _ => rfl, main _⟩
  | some n => exact ⟨n, by simp, by simp, main _⟩

/-- ASCII upper case and lower case -/
def asciiUp (c : Char) : Bool := decide ('A' ≤ c) && decide (c ≤ 'Z')

def asciiLower (c : Char) : List Char := if asciiUp c then [Char.ofNat (c.toNat + 32)] else [c]

/-- the registry after the module is imported -/
def shippedReg : List (List Char × List Char) := match registerAll asciiUp asciiLower [] shipped with
  | .ok r => r
  | .error _ => []

/-- **C165**: the shipped factories register without a clash, and the names `Why` looks up on its own — the three automatic estimators and the default scorer —
are registered for the classes meant -/
theorem C165_shipped : ∃ reg, registerAll asciiUp asciiLower [] shipped = .ok reg ∧ (reg.map (·.1)).Nodup ∧ reg.length = 16 ∧
    (∀ (C : Type) (instrument : Option (List C)) (dt dO : Bool), ∃ cls, reg.lookup (autoName (autoEstimator instrument dt dO)) = some cls ∧
      cls ∈ ["IVFactory".toList, "TLearnerFactory".toList, "DMLFactory".toList]) ∧
    reg.lookup "rloss".toList = some "RLossFactory".toList := by
  have hreg : ∃ reg, registerAll asciiUp asciiLower [] shipped = .ok reg ∧ (reg.map (·.1)).Nodup ∧ reg.length = 16 ∧
      reg.lookup "iv".toList = some "IVFactory".toList ∧ reg.lookup "tlearner".toList = some "TLearnerFactory".toList ∧
      reg.lookup "dml".toList = some "DMLFactory".toList ∧ reg.lookup "rloss".toList = some "RLossFactory".toList :=
    ⟨shippedReg, by decide +kernel, by decide +kernel, by decide +kernel, by decide +kernel, by decide +kernel, by decide +kernel, by decide +kernel⟩
  obtain ⟨reg, h1, h2, h3, h4, h5, h6, h7⟩ := hreg
  refine ⟨reg, h1, h2, h3, fun C ins dt dO => ?_, h7⟩
  cases autoEstimator ins dt dO with
  | iv => exact ⟨_, h4, by simp⟩
  | tlearner => exact ⟨_, h5, by simp⟩
  | dml => exact ⟨_, h6, by simp⟩

/-! ### Non-vacuity -/

/-- a call as `Why` makes it: a binary treatment, a continuous outcome -/
def whyCall : Call := ⟨⟨false, false, false⟩, 100, some (.flag false), some (.flag true), true, false, some 1⟩

example : ∃ m, (Factory.dml (O := Unit) (.name "rf") (.name "rf") (.name "lr") none).call whyCall = .ok m ∧
    m.outcome = some (.made .rf true (some 1)) ∧ m.treatment = some (.made .rf false (some 1)) ∧ m.final = some (.made .lr true none) ∧
    m.toldTreatment = true ∧ m.toldOutcome = false := ⟨_, rfl, rfl, rfl, rfl, rfl, rfl⟩

end YL.Props
