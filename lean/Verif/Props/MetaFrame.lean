import Verif.Model.MetaFrame
import Verif.Props.MetaLearner

/-!
# C158: which columns of a data frame `SLearner`, `TLearner` and `XLearner` use
-/

set_option linter.unusedSectionVars false

namespace YL.Spec

open YL YL.Meta YL.MetaFrame
open YL.Permuted (Arg)

variable {N N' C K : Type} [DecidableEq N] [DecidableEq N'] [LinearOrder C]

/-- the names of the features: those of the adjustment set followed by those of the covariates -/
def featNames (adj cov : Option (Cols N)) : List N := ((adj.map Cols.list).getD []) ++ ((cov.map Cols.list).getD [])

/-- all the names are columns of the frame -/
def HasCols (f : Frame N C) (l : List N) : Prop := ∀ n ∈ l, n ∈ f.names

instance (f : Frame N C) (l : List N) : Decidable (HasCols f l) := inferInstanceAs (Decidable (∀ _ ∈ _, _))

/-- the table read from a frame: per row the named features, the named treatments and the named outcome -/
def table (num : C → K) (y : N) (ts fs : List N) (f : Frame N C) : List (Row C (List C) K) :=
  f.rows.map (fun r => ⟨fs.map r, ts.map r, num (r y)⟩)

/-- the columns a call of `fit` names -/
def callCols (q : Call N C) : List N := q.outcome :: (q.treatment.list ++ featNames q.adjustment q.covariate)

/-- the training data of an arm: the named features and the outcome of the rows whose named treatment columns hold exactly `a` -/
def frameArm (num : C → K) (y : N) (ts fs : List N) (f : Frame N C) (a : List C) : List (List C × K) :=
  (f.rows.filter (fun r => ts.map r = a)).map (fun r => (fs.map r, num (r y)))

/-- at least two rows of the frame are in the arm -/
def ArmTwice (ts : List N) (f : Frame N C) (a : List C) : Prop := 2 ≤ (f.rows.filter (fun r => ts.map r = a)).length

instance (ts : List N) (f : Frame N C) (a : List C) : Decidable (ArmTwice ts f a) := inferInstanceAs (Decidable (_ ≤ _))

/-- two frames agree on the columns `l` of the first, which are called `ρ n` in the second -/
def Agree (ρ : N → N') (l : List N) (f : Frame N C) (g : Frame N' C) : Prop :=
  List.Forall₂ (fun r r' => ∀ n ∈ l, r' (ρ n) = r n) f.rows g.rows

/-- renaming the columns of an argument -/
def renameCols (ρ : N → N') : Cols N → Cols N'
  | .one a => .one (ρ a)
  | .many l => .many (l.map ρ)

/-- the same call with renamed columns on another frame -/
def renameCall (ρ : N → N') (q : Call N C) (g : Frame N' C) : Call N' C :=
  ⟨g, ρ q.outcome, renameCols ρ q.treatment, q.adjustment.map (renameCols ρ), q.covariate.map (renameCols ρ), q.treat, q.control⟩

end YL.Spec

namespace YL.Props

open YL YL.Spec YL.Meta YL.MetaFrame
open YL.Permuted (Arg)

variable {N N' C K : Type} [DecidableEq N] [DecidableEq N'] [LinearOrder C]

theorem select_ok {f : Frame N C} {l : List N} (h : HasCols f l) : select f l = .ok (f.rows.map (fun r => l.map r)) := by
  unfold select; exact if_pos h

theorem select_missing {f : Frame N C} {l : List N} (h : ¬ HasCols f l) : select f l = .error .key := by
  unfold select; exact if_neg h

theorem hasCols_append {f : Frame N C} {l l' : List N} : HasCols f (l ++ l') ↔ HasCols f l ∧ HasCols f l' := by
  unfold HasCols
  simp only [List.mem_append]
  exact ⟨fun h => ⟨fun n hn => h n (Or.inl hn), fun n hn => h n (Or.inr hn)⟩, fun h n hn => hn.elim (h.1 n) (h.2 n)⟩

theorem features_ok {f : Frame N C} {adj cov : Option (Cols N)} (hn : ¬ (adj = none ∧ cov = none))
    (h : HasCols f (featNames adj cov)) : features f adj cov = .ok (f.rows.map (fun r => (featNames adj cov).map r)) := by
  rcases adj with _ | a <;> rcases cov with _ | c
  · exact absurd ⟨rfl, rfl⟩ hn
  · have h' : HasCols f c.list := by simpa [featNames] using h
    simp [features, getArray, getWv, select_ok h', featNames]
  · have h' : HasCols f a.list := by simpa [featNames] using h
    simp [features, getArray, getWv, select_ok h', featNames]
  · have h' : HasCols f (a.list ++ c.list) := by simpa [featNames] using h
    obtain ⟨h1, h2⟩ := hasCols_append.1 h'
    simp only [features, getArray, getWv, select_ok h1, select_ok h2, featNames, Option.map_some, Option.getD_some]
    congr 1
    induction f.rows with
    | nil => rfl
    | cons r l ih => simp only [List.map_cons, List.zipWith_cons_cons, ih, List.map_append]

theorem features_missing {f : Frame N C} {adj cov : Option (Cols N)}
    (h : ¬ HasCols f (featNames adj cov)) : features f adj cov = .error .key := by
  rcases adj with _ | a <;> rcases cov with _ | c
  · exact absurd (fun n hn => by simp [featNames] at hn) h
  · have h' : ¬ HasCols f c.list := by simpa [featNames] using h
    simp [features, getArray, select_missing h']
  · have h' : ¬ HasCols f a.list := by simpa [featNames] using h
    simp [features, getArray, select_missing h']
  · have h' : ¬ HasCols f (a.list ++ c.list) := by simpa [featNames] using h
    by_cases h1 : HasCols f a.list
    · have h2 : ¬ HasCols f c.list := fun h2 => h' (hasCols_append.2 ⟨h1, h2⟩)
      simp [features, getArray, select_ok h1, select_missing h2]
    · simp [features, getArray, select_missing h1]

theorem featureCount_eq (adj cov : Option (Cols N)) : featureCount adj cov = (featNames adj cov).length := by
  simp [featureCount, featNames]

theorem coreRows_table (num : C → K) (y : N) (ts fs : List N) (f : Frame N C) :
    coreRows num (f.rows.map (fun r => r y)) (f.rows.map (fun r => ts.map r)) (f.rows.map (fun r => fs.map r)) =
      table num y ts fs f := by
  unfold coreRows table
  induction f.rows with
  | nil => rfl
  | cons r l ih =>
    simp only [List.map_cons, List.zip_cons_cons, List.zipWith_cons_cons]
    rw [ih]; rfl

/-- the object after a successful call -/
theorem fit_ok {M : Core C K} (num : C → K) (o : Obj N C K M) {q : Call N C} (hn : ¬ (q.adjustment = none ∧ q.covariate = none))
    (h : HasCols q.data (callCols q)) :
    fit num o q = match M.fit q.treatment.list.length (featNames q.adjustment q.covariate).length
        (table num q.outcome q.treatment.list (featNames q.adjustment q.covariate) q.data) q.treat q.control o.core with
      | .error e => .lost e
      | .ok s => .done ⟨q.adjustment, q.covariate, q.data.rows.map (fun r => (featNames q.adjustment q.covariate).map r), some s⟩ := by
  have h0 : q.outcome ∈ q.data.names := h _ (by simp [callCols])
  have h1 : HasCols q.data q.treatment.list := fun n hm => h n (by simp [callCols, hm])
  have h2 : HasCols q.data (featNames q.adjustment q.covariate) := fun n hm => h n (by simp [callCols, hm])
  unfold fit
  rw [if_neg (by simpa using hn), if_pos (show ∀ t ∈ q.treatment.list, t ∈ q.data.names from h1)]
  unfold fitArrays outcomeColumn
  rw [if_pos h0]
  simp only [select_ok h1, features_ok hn h2, coreRows_table, featureCount_eq]
  split <;> simp_all

/-- **C158**: what a call of `fit` does, on a new or an already fitted object. Without adjustment set and covariates it raises
`AssertionError` and the object is unchanged. If any of the named columns is missing it raises `KeyError`, and the object has the new
adjustment set and covariates but the old models. Otherwise the models are trained on exactly the table of the named columns. -/
theorem C158_accepts {M : Core C K} (num : C → K) (o : Obj N C K M) (q : Call N C) :
    (q.adjustment = none ∧ q.covariate = none → fit num o q = .failed .assertion o) ∧
    (¬ (q.adjustment = none ∧ q.covariate = none) → ¬ HasCols q.data (callCols q) →
      fit num o q = .failed .key { o with adjustment := q.adjustment, covariate := q.covariate }) ∧
    (¬ (q.adjustment = none ∧ q.covariate = none) → HasCols q.data (callCols q) →
      (∀ e, M.fit q.treatment.list.length (featNames q.adjustment q.covariate).length
          (table num q.outcome q.treatment.list (featNames q.adjustment q.covariate) q.data) q.treat q.control o.core = .error e →
        fit num o q = .lost e) ∧
      (∀ s, M.fit q.treatment.list.length (featNames q.adjustment q.covariate).length
          (table num q.outcome q.treatment.list (featNames q.adjustment q.covariate) q.data) q.treat q.control o.core = .ok s →
        fit num o q = .done ⟨q.adjustment, q.covariate,
          (table num q.outcome q.treatment.list (featNames q.adjustment q.covariate) q.data).map (·.wv), some s⟩)) := by
  refine ⟨fun h => ?_, fun hn h => ?_, fun hn h => ⟨fun e he => ?_, fun s hs => ?_⟩⟩
  · unfold fit; rw [if_pos (by simpa using h)]
  · unfold fit
    rw [if_neg (by simpa using hn)]
    by_cases h1 : HasCols q.data q.treatment.list
    · rw [if_pos (show ∀ t ∈ q.treatment.list, t ∈ q.data.names from h1)]
      unfold fitArrays outcomeColumn
      by_cases h0 : q.outcome ∈ q.data.names
      · rw [if_pos h0]
        have h2 : ¬ HasCols q.data (featNames q.adjustment q.covariate) := fun h2 => h (by
          intro n hm
          rcases List.mem_cons.1 hm with rfl | hm
          · exact h0
          · exact (List.mem_append.1 hm).elim (h1 n) (h2 n))
        simp only [select_ok h1, features_missing h2]
      · rw [if_neg h0]
    · rw [if_neg (show ¬ ∀ t ∈ q.treatment.list, t ∈ q.data.names from h1)]
  · rw [fit_ok num o hn h, he]
  · rw [fit_ok num o hn h, hs]
    simp [table]

/-- **C158**: a call of `fit` that raises before training leaves the trained models and the stored training features as they were, so
an object that was never fitted still refuses to estimate, and `estimate()` without data is unchanged. -/
theorem C158_failed_fit {M : Core C K} (num : C → K) (o o' : Obj N C K M) (q : Call N C) (e : Err) (h : fit num o q = .failed e o') :
    o'.core = o.core ∧ o'.wv = o.wv ∧ (estimate o' none).1 = (estimate o none).1 ∧
      (o.core = none → ∀ data, (estimate o' data).1 = .error .exception) ∧
      (featNames q.adjustment q.covariate = featNames o.adjustment o.covariate → ¬ (o.adjustment = none ∧ o.covariate = none) →
        ∀ data, (estimate o' data).1 = (estimate o data).1) := by
  obtain ⟨a1, a2, a3⟩ := C158_accepts num o q
  have key : o' = o ∨ (¬ (q.adjustment = none ∧ q.covariate = none) ∧ o' = { o with adjustment := q.adjustment, covariate := q.covariate }) := by
    by_cases hn : q.adjustment = none ∧ q.covariate = none
    · rw [a1 hn] at h
      injection h with _ h; exact Or.inl h.symm
    · by_cases hc : HasCols q.data (callCols q)
      · rcases hs : M.fit q.treatment.list.length (featNames q.adjustment q.covariate).length
          (table num q.outcome q.treatment.list (featNames q.adjustment q.covariate) q.data) q.treat q.control o.core with e' | s
        · rw [(a3 hn hc).1 _ hs] at h; cases h
        · rw [(a3 hn hc).2 _ hs] at h; cases h
      · rw [a2 hn hc] at h
        injection h with _ h; exact Or.inr ⟨hn, h.symm⟩
  have c1 : o'.core = o.core := by rcases key with rfl | ⟨-, rfl⟩ <;> rfl
  have c2 : o'.wv = o.wv := by rcases key with rfl | ⟨-, rfl⟩ <;> rfl
  refine ⟨c1, c2, ?_, fun hc data => ?_, fun hf hn data => ?_⟩
  · rcases key with rfl | ⟨-, rfl⟩
    · rfl
    · unfold estimate
      cases o.core <;> rfl
  · unfold estimate
    rw [c1, hc]
  · rcases key with rfl | ⟨hq, rfl⟩
    · rfl
    · unfold estimate
      rcases o.core with _ | s
      · rfl
      · rcases data with _ | g
        · rfl
        · have : features g q.adjustment q.covariate = features g o.adjustment o.covariate := by
            by_cases hg : HasCols g (featNames o.adjustment o.covariate)
            · rw [features_ok hn hg, features_ok hq (by rw [hf]; exact hg), hf]
            · rw [features_missing hg, features_missing (by rw [hf]; exact hg)]
          simp only [this]
          split <;> rfl

theorem estimate_frame {M : Core C K} {o : Obj N C K M} {s : M.State} (hs : o.core = some s) {g : Frame N C}
    (hn : ¬ (o.adjustment = none ∧ o.covariate = none)) (h : HasCols g (featNames o.adjustment o.covariate)) :
    (estimate o (some g)).1 = (M.estimate s (g.rows.map (fun r => (featNames o.adjustment o.covariate).map r))).1 := by
  unfold estimate
  simp only [hs, features_ok hn h]

/-- **C158**: after a successful `fit`, `estimate()` gives what `estimate(data)` gives for the training data, and a frame without one
of the feature columns is refused with `KeyError`; the treatment and outcome columns need not be present. -/
theorem C158_training_data {M : Core C K} (num : C → K) (o o' : Obj N C K M) (q : Call N C) (h : fit num o q = .done o') :
    (estimate o' none).1 = (estimate o' (some q.data)).1 ∧
      ∀ g, ((estimate o' (some g)).1 = .error .key ∧ (estimate o' (some g)).2 = o') ∨ HasCols g (featNames q.adjustment q.covariate) := by
  obtain ⟨a1, a2, a3⟩ := C158_accepts num o q
  by_cases hn : q.adjustment = none ∧ q.covariate = none
  · rw [a1 hn] at h; cases h
  by_cases hc : HasCols q.data (callCols q)
  · rcases hs : M.fit q.treatment.list.length (featNames q.adjustment q.covariate).length
      (table num q.outcome q.treatment.list (featNames q.adjustment q.covariate) q.data) q.treat q.control o.core with e' | s
    · rw [(a3 hn hc).1 _ hs] at h; cases h
    · rw [(a3 hn hc).2 _ hs] at h
      injection h with h
      subst h
      refine ⟨?_, fun g => ?_⟩
      · rw [estimate_frame (s := s) rfl hn (fun n hm => hc n (by simp [callCols, hm]))]
        simp [estimate, table, Function.comp_def]
      · by_cases hg : HasCols g (featNames q.adjustment q.covariate)
        · exact Or.inr hg
        · left
          unfold estimate
          simp only [features_missing hg, and_self]
  · rw [a2 hn hc] at h; cases h

theorem table_armData (num : C → K) (y : N) (ts fs : List N) (f : Frame N C) (a : List C) :
    armData a (table num y ts fs f) = frameArm num y ts fs f a := by
  unfold armData table frameArm
  induction f.rows with
  | nil => rfl
  | cons r l ih =>
    simp only [List.map_cons, List.filter_cons, decide_eq_true_eq]
    split
    · simp only [List.map_cons, ih]
    · exact ih

theorem table_twice {num : C → K} {y : N} {ts : List N} (fs : List N) {f : Frame N C} {a : List C} (h : ArmTwice ts f a) :
    Twice a (table num y ts fs f) := by
  have e := table_armData num y ts fs f a
  have := congrArg List.length e
  unfold armData frameArm at this
  rw [List.length_map, List.length_map] at this
  unfold Twice
  rw [this]
  exact h

theorem table_width (num : C → K) (y : N) (ts fs : List N) (f : Frame N C) : ∀ r ∈ table num y ts fs f, r.x.length = ts.length := by
  intro r hr
  unfold table at hr
  obtain ⟨r', -, rfl⟩ := List.mem_map.1 hr
  simp

/-- what it means that a call names existing columns, at least one treatment and at least one feature -/
def GoodCall (q : Call N C) : Prop :=
  HasCols q.data (callCols q) ∧ q.treatment.list ≠ [] ∧ featNames q.adjustment q.covariate ≠ []

instance (q : Call N C) : Decidable (GoodCall q) := inferInstanceAs (Decidable (_ ∧ _ ∧ _))

theorem GoodCall.given {q : Call N C} (h : GoodCall q) : ¬ (q.adjustment = none ∧ q.covariate = none) := by
  rintro ⟨h1, h2⟩
  exact h.2.2 (by simp [featNames, h1, h2])

/-- **C158, `TLearner`**: a call with existing columns and two arms with at least two rows each succeeds on a new object. For every
frame with the feature columns and at least one row the effect of each row is the prediction of the base model trained on exactly the
rows of the treated arm, from the named features and the named outcome, minus that of the base model of the control arm. -/
theorem C158_tlearner [Sub K] (num : C → K) (fitM : List (List C × K) → List C → K) (lit : Nat → C) {q : Call N C} (hq : GoodCall q)
    {a b : List C} (ha : ArmTwice q.treatment.list q.data a) (hb : ArmTwice q.treatment.list q.data b)
    (hta : ArgFor a q.treat) (htb : ArgFor b q.control) :
    ∃ o, fit num (Obj.new N (tCore fitM lit)) q = .done o ∧
      ∀ g : Frame N C, HasCols g (featNames q.adjustment q.covariate) → g.rows ≠ [] →
        (estimate o (some g)).1 = .ok (g.rows.map (fun r =>
          fitM (frameArm num q.outcome q.treatment.list (featNames q.adjustment q.covariate) q.data a)
            ((featNames q.adjustment q.covariate).map r) -
          fitM (frameArm num q.outcome q.treatment.list (featNames q.adjustment q.covariate) q.data b)
            ((featNames q.adjustment q.covariate).map r))) := by
  obtain ⟨s, h1, h2⟩ := C39_tlearner lit fitM (d := q.treatment.list.length) (List.length_pos_iff.2 hq.2.1)
    (rows := table num q.outcome q.treatment.list (featNames q.adjustment q.covariate) q.data)
    (table_width _ _ _ _ _) (table_twice _ ha) (table_twice _ hb) hta htb
  refine ⟨_, ((C158_accepts num (Obj.new N (tCore fitM lit)) q).2.2 hq.given hq.1).2 s ?_, fun g hg hne => ?_⟩
  · exact (if_neg (by simpa using hq.2.2)).trans h1
  · rw [estimate_frame (s := s) rfl hq.given hg]
    show (if _ then _ else _) = _
    rw [if_neg (by simpa using hne), List.map_map]
    congr 1
    apply List.map_congr_left
    intro r _
    simp only [Function.comp_apply, h2, table_armData]

/-- **C158, `XLearner`**: the same with the cross-trained second stage models. -/
theorem C158_xlearner [Ring K] (num : C → K) (fitM fitK : List (List C × K) → List C → K) (lit : Nat → C) (rho : K) {q : Call N C}
    (hq : GoodCall q) {a b : List C} (ha : ArmTwice q.treatment.list q.data a) (hb : ArmTwice q.treatment.list q.data b)
    (hta : ArgFor a q.treat) (htb : ArgFor b q.control) :
    ∃ o, fit num (Obj.new N (xCore fitM fitK lit rho)) q = .done o ∧
      ∀ g : Frame N C, HasCols g (featNames q.adjustment q.covariate) → g.rows ≠ [] →
        (estimate o (some g)).1 = .ok (g.rows.map (fun r =>
          rho * fitK ((frameArm num q.outcome q.treatment.list (featNames q.adjustment q.covariate) q.data a).map (fun p =>
              (p.1, p.2 - fitM (frameArm num q.outcome q.treatment.list (featNames q.adjustment q.covariate) q.data b) p.1)))
            ((featNames q.adjustment q.covariate).map r) +
          (1 - rho) * fitK ((frameArm num q.outcome q.treatment.list (featNames q.adjustment q.covariate) q.data b).map (fun p =>
              (p.1, fitM (frameArm num q.outcome q.treatment.list (featNames q.adjustment q.covariate) q.data a) p.1 - p.2)))
            ((featNames q.adjustment q.covariate).map r))) := by
  obtain ⟨s, h1, h2⟩ := C41_xlearner lit fitM fitK (d := q.treatment.list.length) (List.length_pos_iff.2 hq.2.1)
    (rows := table num q.outcome q.treatment.list (featNames q.adjustment q.covariate) q.data)
    (table_width _ _ _ _ _) (table_twice _ ha) (table_twice _ hb) hta htb
  refine ⟨_, ((C158_accepts num (Obj.new N (xCore fitM fitK lit rho)) q).2.2 hq.given hq.1).2 s ?_, fun g hg hne => ?_⟩
  · exact (if_neg (by simpa using hq.2.2)).trans h1
  · rw [estimate_frame (s := s) rfl hq.given hg]
    show (if _ then _ else _) = _
    rw [if_neg (by simpa using hne), List.map_map]
    congr 1
    apply List.map_congr_left
    intro r _
    simp only [Function.comp_apply, h2, table_armData]

theorem mapE_rows {α β γ : Type} {f : β → Except Err γ} {g : α → β} {h : α → γ} {l : List α} (hf : ∀ a ∈ l, f (g a) = .ok (h a)) :
    mapE f (l.map g) = .ok (l.map h) := by
  induction l with
  | nil => rfl
  | cons a l ih =>
    simp only [List.map_cons, mapE, hf a (by simp), ih (fun a ha => hf a (by simp [ha]))]

/-- **C158, `SLearner`**: a call with existing columns and at least two rows succeeds on a new object for all arms whose values
occur in their columns. One model is trained on all rows, from the named features and an injective code of the named treatment values,
and the effect of each row is the difference of its predictions with the two codes. -/
theorem C158_slearner [Sub K] (num : C → K) (fitM : List ((List C × List Nat) × K) → (List C × List Nat → K)) (lit : Nat → C)
    (f : Frame N C) (y : N) (treatment : Cols N) (adj cov : Option (Cols N)) (hn : ¬ (adj = none ∧ cov = none))
    (hc : HasCols f (y :: (treatment.list ++ featNames adj cov))) (ht : treatment.list ≠ []) (h2 : 2 ≤ f.rows.length) :
    ∃ φ : List C → List Nat,
      (∀ u v, (u.length = treatment.list.length ∧ ∀ p ∈ treatment.list.zip u, ∃ r ∈ f.rows, r p.1 = p.2) →
        (v.length = treatment.list.length ∧ ∀ p ∈ treatment.list.zip v, ∃ r ∈ f.rows, r p.1 = p.2) → φ u = φ v → u = v) ∧
      ∀ a b ta tb, (a.length = treatment.list.length ∧ ∀ p ∈ treatment.list.zip a, ∃ r ∈ f.rows, r p.1 = p.2) →
        (b.length = treatment.list.length ∧ ∀ p ∈ treatment.list.zip b, ∃ r ∈ f.rows, r p.1 = p.2) →
        ArgFor a ta → ArgFor b tb →
        ∃ o, fit num (Obj.new N (sCore fitM lit)) ⟨f, y, treatment, adj, cov, ta, tb⟩ = .done o ∧
          ∀ g : Frame N C, HasCols g (featNames adj cov) → g.rows ≠ [] →
            (estimate o (some g)).1 = .ok (g.rows.map (fun r =>
              fitM (f.rows.map (fun t => (((featNames adj cov).map t, φ (treatment.list.map t)), num (t y))))
                ((featNames adj cov).map r, φ a) -
              fitM (f.rows.map (fun t => (((featNames adj cov).map t, φ (treatment.list.map t)), num (t y))))
                ((featNames adj cov).map r, φ b))) := by
  have hobs : ∀ v : List C, (v.length = treatment.list.length ∧ ∀ p ∈ treatment.list.zip v, ∃ r ∈ f.rows, r p.1 = p.2) →
      Observed treatment.list.length (table num y treatment.list (featNames adj cov) f) v := by
    rintro v ⟨hl, hv⟩
    refine ⟨hl, fun j hj => ?_⟩
    have hjv : j < v.length := by rw [hl]; exact hj
    obtain ⟨r, hr, hx⟩ := hv (treatment.list[j], v[j]) (by
      rw [List.mem_iff_getElem]
      exact ⟨j, by rw [List.length_zip]; exact lt_min hj hjv, by rw [List.getElem_zip]⟩)
    refine ⟨_, List.mem_map_of_mem hr, ?_⟩
    simp only at hx
    rw [List.getElem?_eq_getElem hjv, ← hx]
    simp [List.getElem?_eq_getElem hj]
  obtain ⟨φ, hinj, h⟩ := C40_slearner lit fitM (d := treatment.list.length) (List.length_pos_iff.2 ht)
    (rows := table num y treatment.list (featNames adj cov) f) (by simpa [table] using h2) (table_width _ _ _ _ _)
  refine ⟨φ, fun u v hu hv => hinj u v (hobs u hu) (hobs v hv), fun a b ta tb ha hb hta htb => ?_⟩
  obtain ⟨s, h1, h3⟩ := h a b ta tb (hobs a ha) (hobs b hb) hta htb
  refine ⟨_, ((C158_accepts num (Obj.new N (sCore fitM lit)) ⟨f, y, treatment, adj, cov, ta, tb⟩).2.2 hn hc).2 s h1,
    fun g hg hne => ?_⟩
  rw [estimate_frame (s := s) rfl hn hg]
  show (if _ then _ else _) = _
  rw [if_neg (by simpa using hne)]
  apply mapE_rows
  intro r _
  obtain ⟨s', hs'⟩ := h3 ((featNames adj cov).map r)
  unfold sValue
  rw [hs']
  simp only [table, List.map_map, Function.comp_def]

/-! ### what does not matter -/

theorem renameCols_list (ρ : N → N') (c : Cols N) : (renameCols ρ c).list = c.list.map ρ := by cases c <;> rfl

theorem featNames_rename (ρ : N → N') (adj cov : Option (Cols N)) :
    featNames (adj.map (renameCols ρ)) (cov.map (renameCols ρ)) = (featNames adj cov).map ρ := by
  rcases adj with _ | a <;> rcases cov with _ | c <;> simp [featNames, renameCols_list]

theorem agree_map {ρ : N → N'} {l : List N} {f : Frame N C} {g : Frame N' C} (h : Agree ρ l f g) {B : Type}
    {φ : (N → C) → B} {ψ : (N' → C) → B} (hφ : ∀ r r', (∀ n ∈ l, r' (ρ n) = r n) → ψ r' = φ r) :
    g.rows.map ψ = f.rows.map φ := by
  unfold Agree at h
  generalize f.rows = x at *
  generalize g.rows = y at *
  induction h with
  | nil => rfl
  | cons h1 _ ih => simp only [List.map_cons, ih, hφ _ _ h1]

theorem map_agree {ρ : N → N'} {l : List N} {r : N → C} {r' : N' → C} (h : ∀ n ∈ l, r' (ρ n) = r n) :
    (l.map ρ).map r' = l.map r := by
  rw [List.map_map]
  exact List.map_congr_left h

/-- **C158**: names, order and further columns do not matter. If a second frame holds the same data, possibly under other names, in
the columns a call names, then the call with the new names gives the same trained models (or the same exception in training), and the
same effects on all frames that agree on the feature columns, whatever their other columns, in particular treatments and outcome. -/
theorem C158_columns {M : Core C K} (num : C → K) (ρ : N → N') {q : Call N C} {f' : Frame N' C}
    (hn : ¬ (q.adjustment = none ∧ q.covariate = none)) (hc : HasCols q.data (callCols q)) (hc' : HasCols f' ((callCols q).map ρ))
    (ha : Agree ρ (callCols q) q.data f') :
    (∃ e, fit num (Obj.new N M) q = .lost e ∧ fit num (Obj.new N' M) (renameCall ρ q f') = .lost e) ∨
    ∃ o o', fit num (Obj.new N M) q = .done o ∧ fit num (Obj.new N' M) (renameCall ρ q f') = .done o' ∧
      o'.core = o.core ∧ (estimate o' none).1 = (estimate o none).1 ∧
      ∀ (g : Frame N C) (g' : Frame N' C), HasCols g (featNames q.adjustment q.covariate) →
        HasCols g' ((featNames q.adjustment q.covariate).map ρ) → Agree ρ (featNames q.adjustment q.covariate) g g' →
        (estimate o' (some g')).1 = (estimate o (some g)).1 := by
  have hn' : ¬ ((renameCall ρ q f').adjustment = none ∧ (renameCall ρ q f').covariate = none) := by
    simpa [renameCall] using hn
  have hcc : callCols (renameCall ρ q f') = (callCols q).map ρ := by
    simp [callCols, renameCall, renameCols_list, featNames_rename]
  have ht : table num (ρ q.outcome) (q.treatment.list.map ρ) ((featNames q.adjustment q.covariate).map ρ) f' =
      table num q.outcome q.treatment.list (featNames q.adjustment q.covariate) q.data := by
    unfold table
    refine agree_map ha (fun r r' h => ?_)
    rw [map_agree (fun n hm => h n (by simp [callCols, hm])), map_agree (fun n hm => h n (by simp [callCols, hm])),
      h q.outcome (by simp [callCols])]
  have e1 := fit_ok (M := M) num (Obj.new N M) hn hc
  have e2 := fit_ok (M := M) num (Obj.new N' M) (q := renameCall ρ q f') hn' (by rw [hcc]; exact hc')
  simp only [renameCall, renameCols_list, featNames_rename, List.length_map, ht] at e2
  simp only [Obj.new] at e1 e2
  rcases hs : M.fit q.treatment.list.length (featNames q.adjustment q.covariate).length
      (table num q.outcome q.treatment.list (featNames q.adjustment q.covariate) q.data) q.treat q.control none with e | s
  · left
    rw [hs] at e1 e2
    exact ⟨e, e1, e2⟩
  · right
    rw [hs] at e1 e2
    refine ⟨_, _, e1, e2, rfl, ?_, fun g g' hg hg' hgg => ?_⟩
    · have : f'.rows.map (fun r => ((featNames q.adjustment q.covariate).map ρ).map r) =
          q.data.rows.map (fun r => (featNames q.adjustment q.covariate).map r) :=
        agree_map ha (fun r r' h => map_agree (fun n hm => h n (by simp [callCols, hm])))
      simp only [estimate, this]
    · rw [estimate_frame (g := g') (s := s) rfl (by simpa using hn) (by simp only [featNames_rename]; exact hg'),
        estimate_frame (g := g) (s := s) rfl hn hg]
      simp only [featNames_rename]
      have : g'.rows.map (fun r => ((featNames q.adjustment q.covariate).map ρ).map r) =
          g.rows.map (fun r => (featNames q.adjustment q.covariate).map r) :=
        agree_map hgg (fun r r' h => map_agree h)
      rw [this]

/-- **C158**: only the concatenation of the adjustment set and the covariates matters: two calls on an object that split the same
list of names differently, or pass a single name as a string or as a list of one name, give the same models and the same estimates. -/
theorem C158_split {M : Core C K} (num : C → K) (o : Obj N C K M) {q : Call N C} {adj cov : Option (Cols N)} {tr : Cols N}
    (hn : ¬ (q.adjustment = none ∧ q.covariate = none)) (hn' : ¬ (adj = none ∧ cov = none))
    (hf : featNames adj cov = featNames q.adjustment q.covariate) (ht : tr.list = q.treatment.list) :
    (∃ e u u', fit num o q = .failed e u ∧ fit num o { q with adjustment := adj, covariate := cov, treatment := tr } = .failed e u' ∧
        ∀ data, (estimate u' data).1 = (estimate u data).1) ∨
    (∃ e, fit num o q = .lost e ∧ fit num o { q with adjustment := adj, covariate := cov, treatment := tr } = .lost e) ∨
    ∃ u u', fit num o q = .done u ∧ fit num o { q with adjustment := adj, covariate := cov, treatment := tr } = .done u' ∧
      u'.core = u.core ∧ ∀ data, (estimate u' data).1 = (estimate u data).1 := by
  have hfe : ∀ g : Frame N C, features g adj cov = features g q.adjustment q.covariate := by
    intro g
    by_cases hg : HasCols g (featNames q.adjustment q.covariate)
    · rw [features_ok hn hg, features_ok hn' (by rw [hf]; exact hg), hf]
    · rw [features_missing hg, features_missing (by rw [hf]; exact hg)]
  have hcc : callCols { q with adjustment := adj, covariate := cov, treatment := tr } = callCols q := by
    simp [callCols, hf, ht]
  have hest : ∀ (wv : List (List C)) (s : Option M.State) (data : Option (Frame N C)),
      (estimate (⟨adj, cov, wv, s⟩ : Obj N C K M) data).1 = (estimate (⟨q.adjustment, q.covariate, wv, s⟩ : Obj N C K M) data).1 := by
    intro wv s data
    unfold estimate
    rcases s with _ | s
    · rfl
    · rcases data with _ | g
      · rfl
      · simp only [hfe]
        split <;> rfl
  by_cases hc : HasCols q.data (callCols q)
  · have e1 := fit_ok (M := M) num o hn hc
    have e2 := fit_ok (M := M) num o (q := { q with adjustment := adj, covariate := cov, treatment := tr }) hn'
      (by rw [hcc]; exact hc)
    simp only [hf, ht] at e2
    rcases hs : M.fit q.treatment.list.length (featNames q.adjustment q.covariate).length
        (table num q.outcome q.treatment.list (featNames q.adjustment q.covariate) q.data) q.treat q.control o.core with e | s
    · rw [hs] at e1 e2
      exact Or.inr (Or.inl ⟨e, e1, e2⟩)
    · rw [hs] at e1 e2
      exact Or.inr (Or.inr ⟨_, _, e1, e2, rfl, fun data => hest _ _ data⟩)
  · left
    refine ⟨_, _, _, (C158_accepts num o q).2.1 hn hc,
      (C158_accepts num o { q with adjustment := adj, covariate := cov, treatment := tr }).2.1 hn' (by rw [hcc]; exact hc),
      fun data => hest _ _ data⟩

/-- **C158**: the labels of the arms do not matter for `TLearner` and `XLearner`: recoding the treatment columns by an injective map,
together with the requested arms, gives the same effects, provided the features and the outcome are the same. -/
theorem C158_relabel [Ring K] (num : C → K) (fitM fitK : List (List C × K) → List C → K) (lit : Nat → C) (rho : K) {q : Call N C}
    (hq : GoodCall q) {a b : List C} (ha : ArmTwice q.treatment.list q.data a) (hb : ArmTwice q.treatment.list q.data b)
    (σ : C → C) (hσ : Function.Injective σ) (rows' : List (N → C))
    (hr : List.Forall₂ (fun r r' => (∀ t ∈ q.treatment.list, r' t = σ (r t)) ∧
      (∀ n ∈ q.outcome :: featNames q.adjustment q.covariate, r' n = r n)) q.data.rows rows') :
    (∃ o o', fit num (Obj.new N (tCore fitM lit)) { q with treat := some (.many a), control := some (.many b) } = .done o ∧
      fit num (Obj.new N (tCore fitM lit))
        { q with data := ⟨q.data.names, rows'⟩, treat := some (.many (a.map σ)), control := some (.many (b.map σ)) } = .done o' ∧
      ∀ g : Frame N C, HasCols g (featNames q.adjustment q.covariate) → g.rows ≠ [] →
        (estimate o' (some g)).1 = (estimate o (some g)).1) ∧
    (∃ o o', fit num (Obj.new N (xCore fitM fitK lit rho)) { q with treat := some (.many a), control := some (.many b) } = .done o ∧
      fit num (Obj.new N (xCore fitM fitK lit rho))
        { q with data := ⟨q.data.names, rows'⟩, treat := some (.many (a.map σ)), control := some (.many (b.map σ)) } = .done o' ∧
      ∀ g : Frame N C, HasCols g (featNames q.adjustment q.covariate) → g.rows ≠ [] →
        (estimate o' (some g)).1 = (estimate o (some g)).1) := by
  have hrow : ∀ c : List C, frameArm num q.outcome q.treatment.list (featNames q.adjustment q.covariate) ⟨q.data.names, rows'⟩ (c.map σ) =
      frameArm num q.outcome q.treatment.list (featNames q.adjustment q.covariate) q.data c := by
    intro c
    unfold frameArm
    generalize q.data.rows = x at hr
    show (rows'.filter _).map _ = _
    induction hr with
    | nil => rfl
    | @cons r r' l l' h1 _ ih =>
      have e1 : q.treatment.list.map r' = (q.treatment.list.map r).map σ := by
        rw [List.map_map]; exact List.map_congr_left h1.1
      have e2 : (q.treatment.list.map r' = c.map σ) ↔ (q.treatment.list.map r = c) := by
        rw [e1]
        exact ⟨fun h => List.map_injective_iff.2 hσ h, fun h => by rw [h]⟩
      have e3 : (featNames q.adjustment q.covariate).map r' = (featNames q.adjustment q.covariate).map r :=
        List.map_congr_left (fun n hm => h1.2 n (by simp [hm]))
      have e4 : r' q.outcome = r q.outcome := h1.2 _ (by simp)
      simp only [List.filter_cons, decide_eq_true_eq, e2]
      split
      · simp only [List.map_cons, ih, e3, e4]
      · exact ih
  have htw : ∀ c : List C, ArmTwice q.treatment.list q.data c → ArmTwice q.treatment.list ⟨q.data.names, rows'⟩ (c.map σ) := by
    intro c h
    have := congrArg List.length (hrow c)
    unfold frameArm at this
    rw [List.length_map, List.length_map] at this
    unfold ArmTwice at h ⊢
    rw [this]
    exact h
  have hq1 : GoodCall { q with treat := some (.many a), control := some (.many b) } := hq
  have hq2 : GoodCall { q with data := ⟨q.data.names, rows'⟩, treat := some (.many (a.map σ)), control := some (.many (b.map σ)) } := hq
  constructor
  · obtain ⟨o, h1, h2⟩ := C158_tlearner num fitM lit hq1 ha hb (Or.inl rfl) (Or.inl rfl)
    obtain ⟨o', h1', h2'⟩ := C158_tlearner num fitM lit hq2 (htw a ha) (htw b hb) (Or.inl rfl) (Or.inl rfl)
    refine ⟨o, o', h1, h1', fun g hg hne => ?_⟩
    rw [h2 g hg hne, h2' g hg hne]
    simp only [hrow]
  · obtain ⟨o, h1, h2⟩ := C158_xlearner num fitM fitK lit rho hq1 ha hb (Or.inl rfl) (Or.inl rfl)
    obtain ⟨o', h1', h2'⟩ := C158_xlearner num fitM fitK lit rho hq2 (htw a ha) (htw b hb) (Or.inl rfl) (Or.inl rfl)
    refine ⟨o, o', h1, h1', fun g hg hne => ?_⟩
    rw [h2 g hg hne, h2' g hg hne]
    simp only [hrow]

/-- **C158**: the order of the rows does not matter for `TLearner` and `XLearner` if it does not matter for the base models. -/
theorem C158_row_order [Ring K] (num : C → K) (fitM fitK : List (List C × K) → List C → K) (lit : Nat → C) (rho : K) {q : Call N C}
    (hM : ∀ l l' : List (List C × K), l.Perm l' → fitM l = fitM l') (hK : ∀ l l' : List (List C × K), l.Perm l' → fitK l = fitK l')
    (hq : GoodCall q) {a b : List C} (ha : ArmTwice q.treatment.list q.data a) (hb : ArmTwice q.treatment.list q.data b)
    (hta : ArgFor a q.treat) (htb : ArgFor b q.control) {rows' : List (N → C)} (hr : q.data.rows.Perm rows') :
    (∃ o o', fit num (Obj.new N (tCore fitM lit)) q = .done o ∧
      fit num (Obj.new N (tCore fitM lit)) { q with data := ⟨q.data.names, rows'⟩ } = .done o' ∧
      ∀ g : Frame N C, HasCols g (featNames q.adjustment q.covariate) → g.rows ≠ [] →
        (estimate o' (some g)).1 = (estimate o (some g)).1) ∧
    (∃ o o', fit num (Obj.new N (xCore fitM fitK lit rho)) q = .done o ∧
      fit num (Obj.new N (xCore fitM fitK lit rho)) { q with data := ⟨q.data.names, rows'⟩ } = .done o' ∧
      ∀ g : Frame N C, HasCols g (featNames q.adjustment q.covariate) → g.rows ≠ [] →
        (estimate o' (some g)).1 = (estimate o (some g)).1) := by
  have hrow : ∀ c : List C, (frameArm num q.outcome q.treatment.list (featNames q.adjustment q.covariate) ⟨q.data.names, rows'⟩ c).Perm
      (frameArm num q.outcome q.treatment.list (featNames q.adjustment q.covariate) q.data c) :=
    fun c => ((hr.symm.filter _).map _)
  have htw : ∀ c : List C, ArmTwice q.treatment.list q.data c → ArmTwice q.treatment.list ⟨q.data.names, rows'⟩ c := by
    intro c h
    have := (hr.filter (fun r => q.treatment.list.map r = c)).length_eq
    unfold ArmTwice at h ⊢
    rw [← this]
    exact h
  have hq2 : GoodCall { q with data := ⟨q.data.names, rows'⟩ } := hq
  constructor
  · obtain ⟨o, h1, h2⟩ := C158_tlearner num fitM lit hq ha hb hta htb
    obtain ⟨o', h1', h2'⟩ := C158_tlearner num fitM lit hq2 (htw a ha) (htw b hb) hta htb
    refine ⟨o, o', h1, h1', fun g hg hne => ?_⟩
    rw [h2 g hg hne, h2' g hg hne]
    simp only [hM _ _ (hrow a), hM _ _ (hrow b)]
  · obtain ⟨o, h1, h2⟩ := C158_xlearner num fitM fitK lit rho hq ha hb hta htb
    obtain ⟨o', h1', h2'⟩ := C158_xlearner num fitM fitK lit rho hq2 (htw a ha) (htw b hb) hta htb
    refine ⟨o, o', h1, h1', fun g hg hne => ?_⟩
    rw [h2 g hg hne, h2' g hg hne]
    simp only [hM _ _ (hrow a), hM _ _ (hrow b), hK _ _ ((hrow a).map _), hK _ _ ((hrow b).map _)]

/-! ### what is not checked -/

/-- **C158, refuted** (the outcome may be an adjustment variable): nothing stops a call that names the outcome first in the adjustment
set. With a base model that learns a feature that equals the outcome (as least squares does) every effect is zero, whatever the data. -/
theorem C158_leak_refuted [Ring K] (num : C → K) (fitM : List (List C × K) → List C → K) (lit : Nat → C)
    (hfit : ∀ l : List (List C × K), (∀ p ∈ l, ∃ c t, p.1 = c :: t ∧ p.2 = num c) → ∀ c t, fitM l (c :: t) = num c)
    (f : Frame N C) (y t : N) (rest : List N) (hc : HasCols f (y :: t :: rest)) {a b : C}
    (ha : ArmTwice [t] f [a]) (hb : ArmTwice [t] f [b]) :
    ∃ o, fit num (Obj.new N (tCore fitM lit)) ⟨f, y, .one t, some (.many (y :: rest)), none, some (.one a), some (.one b)⟩ = .done o ∧
      (estimate o none).1 = .ok (f.rows.map (fun _ => 0)) := by
  have hq : GoodCall (⟨f, y, .one t, some (.many (y :: rest)), none, some (.one a), some (.one b)⟩ : Call N C) := by
    refine ⟨fun n hm => hc n ?_, by simp [Cols.list], by simp [featNames, Cols.list]⟩
    simp [callCols, featNames, Cols.list] at hm ⊢
    tauto
  obtain ⟨o, h1, h2⟩ := C158_tlearner num fitM lit hq ha hb (Or.inr ⟨a, rfl, rfl⟩) (Or.inr ⟨b, rfl, rfl⟩)
  refine ⟨o, h1, ?_⟩
  rw [(C158_training_data num _ o _ h1).1]
  have hfn : featNames (some (Cols.many (y :: rest))) none = y :: rest := by simp [featNames, Cols.list]
  rw [h2 f (by rw [hfn]; exact fun n hm => hc n (by simp at hm ⊢; tauto)) (by
    intro hn
    unfold ArmTwice at ha
    rw [hn] at ha
    simp at ha)]
  congr 1
  apply List.map_congr_left
  intro r _
  simp only [hfn, List.map_cons]
  have hl : ∀ c : List C, ∀ p ∈ frameArm num y [t] (y :: rest) f c, ∃ c t, p.1 = c :: t ∧ p.2 = num c := by
    intro c p hp
    unfold frameArm at hp
    obtain ⟨r, -, rfl⟩ := List.mem_map.1 hp
    exact ⟨r y, rest.map r, rfl, rfl⟩
  have e1 := hfit _ (hl [a]) (r y) (rest.map r)
  have e2 := hfit _ (hl [b]) (r y) (rest.map r)
  show fitM (frameArm num y [t] (y :: rest) f [a]) _ - fitM (frameArm num y [t] (y :: rest) f [b]) _ = 0
  rw [e1, e2, sub_self]

/-! ### examples -/

/-- a frame with columns x (treatment), y (outcome), w, v and an unused one -/
def metaFrame : Frame String Int where
  names := ["u", "v", "x", "y", "w"]
  rows := [fun n => if n = "x" then 1 else if n = "y" then 10 else if n = "w" then 2 else if n = "v" then 3 else 7,
    fun n => if n = "x" then 0 else if n = "y" then 4 else if n = "w" then 5 else if n = "v" then 1 else 8,
    fun n => if n = "x" then 1 else if n = "y" then 20 else if n = "w" then 3 else if n = "v" then 3 else 9,
    fun n => if n = "x" then 0 else if n = "y" then 5 else if n = "w" then 2 else if n = "v" then 2 else 7]

/-- the base model of the examples: the sum of the outcomes times the first feature -/
def scaleModel (l : List (List Int × Int)) (w : List Int) : Int := (l.map (·.2)).sum * w.headD 0

/-- the call of the examples -/
def metaCall : Call String Int := ⟨metaFrame, "y", .one "x", some (.many ["w"]), some (.one "v"), some (.one 1), some (.one 0)⟩

/-- the effects of a call of `fit` followed by `estimate` -/
def runMeta {M : Core Int Int} (e : Ending String Int Int M) (g : Option (Frame String Int)) : Option (List Int) :=
  match e with
  | .done o => (estimate o g).1.toOption
  | .failed _ o => (estimate o g).1.toOption
  | .lost _ => none

example : GoodCall metaCall := by decide
example : ArmTwice metaCall.treatment.list metaCall.data [1] ∧ ArmTwice metaCall.treatment.list metaCall.data [0] := by decide
example : runMeta (fit id (Obj.new String (tCore scaleModel Int.ofNat)) metaCall) none =
    some [(30 - 9) * 2, (30 - 9) * 5, (30 - 9) * 3, (30 - 9) * 2] := by decide
example : (runMeta (fit id (Obj.new String (xCore scaleModel scaleModel Int.ofNat 1)) metaCall) none).isSome = true := by decide
example : ∀ l l' : List (List Int × Int), l.Perm l' → scaleModel l = scaleModel l' := by
  intro l l' h
  funext w
  unfold scaleModel
  rw [(h.map (·.2)).sum_eq]
example : ∀ l : List (List Int × Int), (∀ p ∈ l, ∃ c t, p.1 = c :: t ∧ p.2 = id c) → ∀ c t,
    (fun (_ : List (List Int × Int)) (w : List Int) => w.headD 0) l (c :: t) = id c := fun _ _ _ _ => rfl

/-- **C158, refuted** (a failed `fit` has no effect): a fitted `TLearner` whose next `fit` raises `KeyError`, because the treatment
column is misspelt, silently gives other effects for the same data: the old models are evaluated on the columns of the failed call. -/
theorem C158_failed_fit_refuted :
    ∃ o o' : Obj String Int Int (tCore scaleModel Int.ofNat),
      fit id (Obj.new String (tCore scaleModel Int.ofNat)) metaCall = .done o ∧
      fit id o { metaCall with treatment := .one "z", adjustment := some (.many ["v"]), covariate := some (.one "w") } = .failed .key o' ∧
      (estimate o (some metaFrame)).1 = .ok [42, 105, 63, 42] ∧ (estimate o' (some metaFrame)).1 = .ok [63, 21, 63, 42] := by
  obtain ⟨s, hs⟩ : ∃ s, (tCore scaleModel Int.ofNat).fit 1 2
      (table id "y" ["x"] ["w", "v"] metaFrame) (some (.one 1)) (some (.one 0)) none = .ok s := ⟨_, rfl⟩
  refine ⟨_, _, ((C158_accepts id _ metaCall).2.2 (by simp [metaCall]) (by decide)).2 s hs,
    (C158_accepts id _ _).2.1 (by simp) (by decide), ?_, ?_⟩
  · cases hs
    rfl
  · cases hs
    rfl

end YL.Props
