import Verif.Model.Init

/-!
# C166: an estimator keeps the settings it is created with and is not fitted before `fit`
-/

set_option linter.unusedSectionVars false

namespace YL.Spec

open YL Init

/-- an estimator keeps its settings (a missing seed is 2022), and is not fitted -/
structure Keeps (rs dt dO cat : Val) (a : Attrs) : Prop where
  seed : a.randomState = if rs = .none then .int 2022 else rs
  treatment : a.discreteTreatment = dt
  outcome : a.discreteOutcome = dO
  categories : a.categories = cat
  fresh : a.isFitted = .bool false

/-- Python's rule for the arguments of a call: arguments by position go to the first parameters in order, arguments by name to the parameter of that name -/
def Gets (params : List String) (pos : List Val) (kw : List (String × Val)) (k : String) (v : Val) : Prop :=
  (∃ i : Nat, params[i]? = some k ∧ pos[i]? = some v) ∨ (k, v) ∈ kw

/-- … which is an error if there are too many arguments by position, or a name is unknown, or taken, or repeated -/
def CallOk (params : List String) (pos : List Val) (kw : List (String × Val)) : Prop :=
  pos.length ≤ params.length ∧ (∀ p ∈ kw, p.1 ∈ params.drop pos.length) ∧ (kw.map (·.1)).Nodup

end YL.Spec

namespace YL.Props

open YL Spec Init

theorem bindPos_eq (params : List String) (pos : List Val) :
    bindPos params pos = if pos.length ≤ params.length then .ok (params.zip pos) else .error .type := by
  induction pos generalizing params with
  | nil => cases params <;> simp [bindPos]
  | cons v vs ih =>
    cases params with
    | nil => simp [bindPos]
    | cons p ps =>
      simp only [bindPos, ih, List.length_cons, Nat.add_le_add_iff_right]
      by_cases h : vs.length ≤ ps.length <;> simp [h]

theorem lookup_none_iff (b : List (String × Val)) (k : String) : b.lookup k = none ↔ k ∉ b.map (·.1) := by
  induction b with
  | nil => simp
  | cons p b ih =>
    obtain ⟨a, v⟩ := p
    by_cases h : k = a
    · subst h; simp [List.lookup]
    · have hb : (k == a) = false := by simpa using h
      simp [List.lookup, hb, ih, h]

theorem bindKw_eq (params : List String) (b kw : List (String × Val)) (hb : (b.map (·.1)).Nodup) :
    bindKw params b kw = if (∀ p ∈ kw, p.1 ∈ params) ∧ ((b ++ kw).map (·.1)).Nodup then .ok (b ++ kw) else .error .type := by
  induction kw generalizing b with
  | nil => rw [List.append_nil, if_pos ⟨by simp, hb⟩]; rfl
  | cons p kw ih =>
    obtain ⟨k, v⟩ := p
    unfold bindKw
    by_cases h1 : k ∈ params
    · rw [if_neg (by simpa using h1)]
      cases h2 : b.lookup k with
      | some w =>
        rw [if_pos (by simp), if_neg]
        rintro ⟨-, hn⟩
        have hk : k ∈ b.map (·.1) := by
          by_contra hc
          rw [(lookup_none_iff b k).2 hc] at h2
          cases h2
        rw [List.map_append, List.map_cons] at hn
        exact (List.disjoint_of_nodup_append hn) hk (List.mem_cons_self)
      | none =>
        have hk := (lookup_none_iff b k).1 h2
        have hb' : ((b ++ [(k, v)]).map (·.1)).Nodup := by
          rw [List.map_append, List.map_cons, List.map_nil, List.nodup_append]
          refine ⟨hb, by simp, ?_⟩
          intro a ha c hc
          rw [List.mem_singleton] at hc
          subst hc
          exact fun e => hk (e ▸ ha)
        rw [if_neg (by simp), ih _ hb']
        have e : b ++ [(k, v)] ++ kw = b ++ (k, v) :: kw := by simp
        rw [e]
        refine if_congr ?_ rfl rfl
        constructor
        · rintro ⟨a, c⟩
          refine ⟨fun p hp => ?_, c⟩
          rcases List.mem_cons.1 hp with rfl | hp
          · exact h1
          · exact a p hp
        · rintro ⟨a, c⟩
          exact ⟨fun p hp => a p (List.mem_cons_of_mem _ hp), c⟩
    · rw [if_pos h1, if_neg]
      rintro ⟨a, -⟩
      exact h1 (a (k, v) List.mem_cons_self)

theorem zip_keys (params : List String) (pos : List Val) (h : pos.length ≤ params.length) : (params.zip pos).map (·.1) = params.take pos.length := by
  induction params generalizing pos with
  | nil =>
    have : pos = [] := List.length_eq_zero_iff.1 (by simpa using h)
    subst this
    rfl
  | cons p ps ih =>
    cases pos with
    | nil => rfl
    | cons v vs =>
      have h' : vs.length ≤ ps.length := by simpa using h
      simpa using ih vs h'

theorem callOk_iff {params : List String} (hn : params.Nodup) (pos : List Val) (kw : List (String × Val)) (h : pos.length ≤ params.length) :
    ((∀ p ∈ kw, p.1 ∈ params) ∧ ((params.zip pos ++ kw).map (·.1)).Nodup) ↔ CallOk params pos kw := by
  rw [List.map_append, zip_keys params pos h, List.nodup_append]
  have hsplit := List.take_append_drop pos.length params
  have hdis : ∀ a ∈ params.take pos.length, ∀ b ∈ params.drop pos.length, a ≠ b := by
    rw [← hsplit, List.nodup_append] at hn
    exact hn.2.2
  constructor
  · rintro ⟨a, -, b, c⟩
    refine ⟨h, fun p hp => ?_, b⟩
    have := a p hp
    rw [← hsplit, List.mem_append] at this
    rcases this with this | this
    · exact absurd rfl (c _ this _ (List.mem_map.2 ⟨p, hp, rfl⟩))
    · exact this
  · rintro ⟨-, a, b⟩
    refine ⟨fun p hp => List.mem_of_mem_drop (a p hp), hn.sublist (List.take_sublist _ _), b, ?_⟩
    intro x hx y hy
    obtain ⟨p, hp, rfl⟩ := List.mem_map.1 hy
    exact hdis x hx _ (a p hp)

/-- **C166**: the binding of arguments is Python's -/
theorem C166_binding {params : List String} (hn : params.Nodup) (pos : List Val) (kw : List (String × Val)) :
    (CallOk params pos kw ∧ ∃ b, bindArgs params pos kw = .ok b ∧ ∀ k v, b.lookup k = some v ↔ Gets params pos kw k v) ∨
    (¬ CallOk params pos kw ∧ bindArgs params pos kw = .error .type) := by
  unfold bindArgs
  rw [bindPos_eq]
  by_cases h : pos.length ≤ params.length
  · rw [if_pos h]
    have hz : ((params.zip pos).map (·.1)).Nodup := by
      rw [zip_keys params pos h]
      exact hn.sublist (List.take_sublist _ _)
    simp only [bindKw_eq params _ kw hz]
    have hiff := callOk_iff hn pos kw h
    by_cases hc : CallOk params pos kw
    · have hc' := hiff.2 hc
      refine .inl ⟨hc, params.zip pos ++ kw, if_pos hc', fun k v => ?_⟩
      have look : ∀ (l : List (String × Val)), (l.map (·.1)).Nodup → (l.lookup k = some v ↔ (k, v) ∈ l) := by
        intro l hl
        induction l with
        | nil => simp
        | cons p l ih =>
          obtain ⟨a, w⟩ := p
          rw [List.map_cons, List.nodup_cons] at hl
          by_cases hk : k = a
          · subst hk
            simp only [List.lookup, beq_self_eq_true, Option.some.injEq, List.mem_cons, Prod.mk.injEq, true_and]
            constructor
            · intro e; exact .inl e.symm
            · rintro (e | e)
              · exact e.symm
              · exact absurd (List.mem_map.2 ⟨_, e, rfl⟩) hl.1
          · have hb : (k == a) = false := by simpa using hk
            simp [List.lookup, hb, ih hl.2, hk]
      rw [look _ hc'.2, List.mem_append]
      unfold Gets
      refine or_congr ?_ Iff.rfl
      rw [List.mem_iff_getElem?]
      refine exists_congr (fun i => ?_)
      rw [List.getElem?_zip_eq_some]
    · exact .inr ⟨hc, if_neg (fun k => hc (hiff.1 k))⟩
  · rw [if_neg h]
    exact .inr ⟨fun k => h k.1, rfl⟩

theorem seedOf_eq (v : Val) : seedOf v = if v = .none then .int 2022 else v := rfl

theorem base_kwAll (s : Settings) : ∃ a, baseInit [] (kwAll s) = .ok a ∧ Keeps s.randomState s.discreteTreatment s.discreteOutcome s.categories a :=
  ⟨_, rfl, ⟨rfl, rfl, rfl, rfl, rfl⟩⟩

/-- **C166**: every estimator that can be created keeps its settings and is not fitted: the meta learners (without further options), `DoubleML` and
`CausalForest`, `RLoss`, `DeepIV`, `DoublyRobust` and `CausalTree` (the treatment of which is always discrete), `ApproxBound` — for all values of the arguments -/
theorem C166_keeps (s : Settings) :
    (∀ a, metaInit s [] [] = .ok a → Keeps s.randomState (.bool true) s.discreteOutcome s.categories a) ∧
    (∀ x y cf ta tc o, dmlInit s x y cf ta tc = .ok o →
      Keeps s.randomState s.discreteTreatment s.discreteOutcome s.categories o.attrs ∧ o.cfFold = cf ∧ o.adjustmentTransformer = ta ∧ o.covariateTransformer = tc) ∧
    (∀ x y cf ta tc o, rlossInit s x y cf ta tc = .ok o →
      Keeps s.randomState s.discreteTreatment (.bool false) s.categories o.attrs ∧ o.cfFold = cf ∧ o.adjustmentTransformer = ta ∧ o.covariateTransformer = tc) ∧
    (∃ a, deepIVInit s = .ok a ∧ Keeps s.randomState s.discreteTreatment s.discreteOutcome s.categories a) ∧
    (∃ a, drInit s = .ok a ∧ Keeps s.randomState (.bool true) (.bool false) s.categories a) ∧
    (∃ a, boundInit s = .ok a ∧ Keeps s.randomState s.discreteTreatment (.bool false) s.categories a) := by
  have dml : ∀ s x y cf ta tc o, dmlInit s x y cf ta tc = .ok o →
      Keeps s.randomState s.discreteTreatment s.discreteOutcome s.categories o.attrs ∧ o.cfFold = cf ∧ o.adjustmentTransformer = ta ∧
        o.covariateTransformer = tc := by
    intro s x y cf ta tc o h
    unfold dmlInit at h
    split at h
    · obtain ⟨a, ha, hk⟩ := base_kwAll s
      rw [ha] at h
      injection h with h
      subst h
      exact ⟨hk, rfl, rfl, rfl⟩
    · cases h
  refine ⟨fun a h => ?_, dml s, fun x y cf ta tc o h => ?_, ?_, ?_, ?_⟩
  · unfold metaInit at h
    split at h
    case isFalse => cases h
    case isTrue ht =>
      split at h
      · obtain ⟨b, hb, hk⟩ := base_kwAll s
        rw [List.append_nil, hb] at h
        injection h with h
        subst h
        rw [ht] at hk
        exact hk
      · cases h
  · exact dml _ x y cf ta tc o h
  · exact base_kwAll s
  · exact ⟨_, rfl, ⟨rfl, rfl, rfl, rfl, rfl⟩⟩
  · exact ⟨_, rfl, ⟨rfl, rfl, rfl, rfl, rfl⟩⟩

/-- **C166**: a meta learner can be created exactly for a treatment declared discrete by `True`, probabilities only of a discrete outcome, no further positional
argument, and no further option but `_is_fitted` -/
theorem C166_meta_options (s : Settings) (pos : List Val) (kw : List (String × Val)) :
    (∃ a, metaInit s pos kw = .ok a) ↔ s.discreteTreatment = .bool true ∧ (s.proba.truthy = true → s.discreteOutcome.truthy = true) ∧ pos = [] ∧
      (kw = [] ∨ ∃ v, kw = [("_is_fitted", v)]) := by
  have hp : probaOk s = true ↔ (s.proba.truthy = true → s.discreteOutcome.truthy = true) := by
    unfold probaOk
    cases s.proba.truthy <;> simp
  have hn : baseParams.Nodup := by decide
  have hb : (∃ a, baseInit pos (kwAll s ++ kw) = .ok a) ↔ CallOk baseParams pos (kwAll s ++ kw) := by
    unfold baseInit
    rcases C166_binding hn pos (kwAll s ++ kw) with ⟨h1, b, h2, -⟩ | ⟨h1, h2⟩
    · rw [h2]; exact ⟨fun _ => h1, fun _ => ⟨_, rfl⟩⟩
    · rw [h2]; exact ⟨fun ⟨a, h⟩ => by simp at h, fun h => absurd h h1⟩
  have hc : CallOk baseParams pos (kwAll s ++ kw) ↔ pos = [] ∧ (kw = [] ∨ ∃ v, kw = [("_is_fitted", v)]) := by
    constructor
    · rintro ⟨h1, h2, h3⟩
      have hpos : pos = [] := by
        cases pos with
        | nil => rfl
        | cons v vs =>
          have := h2 ("random_state", s.randomState) (by simp [kwAll])
          have h4 : "random_state" ∈ baseParams.drop 1 := by
            have e : (v :: vs).length = 1 + vs.length := by simp; omega
            rw [e, ← List.drop_drop] at this
            exact List.mem_of_mem_drop this
          exact absurd h4 (by decide)
      refine ⟨hpos, ?_⟩
      subst hpos
      have key : ∀ p ∈ kw, p.1 = "_is_fitted" := by
        intro p hp
        have m := h2 p (List.mem_append_right _ hp)
        rw [List.map_append, List.nodup_append] at h3
        have d := h3.2.2
        simp only [List.length_nil, List.drop_zero, baseParams, List.mem_cons, List.not_mem_nil, or_false] at m
        have ne : ∀ k ∈ ["random_state", "is_discrete_treatment", "is_discrete_outcome", "categories"], p.1 ≠ k := by
          intro k hk e
          exact d k (by simpa [kwAll] using hk) p.1 (List.mem_map.2 ⟨p, hp, rfl⟩) e.symm
        rcases m with m | m | m | m | m
        · exact absurd m (ne _ (by simp))
        · exact absurd m (ne _ (by simp))
        · exact absurd m (ne _ (by simp))
        · exact m
        · exact absurd m (ne _ (by simp))
      cases kw with
      | nil => exact .inl rfl
      | cons p kw =>
        right
        obtain ⟨k, v⟩ := p
        have hk : k = "_is_fitted" := key (k, v) List.mem_cons_self
        subst hk
        cases kw with
        | nil => exact ⟨v, rfl⟩
        | cons q kw =>
          have hq := key q (by simp)
          rw [List.map_append, List.nodup_append] at h3
          have := h3.2.1
          simp [hq] at this
    · rintro ⟨rfl, rfl | ⟨v, rfl⟩⟩
      · refine ⟨by decide, fun p hp => ?_, by simp [kwAll]⟩
        simp only [List.append_nil, kwAll, List.mem_cons, List.not_mem_nil, or_false] at hp
        rcases hp with rfl | rfl | rfl | rfl <;> simp [baseParams]
      · refine ⟨by decide, fun p hp => ?_, by simp [kwAll]⟩
        simp only [kwAll, List.cons_append, List.nil_append, List.mem_cons, List.not_mem_nil, or_false] at hp
        rcases hp with rfl | rfl | rfl | rfl | rfl <;> simp [baseParams]
  unfold metaInit
  by_cases h1 : s.discreteTreatment = .bool true
  · rw [if_pos h1]
    by_cases h2 : probaOk s = true
    · rw [if_pos h2, hb, hc]
      exact ⟨fun h => ⟨h1, hp.1 h2, h⟩, fun h => h.2.2⟩
    · rw [if_neg h2]
      exact ⟨(fun ⟨a, h⟩ => by cases h), fun h => absurd (hp.2 h.2.1) h2⟩
  · rw [if_neg h1]
    exact ⟨(fun ⟨a, h⟩ => by cases h), fun h => absurd h.1 h1⟩

/-- **C166**: before `fit` the guard of the estimates refuses -/
theorem C166_guard {rs dt dO cat : Val} {a : Attrs} (h : Keeps rs dt dO cat a) : fittedGuard a = .error .exception := by
  unfold fittedGuard
  rw [h.fresh]
  rfl

/-- `NP2SLS`: the categories are passed in the place of the fitted tag. Whatever categories are given, the estimator works with `'auto'`; and it takes itself for
fitted — with the default, with every non-empty string and with every list of categories —, so that the guard lets estimates pass before `fit` -/
theorem C166_np2sls_refuted (s : Settings) : ∃ a, np2slsInit s = .ok a ∧ a.categories = .str "auto" ∧ a.isFitted = s.categories ∧
    (s.categories.truthy = true → fittedGuard a = .ok ()) ∧ a.randomState = seedOf s.randomState ∧ a.discreteTreatment = s.discreteTreatment ∧
    a.discreteOutcome = s.discreteOutcome := by
  refine ⟨_, rfl, rfl, rfl, fun h => ?_, rfl, rfl, rfl⟩
  exact if_pos h

example : ∃ a, np2slsInit ⟨.int 1, .bool false, .bool false, .str "auto", .none⟩ = .ok a ∧ fittedGuard a = .ok () := ⟨_, rfl, rfl⟩

/-- the forests forget their seed: the seed of every forest is 2022, whatever `random_state` is given; the other settings are kept -/
theorem C166_forest_seed_refuted (s : Settings) : ∃ a, forestInit s = .ok a ∧ a.randomState = .int 2022 ∧ a.discreteTreatment = s.discreteTreatment ∧
    a.discreteOutcome = s.discreteOutcome ∧ a.categories = s.categories ∧ a.isFitted = .bool false ∧
    ∀ rs, forestInit { s with randomState := rs } = forestInit s :=
  ⟨_, rfl, rfl, rfl, rfl, rfl, rfl, fun _ => rfl⟩

/-- **C166**: a permuted learner is created exactly from an unfitted learner for a discrete treatment, and keeps its settings -/
theorem C166_permuted (l : Attrs) :
    ((∃ a, permutedInit l = .ok a) ↔ l.discreteTreatment.truthy = true ∧ l.isFitted.truthy = false) ∧
    ∀ a, permutedInit l = .ok a → Keeps l.randomState l.discreteTreatment l.discreteOutcome l.categories a := by
  unfold permutedInit
  have hb : ∃ a, baseInit [] [("random_state", l.randomState), ("is_discrete_treatment", l.discreteTreatment), ("is_discrete_outcome", l.discreteOutcome),
      ("_is_fitted", .bool false), ("categories", l.categories)] = .ok a ∧ Keeps l.randomState l.discreteTreatment l.discreteOutcome l.categories a :=
    ⟨_, rfl, ⟨rfl, rfl, rfl, rfl, rfl⟩⟩
  obtain ⟨a, ha, hk⟩ := hb
  rw [ha]
  cases l.discreteTreatment.truthy <;> cases l.isFitted.truthy <;> simp
  exact hk

/-- no permuted learner can be made of the two-stage estimator with its default categories: it counts as fitted -/
theorem C166_permuted_np2sls_refuted (s : Settings) (h : s.categories.truthy = true) : ∃ a, np2slsInit s = .ok a ∧ permutedInit a = .error .assertion := by
  refine ⟨_, rfl, ?_⟩
  unfold permutedInit
  split
  · exact if_pos h
  · rfl

/-- **C166**: the base models of `DoubleML`: a model without a seed gets the one of the estimator, a seed set by the user is kept; so with a seed given, all
base models that take one have one -/
theorem C166_seeds (s : Settings) (x y : BaseModel) (cf ta tc : Val) (o : DmlObj) (h : dmlInit s x y cf ta tc = .ok o) :
    (∀ p ∈ [(x, o.xModel), (y, o.yModel)], p.2.seeded = p.1.seeded ∧ (p.1.seed ≠ .none → p.2 = p.1) ∧
      (p.1.seed = .none → p.1.seeded = true → p.2.seed = s.randomState)) ∧
    (s.randomState ≠ .none → ∀ m ∈ [o.xModel, o.yModel], m.seeded = true → m.seed ≠ .none) := by
  have hm : o.xModel = setSeed x s.randomState ∧ o.yModel = setSeed y s.randomState := by
    unfold dmlInit at h
    split at h
    · obtain ⟨a, ha, -⟩ := base_kwAll s
      rw [ha] at h
      injection h with h
      subst h
      exact ⟨rfl, rfl⟩
    · cases h
  have one : ∀ m : BaseModel, (setSeed m s.randomState).seeded = m.seeded ∧ (m.seed ≠ .none → setSeed m s.randomState = m) ∧
      (m.seed = .none → m.seeded = true → (setSeed m s.randomState).seed = s.randomState) ∧
      (s.randomState ≠ .none → m.seeded = true → (setSeed m s.randomState).seed ≠ .none) := by
    intro m
    unfold setSeed
    by_cases h1 : m.seeded = true
    · by_cases h2 : m.seed = .none
      · simp [h1, h2]
      · simp [h1, h2]
    · simp [h1]
  rw [hm.1, hm.2]
  refine ⟨fun p hp => ?_, fun hs m hm' => ?_⟩
  · simp only [List.mem_cons, List.not_mem_nil, or_false] at hp
    rcases hp with rfl | rfl
    · exact ⟨(one x).1, (one x).2.1, (one x).2.2.1⟩
    · exact ⟨(one y).1, (one y).2.1, (one y).2.2.1⟩
  · simp only [List.mem_cons, List.not_mem_nil, or_false] at hm'
    rcases hm' with rfl | rfl
    · intro hsd; exact (one x).2.2.2 hs (by rw [← (one x).1]; exact hsd)
    · intro hsd; exact (one y).2.2.2 hs (by rw [← (one y).1]; exact hsd)

/-- without a seed the attribute says 2022, but the base models stay unseeded -/
theorem C166_seeds_refuted (s : Settings) (h : s.randomState = .none) (x y : BaseModel) (cf ta tc : Val) (o : DmlObj)
    (ho : dmlInit s x y cf ta tc = .ok o) : o.attrs.randomState = .int 2022 ∧ o.xModel = x ∧ o.yModel = y := by
  have hk := ((C166_keeps s).2.1 x y cf ta tc o ho).1
  refine ⟨by rw [hk.seed, if_pos h], ?_⟩
  unfold dmlInit at ho
  split at ho
  · obtain ⟨a, ha, -⟩ := base_kwAll s
    rw [ha] at ho
    injection ho with ho
    subst ho
    have one : ∀ m : BaseModel, setSeed m s.randomState = m := by
      intro m
      unfold setSeed
      split
      · rename_i hc
        simp only [Bool.and_eq_true, decide_eq_true_eq] at hc
        cases m
        simp only at hc
        simp [h, hc.2]
      · rfl
    exact ⟨one x, one y⟩
  · cases ho

/-- `NaiveCausalForest`: the seed is taken for the transformer of the adjustment set, the treatment flag for that of the covariates, the categories for the
seed. With a number for a seed and a flag, as documented, no data with covariates or an adjustment set can be fitted. -/
theorem C166_naive_refuted (s : Settings) (x y : BaseModel) (xm ym yx cf : Val) (n : Int) (b : Bool) (h1 : s.randomState = .int n)
    (h2 : s.discreteTreatment = .bool b) :
    ∃ o, naiveInit s x y xm ym yx cf = .ok o ∧ o.attrs.discreteTreatment = .bool false ∧ o.attrs.randomState = seedOf s.categories ∧
      ∀ hasW hasV, hasW = true ∨ hasV = true → prepare o hasW hasV = .error .attr := by
  refine ⟨_, rfl, rfl, rfl, fun hasW hasV h => ?_⟩
  obtain ⟨r, t, d, c, p⟩ := s
  simp only at h1 h2
  subst h1 h2
  cases hasW <;> cases hasV <;> simp_all [prepare, argOf, List.lookup]

/-- the data preparation of `DoubleML.fit` wants, for each of the two groups of columns that are given, no transformer or an object -/
theorem C166_prepare (o : DmlObj) (hasW hasV : Bool) :
    prepare o hasW hasV = .ok () ↔
      (hasW = true → o.adjustmentTransformer = .none ∨ ∃ k, o.adjustmentTransformer = .obj k) ∧
      (hasV = true → o.covariateTransformer = .none ∨ ∃ k, o.covariateTransformer = .obj k) := by
  obtain ⟨a, x, y, w, v, cf⟩ := o
  cases hasW <;> cases hasV <;> cases w <;> cases v <;> simp [prepare]

/-! ### Non-vacuity -/

example : ∃ a, metaInit ⟨.int 5, .bool true, .bool true, .str "auto", .bool true⟩ [] [] = .ok a ∧ permutedInit a = .ok a := ⟨_, rfl, rfl⟩

example : ∃ o, dmlInit ⟨.int 5, .bool true, .bool false, .str "auto", .bool false⟩ ⟨true, .none⟩ ⟨true, .int 3⟩ (.int 1) .none .none = .ok o ∧
    o.xModel.seed = .int 5 ∧ o.yModel.seed = .int 3 := ⟨_, rfl, rfl, rfl⟩

end YL.Props
