import Verif.Model.CausalModel
import Verif.Props.Id
import Verif.Props.Frontdoor

/-!
# C96-C98: `identify`, `estimate` and `identify_estimate` of `CausalModel`
-/

set_option linter.unusedSectionVars false

namespace YL.Props

open YL Spec LatentNames CMod

variable {α : Type} [DecidableEq α] [LatentNames α] [CharNames α]

/-! ### Specification -/

/-- The call of the method for one kind of estimand, made directly with the arguments given to `identify`. -/
inductive DirectCall (ord : List α → List α) (g : CG α) (T Y : Arg α) : Method → Item α → Prop
  | id {p : Prob α} : g.id Y.asSet T.asSet = .ok p → DirectCall ord g T Y .general (.id p)
  | backdoor {a : Adjust} {b : Option (BackdoorList α × Prob α)} :
      getBackdoorSet ord g T.wrapped Y.wrapped a = .ok b → DirectCall ord g T Y (.backdoor a) (.backdoor b)
  | frontName {a : Adjust} {t y : α} {r : BackdoorList α × Prob α} : T = .name t → Y = .name y →
      (getFrontdoorSet ord g (.name t) (.name y) a).1 = .ok r → DirectCall ord g T Y (.frontdoor a) (.frontdoor r)
  | frontSet {a : Adjust} {t y : List α} {r : BackdoorList α × Prob α} : T = .set t → Y = .set y →
      (getFrontdoorSet ord g (.set t) (.set y) a).1 = .ok r → DirectCall ord g T Y (.frontdoor a) (.frontdoor r)

/-- the methods that `identify` runs -/
def parts : Method → List Method
  | .auto => [.general, .backdoor .simple, .frontdoor .simple]
  | .other => []
  | m => [m]

/-- the estimand of an entry -/
def estimand : Item α → Option (Prob α)
  | .id p => some p
  | .backdoor r => r.map (·.2)
  | .frontdoor r => some r.2

/-- the set of variables the overlap condition of an entry speaks about -/
def entrySet : Item α → List α
  | .id _ => []
  | .backdoor none => []
  | .backdoor (some r) => adjSet r.1
  | .frontdoor r => (frontSets r.1).headD []

/-! ### C96 -/

/-- the sets an answer of `get_backdoor_set` leaves behind on the object -/
def remembered (old : Option (List (List α))) : Except Err (Option (BackdoorList α × Prob α)) → Option (List (List α))
  | .ok (some (.sets l, _)) => some l
  | _ => old

theorem backdoor_ok {ord : List α → List α} {m m' : CM α} {T Y : Arg α} {a : Adjust}
    {b : Except Err (Option (BackdoorList α × Prob α))} (h : backdoor ord m T Y a = (b, m')) :
    getBackdoorSet ord m.graph T.wrapped Y.wrapped a = b ∧ m' = { m with adjustmentSet := remembered m.adjustmentSet b } := by
  unfold CMod.backdoor at h
  simp only at h
  generalize getBackdoorSet ord m.graph T.wrapped Y.wrapped a = r at h
  unfold remembered
  split at h
  · cases h
    exact ⟨rfl, rfl⟩
  · rename_i hne
    cases h
    refine ⟨rfl, ?_⟩
    split
    · exact absurd rfl (hne _ _)
    · rfl

theorem frontdoor_ok {ord : List α → List α} {m : CM α} {T Y T' Y' : Arg α} {a : Adjust}
    {r : BackdoorList α × Prob α} (h : frontdoor ord m T Y a = (.ok r, T', Y')) :
    DirectCall ord m.graph T Y (.frontdoor a) (.frontdoor r) ∧
    ((∃ t y, T = .name t ∧ Y = .name y ∧ T' = T ∧ Y' = Y) ∨
      (∃ t y, T = .set [t] ∧ Y = .set [y] ∧ T' = .set [] ∧ Y' = .set [])) := by
  unfold frontdoor at h
  split at h
  · rename_i t y
    simp only [Prod.mk.injEq] at h
    obtain ⟨h1, rfl, rfl⟩ := h
    exact ⟨.frontName rfl rfl h1, .inl ⟨t, y, rfl, rfl, rfl, rfl⟩⟩
  · rename_i t y
    split at h
    · rename_i r' t' y' he
      simp only [Prod.mk.injEq] at h
      obtain ⟨rfl, rfl, rfl⟩ := h
      have h1 : (getFrontdoorSet ord m.graph (.set t) (.set y) a).1 = .ok r := by rw [he]
      refine ⟨.frontSet rfl rfl h1, ?_⟩
      obtain ⟨r1, r2⟩ := r
      obtain ⟨t0, y0, hh, _⟩ := get_front h1
      rcases hh with ⟨e1, e2⟩ | ⟨e1, e2⟩
      · cases e1
        cases e2
        right
        refine ⟨t0, y0, rfl, rfl, ?_⟩
        unfold getFrontdoorSet at he
        split at he
        · cases he
        · simp only [Prod.mk.injEq, NameArg.set.injEq] at he
          rw [← he.2.1, ← he.2.2]
          exact ⟨rfl, rfl⟩
      · cases e1
    · rename_i r' t' y' hne he
      simp only [Prod.mk.injEq] at h
      obtain ⟨rfl, rfl, rfl⟩ := h
      have h1 : (getFrontdoorSet ord m.graph (.set t) (.set y) a).1 = .ok r := by rw [he]
      exfalso
      unfold getFrontdoorSet at he
      split at he
      · cases he
      · split at he
        · simp only [Prod.mk.injEq] at he
          exact hne _ _ he.2.1.symm he.2.2.symm
        · simp at he
        · simp_all
        · simp at he
  · split at h
    · cases h
    · split at h
      · split at h <;> cases h
      · cases h

/-- does the method look for front-door sets? -/
def usesFront : Method → Bool
  | .auto | .frontdoor _ => true
  | _ => false

/-- the remembered sets after `identify` -/
def adjAfter (old : Option (List (List α))) (get : Adjust → Except Err (Option (BackdoorList α × Prob α))) :
    Method → Option (List (List α))
  | .backdoor a => remembered old (get a)
  | .auto => remembered old (get .simple)
  | _ => old

theorem identify_ok {ord : List α → List α} {m m' : CM α} {T Y : Arg α} {method : Method} {items : List (Item α)}
    (h : identify ord m T Y method = (.ok items, m')) :
    (∀ v ∈ T.wrapped ++ Y.wrapped, v ∈ m.graph.causation.keys) ∧ method ≠ .other ∧
    List.Forall₂ (DirectCall ord m.graph T Y) (parts method) items ∧
    (∃ T' Y', m' = ⟨m.graph, some T', some Y',
        adjAfter m.adjustmentSet (getBackdoorSet ord m.graph T.wrapped Y.wrapped) method, m.cached ++ [((T', Y'), items)]⟩ ∧
      ((T' = T ∧ Y' = Y ∧ (usesFront method = true → ∃ t y, T = .name t ∧ Y = .name y)) ∨
        (usesFront method = true ∧ ∃ t y, T = .set [t] ∧ Y = .set [y] ∧ T' = .set [] ∧ Y' = .set []))) := by
  unfold identify at h
  split at h
  case isFalse => cases h
  split at h
  · cases h
  rename_i hck
  refine ⟨checkNodes_ok hck, ?_⟩
  simp only at h
  cases method with
  | auto =>
    simp only at h
    split at h
    · cases h
    rename_i p hid
    split at h
    · cases h
    rename_i b m2 hb
    obtain ⟨hb1, hb2⟩ := backdoor_ok hb
    simp only at hb1 hb2
    split at h
    · cases h
    rename_i f T' Y' hf
    obtain ⟨hf1, hf2⟩ := frontdoor_ok hf
    cases h
    subst hb2
    refine ⟨by simp, .cons (.id hid) (.cons (.backdoor hb1) (.cons hf1 .nil)), T', Y', ?_, ?_⟩
    · simp [CM.cache, hb1, adjAfter]
    · rcases hf2 with ⟨t, y, rfl, rfl, rfl, rfl⟩ | ⟨t, y, rfl, rfl, rfl, rfl⟩
      · exact .inl ⟨rfl, rfl, fun _ => ⟨t, y, rfl, rfl⟩⟩
      · exact .inr ⟨rfl, t, y, rfl, rfl, rfl, rfl⟩
  | general =>
    simp only at h
    split at h
    · cases h
    rename_i p hid
    cases h
    exact ⟨by simp, .cons (.id hid) .nil, T, Y, rfl, .inl ⟨rfl, rfl, by simp [usesFront]⟩⟩
  | backdoor a =>
    simp only at h
    split at h
    · cases h
    rename_i b m2 hb
    obtain ⟨hb1, hb2⟩ := backdoor_ok hb
    simp only at hb1 hb2
    cases h
    subst hb2
    refine ⟨by simp, .cons (.backdoor hb1) .nil, T, Y, ?_, .inl ⟨rfl, rfl, by simp [usesFront]⟩⟩
    simp [CM.cache, hb1, adjAfter]
  | frontdoor a =>
    simp only at h
    split at h
    · cases h
    rename_i f T' Y' hf
    obtain ⟨hf1, hf2⟩ := frontdoor_ok hf
    cases h
    refine ⟨by simp, .cons hf1 .nil, T', Y', rfl, ?_⟩
    rcases hf2 with ⟨t, y, rfl, rfl, rfl, rfl⟩ | ⟨t, y, rfl, rfl, rfl, rfl⟩
    · exact .inl ⟨rfl, rfl, fun _ => ⟨t, y, rfl, rfl⟩⟩
    · exact .inr ⟨rfl, t, y, rfl, rfl, rfl, rfl⟩
  | other => cases h

/-- C96. Whatever `identify` returns is, entry by entry, what the methods `id`, `get_backdoor_set` and
`get_frontdoor_set` return when they are called directly on the same graph with the same arguments; exactly the parts
asked for are present; the graph is untouched; and the answer is appended to the record of results. -/
theorem C96_same_answers (ord : List α → List α) (m m' : CM α) (T Y : Arg α) (method : Method) (items : List (Item α))
    (h : identify ord m T Y method = (.ok items, m')) :
    List.Forall₂ (DirectCall ord m.graph T Y) (parts method) items ∧ m'.graph = m.graph ∧
    (∃ key, m'.cached = m.cached ++ [(key, items)]) := by
  obtain ⟨_, _, h3, T', Y', rfl, _⟩ := identify_ok h
  exact ⟨h3, rfl, _, rfl⟩

/-- C96. Conversely, for arguments that are names in the graph and given as one-element sets, `identify` succeeds as
soon as every direct call does. -/
theorem C96_succeeds (ord : List α → List α) (m : CM α) (t y : α) (method : Method) (items : List (Item α))
    (ht : t ∈ m.graph.causation.keys) (hy : y ∈ m.graph.causation.keys) (hm : method ≠ .other)
    (h : List.Forall₂ (DirectCall ord m.graph (.set [t]) (.set [y])) (parts method) items) :
    (identify ord m (.set [t]) (.set [y]) method).1 = .ok items := by
  have hck : checkNodes m.graph.causation.keys ((Arg.set [t]).wrapped ++ (Arg.set [y]).wrapped) = .ok () :=
    checkNodes_of (by intro v hv; simp [Arg.wrapped] at hv; rcases hv with rfl | rfl <;> assumption)
  have hbd : ∀ (m1 : CM α) a b, m1.graph = m.graph → getBackdoorSet ord m.graph [t] [y] a = .ok b →
      ∃ m2 : CM α, backdoor ord m1 (.set [t]) (.set [y]) a = (.ok b, m2) ∧ m2.graph = m.graph := by
    intro m1 a b hg hb
    generalize hr : backdoor ord m1 (.set [t]) (.set [y]) a = r
    obtain ⟨r1, r2⟩ := r
    obtain ⟨e1, e2⟩ := backdoor_ok hr
    rw [hg] at e1
    have : r1 = .ok b := e1.symm.trans hb
    subst this
    exact ⟨r2, rfl, by rw [e2]; exact hg⟩
  have hfd : ∀ (m1 : CM α) a r, m1.graph = m.graph →
      (getFrontdoorSet ord m.graph (.set [t]) (.set [y]) a).1 = .ok r →
      frontdoor ord m1 (.set [t]) (.set [y]) a = (.ok r, .set [], .set []) := by
    intro m1 a r hg hr
    unfold frontdoor
    rw [hg]
    unfold getFrontdoorSet at hr ⊢
    split at hr
    · cases hr
    · rename_i hc
      simp only at hr ⊢
      rw [hc]
      simp only [hr]
  unfold identify
  rw [hck]
  simp only [Arg.truthy, List.isEmpty_cons, Bool.not_false, Bool.and_self, if_true]
  cases method with
  | auto =>
    simp only [parts] at h
    cases h with
    | cons h1 h2 => cases h2 with
      | cons h2 h3 => cases h3 with
        | cons h3 h4 =>
          cases h4
          cases h1 with
          | id h1 => cases h2 with
            | backdoor h2 =>
              simp only [h1]
              obtain ⟨m2, e1, e2⟩ := hbd { m with treatment := some (.set [t]), outcome := some (.set [y]) } .simple _ rfl h2
              rw [e1]
              cases h3 with
              | frontName k1 => cases k1
              | frontSet k1 k2 h3 =>
                cases k1
                cases k2
                simp only [hfd m2 .simple _ e2 h3]
  | general =>
    cases h with
    | cons h1 h2 =>
      cases h2
      cases h1 with
      | id h1 => simp only [h1]
  | backdoor a =>
    cases h with
    | cons h1 h2 =>
      cases h2
      cases h1 with
      | backdoor h1 =>
        obtain ⟨m2, e1, e2⟩ := hbd { m with treatment := some (.set [t]), outcome := some (.set [y]) } a _ rfl h1
        simp only [e1]
  | frontdoor a =>
    cases h with
    | cons h1 h2 =>
      cases h2
      cases h1 with
      | frontName k1 => cases k1
      | frontSet k1 k2 h3 =>
        cases k1
        cases k2
        simp only [hfd { m with treatment := some (.set [t]), outcome := some (.set [y]) } a _ rfl h3]
  | other => exact absurd rfl hm

/-- the front-door graph with a confounder-free instrument of the back-door path -/
def frontGraph : CG String := CG.init [("x", []), ("m", ["x"]), ("y", ["m"])] [("x", "y")]

/-- non-vacuity -/
example : (identify id (CM.new frontGraph) (.set ["x"]) (.set ["y"]) (.frontdoor .simple)).1.toOption.map
    (·.length) = some 1 := by decide +kernel
example : (identify id (CM.new (CG.init [("z", []), ("x", ["z"]), ("m", ["x"]), ("y", ["m", "z"])] []))
    (.set ["x"]) (.set ["y"]) .auto).1.toOption.map (·.length) = some 3 := by decide +kernel

theorem search_other (ord : List α → List α) (g : CG α) (d : MDG α) (X Y : List α) (r : BackdoorList α × Prob α) :
    backdoorSearch ord g d X Y .other ≠ .ok r := by
  intro h
  unfold backdoorSearch at h
  split at h
  · cases h
  · simp only at h
    split at h
    · cases h
    · split at h
      · cases h
      · simp at h

/-- an unknown style never yields an answer -/
theorem backdoor_other (ord : List α → List α) (g : CG α) (X Y : List α) (r : BackdoorList α × Prob α) :
    getBackdoorSet ord g X Y .other ≠ .ok (some r) := by
  intro h
  unfold getBackdoorSet at h
  split at h
  · cases h
  · split at h
    · cases h
    · simp only at h
      split at h
      · cases h
      · cases h
      · simp only [reduceCtorEq, if_false] at h
        split at h
        · cases h
        · rename_i hr
          exact search_other _ _ _ _ _ _ hr

/-- C96. On a causal diagram in which no variable is an end of two latent arcs, every estimand that
`identify({t}, {y})` returns equals `P(y | do(t))` in every discrete causal model of the diagram with positive
observational probabilities; so all the estimands in the answer agree. For the parents of the treatment as the
adjustment set (`auto` and `simple`) the treatment must not be confounded. -/
theorem C96_estimands_agree (c : Causation α) (A : List (α × α)) (hD : IsDict c) (h : IsDiagram c A U)
    (hp : ∀ u v, Parent c u v → u ∈ c.map (·.1)) (ha : ∀ u v, Paired A u v → u ∈ c.map (·.1))
    (hone : ∀ a b b', Paired A a b → Paired A a b' → b = b') :
    ∃ G, IsExplicit c A U G ∧ ∀ (ord : List α → List α), (∀ l, (ord l).Perm l) →
      ∀ (m m' : CM α) (t y : α) (method : Method) (items : List (Item α)), m.graph = CG.init c A →
      t ≠ y → OnEdge c y → ¬ Reach (Parent c) y t →
      ((method = .auto ∨ method = .backdoor .simple) → ∀ u, ¬ Paired A t u) →
      identify ord m (.set [t]) (.set [y]) method = (.ok items, m') →
      ∀ (V : Finset α), (∀ a b, G a b → a ∈ V ∧ b ∈ V) → (∀ k ∈ c.map (·.1), k ∈ V) →
      ∀ (Ω : α → Type) [∀ i, Fintype (Ω i)] (K : Type) [Field K] [LinearOrder K] [IsStrictOrderedRing K]
        (M : BayesNet (K := K) V G Ω), (∀ S v, M.P S v ≠ 0) →
        ∀ it ∈ items, ∀ p, estimand it = some p → ∀ v, eval M p v = M.Pdo {t} {y} v := by
  refine ⟨_, C08_explicit_faithful_partial c A h, fun ord hord m m' t y method items hg hty hy hyt hconf hid V hV hkV Ω _ K
    _ _ _ M hpos it hit p hest v => ?_⟩
  obtain ⟨hin, _, hf, _⟩ := identify_ok hid
  obtain ⟨part, hpart, hcall⟩ := forall₂_right hf hit
  rw [hg] at hcall hin
  have htk : t ∈ c.map (·.1) := hin t (by simp [Arg.wrapped])
  have e1 : ([t] : List α).toFinset = {t} := by simp
  have e2 : ([y] : List α).toFinset = {y} := by simp
  cases hcall with
  | id hcall =>
    cases hest
    have := disjoint_arcs_at c A hD h hp ha hone [t] [y] p (by simpa using htk)
      (by simp only [List.mem_singleton]; rintro v rfl; exact ⟨fun e => hty e.symm, .inl hy⟩) hcall V hV hkV Ω K M
      (fun v => hpos _ v) v
    rw [this, e1, e2]
  | @backdoor a b hcall =>
    cases b with
    | none => cases hest
    | some r =>
      obtain ⟨r, p'⟩ := r
      cases hest
      by_cases hs : a = .simple
      · subst hs
        have hm : method = .auto ∨ method = .backdoor .simple := by
          cases method <;> simp_all [parts]
        have := simple_expression_at c A hD h hp ord [t] [y] r p' (by simp) hcall
          (by simpa using hconf hm) (by simpa using hty)
          (by
            intro s x hx hps
            simp only [List.mem_singleton] at hx
            subst hx
            simp only [List.mem_singleton, forall_eq]
            refine ⟨?_, fun hr => ?_⟩
            · rintro rfl
              exact hyt (.single hps)
            · exact h.acyclic x (Relation.TransGen.tail' hr hps)) V hV hkV Ω K M
          (fun v _ => hpos _ v) v
        rw [this, e1, e2]
      · have ha' : a = .all ∨ a = .minimal := by
          cases a with
          | simple => exact absurd rfl hs
          | minimal => exact .inr rfl
          | all => exact .inl rfl
          | other => exact absurd hcall (backdoor_other _ _ _ _ _)
        have := backdoor_expression_at c A hD h ord hord [t] [y] a r p' ha' (by simp) hcall V hV hkV Ω K M
          (fun v _ => hpos _ v) v
        rw [this, e1, e2]
  | @frontName a t' y' r k1 => cases k1
  | @frontSet a t' y' r k1 k2 hcall =>
    cases k1
    cases k2
    cases hest
    obtain ⟨r, p'⟩ := r
    obtain ⟨t0, y0, hh, hval⟩ := frontdoor_expression_at c A hD h ord hord _ _ a r p' hcall
    rcases hh with ⟨k1, k2⟩ | ⟨k1, k2⟩
    · cases k1
      cases k2
      exact hval hty hy V hV Ω K M (fun v _ => hpos _ v) v (hpos _ v)
    · cases k1

/-- non-vacuity: a confounded chain with the fair-coin model; the answer has three entries -/
example : ∃ G, IsExplicit [("z", []), ("x", ["z"]), ("m", ["x"]), ("y", ["m", "z"])] [] (U (α := String)) G ∧
    ∃ items m', identify id (CM.new (CG.init [("z", []), ("x", ["z"]), ("m", ["x"]), ("y", ["m", "z"])] [])) (.set ["x"])
      (.set ["y"]) .auto = (.ok items, m') ∧ items.length = 3 ∧
    ∀ V : Finset String, (∀ a b, G a b → a ∈ V ∧ b ∈ V) → (∀ k ∈ ["z", "x", "m", "y"], k ∈ V) →
    ∀ it ∈ items, ∀ p, estimand it = some p → ∀ v, eval (fairCoins V G) p v = (fairCoins V G).Pdo {"x"} {"y"} v := by
  have hdec : ((identify id (CM.new (CG.init [("z", []), ("x", ["z"]), ("m", ["x"]), ("y", ["m", "z"])] [])) (.set ["x"])
      (.set ["y"]) .auto).1.toOption.map List.length) = some 3 := by decide +kernel
  obtain ⟨G, hE, hm⟩ := C96_estimands_agree (α := String) [("z", []), ("x", ["z"]), ("m", ["x"]), ("y", ["m", "z"])] []
    (by constructor <;> decide) (isDiagram_of_test _ _ (by decide))
    (by rintro u v ⟨ps, h, hu⟩
        simp at h
        rcases h with ⟨rfl, rfl⟩ | ⟨rfl, rfl⟩ | ⟨rfl, rfl⟩ | ⟨rfl, rfl⟩ <;> simp_all
        rcases hu with rfl | rfl <;> simp)
    (by rintro u v (h | h) <;> simp_all) (by rintro a b b' (h | h) (h' | h') <;> simp_all)
  refine ⟨G, hE, ?_⟩
  generalize hid : identify id (CM.new (CG.init [("z", []), ("x", ["z"]), ("m", ["x"]), ("y", ["m", "z"])] [])) (.set ["x"])
      (.set ["y"]) .auto = r at hdec ⊢
  obtain ⟨r1, m'⟩ := r
  cases r1 with
  | error e => cases hdec
  | ok items =>
    refine ⟨items, m', rfl, by simpa [Except.toOption] using hdec, fun V hV hk it hit p hp v => ?_⟩
    refine hm id (fun _ => List.Perm.refl _) _ m' "x" "y" .auto items rfl (by decide)
      ⟨"m", .inl ⟨["m", "z"], by decide, by decide⟩⟩ ?_ (fun _ u hu => by rcases hu with hu | hu <;> cases hu) hid V hV hk _ _
      (fairCoins V G) (fun S w => ne_of_gt (BayesNet.Positive.P_pos (fun _ _ _ => by norm_num [fairCoins]) _ w)) it hit p hp v
    intro hr
    have hout : ∀ w, ¬ Parent [("z", []), ("x", ["z"]), ("m", ["x"]), ("y", ["m", "z"])] "y" w := by
      rintro w ⟨ps, h, hu⟩
      simp at h
      rcases h with ⟨rfl, rfl⟩ | ⟨rfl, rfl⟩ | ⟨rfl, rfl⟩ | ⟨rfl, rfl⟩ <;> simp at hu
    rcases hr.cases_head with h0 | ⟨w, hw, _⟩
    · exact absurd h0 (by decide)
    · exact hout w hw

/-- C96. `identify` refuses an empty treatment or outcome, and treatments and outcomes that are not in the graph, before
anything is recorded: the object is unchanged. -/
theorem C96_refuses (ord : List α → List α) (m : CM α) (T Y : Arg α) (method : Method) :
    ((T = .set [] ∨ T = .list [] ∨ Y = .set [] ∨ Y = .list []) → identify ord m T Y method = (.error .assertion, m)) ∧
    ((∃ l v, (T = .set l ∨ T = .list l ∨ Y = .set l ∨ Y = .list l) ∧ v ∈ l ∧ v ∉ m.graph.causation.keys) →
      ∃ e, identify ord m T Y method = (.error e, m)) := by
  constructor
  · intro h
    have hf : (T.truthy && Y.truthy) = false := by
      rcases h with rfl | rfl | rfl | rfl <;> simp [Arg.truthy]
    unfold identify
    rw [if_neg (by rw [hf]; simp)]
  · rintro ⟨l, v, h, hv, hno⟩
    unfold identify
    by_cases ht : (T.truthy && Y.truthy) = true
    · rw [if_pos ht]
      have hmem : v ∈ T.wrapped ++ Y.wrapped := by
        rcases h with rfl | rfl | rfl | rfl <;> simp [Arg.wrapped, hv]
      cases hck : checkNodes m.graph.causation.keys (T.wrapped ++ Y.wrapped) with
      | error e => exact ⟨e, rfl⟩
      | ok u => exact absurd (checkNodes_ok hck v hmem) hno
    · rw [if_neg ht]
      exact ⟨_, rfl⟩

/-- C96, violation: with multi-letter names as strings the general method fails although it succeeds for the same names
as sets: strings are split into characters. -/
theorem C96_general_names_refuted :
    (identify id (CM.new (CG.init [("zz", []), ("xx", ["zz"]), ("yy", ["xx", "zz"])] [])) (.name "xx") (.name "yy")
      .general).1.toOption.map List.length = none ∧
    (identify id (CM.new (CG.init [("zz", []), ("xx", ["zz"]), ("yy", ["xx", "zz"])] [])) (.set ["xx"]) (.set ["yy"])
      .general).1.toOption.map List.length = some 1 := by decide +kernel

/-- C96, violation: with a list as the treatment or the outcome, `auto` (the default) and the front-door methods never
return, whatever the graph. -/
theorem C96_lists_refuted (ord : List α → List α) (m : CM α) (T Y : Arg α) (method : Method) (hm : usesFront method = true)
    (hl : (∃ l, T = .list l) ∨ (∃ l, Y = .list l)) : ∃ e, (identify ord m T Y method).1 = .error e := by
  generalize hid : identify ord m T Y method = r
  obtain ⟨r1, m'⟩ := r
  cases r1 with
  | error e => exact ⟨e, rfl⟩
  | ok items =>
    exfalso
    obtain ⟨_, _, _, _, _, _, h | h⟩ := identify_ok hid
    · obtain ⟨t, y, rfl, rfl⟩ := h.2.2 hm
      rcases hl with ⟨l, hl⟩ | ⟨l, hl⟩ <;> cases hl
    · obtain ⟨_, t, y, rfl, rfl, _⟩ := h
      rcases hl with ⟨l, hl⟩ | ⟨l, hl⟩ <;> cases hl

/-- C96, violation: with the name of a treatment one of whose characters is not itself a variable, `auto` and the
front-door methods never return, whatever the graph. -/
theorem C96_names_refuted (ord : List α → List α) (m : CM α) (t : α) (Y : Arg α) (method : Method)
    (hm : usesFront method = true) (ch : α) (hch : ch ∈ CharNames.chars t) (hno : ch ∉ m.graph.causation.keys) :
    ∃ e, (identify ord m (.name t) Y method).1 = .error e := by
  generalize hid : identify ord m (.name t) Y method = r
  obtain ⟨r1, m'⟩ := r
  cases r1 with
  | error e => exact ⟨e, rfl⟩
  | ok items =>
    exfalso
    obtain ⟨_, _, hf, _⟩ := identify_ok hid
    have hfd : ∃ a r, DirectCall ord m.graph (.name t) Y (.frontdoor a) (.frontdoor r) := by
      cases method with
      | auto => cases hf with | cons _ h => cases h with | cons _ h => cases h with | cons h _ =>
                  cases h with
                  | frontName k1 k2 k3 => exact ⟨_, _, .frontName k1 k2 k3⟩
                  | frontSet k1 => cases k1
      | frontdoor a => cases hf with | cons h _ =>
                  cases h with
                  | frontName k1 k2 k3 => exact ⟨_, _, .frontName k1 k2 k3⟩
                  | frontSet k1 => cases k1
      | _ => cases hm
    obtain ⟨a, r, h⟩ := hfd
    cases h with
    | frontSet k1 => cases k1
    | frontName k1 k2 k3 =>
      cases k1
      cases k2
      unfold getFrontdoorSet at k3
      split at k3
      · cases k3
      · rename_i hck
        exact hno (checkNodes_ok hck ch (by simp [NameArg.asSet, hch]))

/-- non-vacuity of the last theorem -/
example : "t" ∈ CharNames.chars "treatment" := by decide +kernel

/-- C96, violation: when `identify` succeeds with `auto` or a front-door method on sets, the caller's two sets are empty
afterwards, and so are the treatment and the outcome that the object remembers. -/
theorem C96_emptied_refuted (ord : List α → List α) (m m' : CM α) (T Y : List α) (method : Method) (items : List (Item α))
    (hm : usesFront method = true) (h : identify ord m (.set T) (.set Y) method = (.ok items, m')) :
    m'.treatment = some (.set []) ∧ m'.outcome = some (.set []) ∧
      m'.cached = m.cached ++ [((.set [], .set []), items)] := by
  obtain ⟨_, _, _, T', Y', rfl, h | h⟩ := identify_ok h
  · obtain ⟨t, y, k, _⟩ := h.2.2 hm
    cases k
  · obtain ⟨_, t, y, _, _, rfl, rfl⟩ := h
    exact ⟨rfl, rfl, rfl⟩

/-- C96, violation: `auto` raises as soon as one method does: the effect of `x` on `y` below has an identification and a
back-door set, but no front-door set. -/
theorem C96_all_or_nothing_refuted :
    (identify id (CM.new (CG.init [("z", []), ("x", ["z"]), ("y", ["x", "z"])] [])) (.set ["x"]) (.set ["y"])
      .auto).1.toOption.map List.length = none ∧
    (identify id (CM.new (CG.init [("z", []), ("x", ["z"]), ("y", ["x", "z"])] [])) (.set ["x"]) (.set ["y"])
      .general).1.toOption.map List.length = some 1 ∧
    (identify id (CM.new (CG.init [("z", []), ("x", ["z"]), ("y", ["x", "z"])] [])) (.set ["x"]) (.set ["y"])
      (.backdoor .all)).1.toOption.map List.length = some 1 := by decide +kernel

/-! ### C97: `estimate` -/

theorem checkCols_ok {cols names : List α} (h : checkCols cols names = .ok ()) : ∀ v ∈ names, v ∈ cols := by
  unfold checkCols at h
  split at h
  · rename_i h'
    simpa using h'
  · cases h

/-- the two arguments as one set of names -/
def given (adjustment covariate : Option (Arg α)) : Set α :=
  {v | (∃ a, adjustment = some a ∧ v ∈ a.asSet) ∨ (∃ a, covariate = some a ∧ v ∈ a.asSet)}

theorem mem_tempSet {adjustment covariate : Option (Arg α)} {v : α} :
    v ∈ tempSet adjustment covariate ↔ v ∈ given adjustment covariate := by
  unfold tempSet given
  cases adjustment <;> cases covariate <;> simp

/-- C97. If `estimate` returns for a user-given adjustment set or covariates, then all names are columns of the data, a
treatment and an outcome have been identified before, and the union of the two sets blocks every back-door path from the
identified treatment to the identified outcome (they are d-separated by it once the edges out of the treatment are
deleted); an unfitted estimator is then fitted with exactly the arguments given. -/
theorem C97_validated (c : Causation α) (A : List (α × α)) (hD : IsDict c) (h : IsDiagram c A U) :
    ∃ G, IsExplicit c A U G ∧ ∀ (ord : List α → List α) (m : CM α) (cols : List α) (fitted : Bool)
      (treatment outcome adjustment covariate : Option (Arg α)) (r : Option (FitArgs α)), m.graph = CG.init c A →
      (adjustment ≠ none ∨ covariate ≠ none) →
      estimate ord m cols fitted treatment outcome adjustment covariate = .ok r →
      ∃ T0 Y0, m.treatment = some T0 ∧ m.outcome = some Y0 ∧
        (∀ v ∈ given adjustment covariate, v ∈ c.keys) ∧
        ((∀ s ∈ given adjustment covariate, s ∉ T0.wrapped ∧ s ∉ Y0.wrapped) →
          DSep (CutOut G {a | a ∈ T0.wrapped}) {a | a ∈ T0.wrapped} {a | a ∈ Y0.wrapped} (given adjustment covariate)) ∧
        (fitted = true → r = none) ∧
        (fitted = false → r = some ⟨if treatment = none then some T0 else treatment,
          if outcome = none then some Y0 else outcome, adjustment, covariate⟩) := by
  refine ⟨_, C08_explicit_faithful_partial c A h, fun ord m cols fitted treatment outcome adjustment covariate r hg hgiven hok => ?_⟩
  unfold estimate at hok
  split at hok
  · cases hok
  split at hok
  · cases hok
  simp only at hok
  rw [if_neg (by rintro ⟨rfl, rfl⟩; rcases hgiven with h | h <;> exact h rfl)] at hok
  split at hok
  case h_2 => cases hok
  rename_i T0 Y0 hT hY
  split at hok
  · cases hok
  · cases hok
  rename_i hv
  rw [hg] at hv
  have hmem : {a | a ∈ tempSet adjustment covariate} = given adjustment covariate := Set.ext fun v => mem_tempSet
  refine ⟨T0, Y0, by first | rfl | exact hT, by first | rfl | exact hY, ?_, ?_, ?_, ?_⟩
  · intro v hv'
    unfold isValidBackdoorSet at hv
    split at hv
    · cases hv
    rename_i hck
    exact checkNodes_ok hck v (by simp [mem_tempSet.2 hv'])
  · intro hdis
    have := (valid_dsep hD h hv (fun s hs => hdis s (mem_tempSet.1 hs))).1 rfl
    rwa [hmem] at this
  · rintro rfl
    cases hok
    rfl
  · rintro rfl
    cases hok
    simp only [hT, hY, Bool.false_eq_true, if_false]

/-- C97. If `estimate` returns, all names in its arguments are columns of the data, and the adjustment set and the covariates
are variables of the graph. -/
theorem C97_columns (ord : List α → List α) (m : CM α) (cols : List α) (fitted : Bool)
    (treatment outcome adjustment covariate : Option (Arg α)) (r : Option (FitArgs α))
    (h : estimate ord m cols fitted treatment outcome adjustment covariate = .ok r) (l : List α) :
    (∀ a : Option (Arg α), (a = treatment ∨ a = outcome ∨ a = adjustment ∨ a = covariate) →
      (a = some (.set l) ∨ a = some (.list l)) → ∀ v ∈ l, v ∈ cols) ∧
    (∀ a : Option (Arg α), (a = adjustment ∨ a = covariate) →
      (a = some (.set l) ∨ a = some (.list l)) → ∀ v ∈ l, v ∈ m.graph.causation.keys) := by
  have hmem : ∀ a : Option (Arg α), (a = some (.set l) ∨ a = some (.list l)) → ∀ v ∈ l, v ∈ optNames a := by
    intro a ha v hv
    have hne : l ≠ [] := List.ne_nil_of_mem hv
    rcases ha with rfl | rfl <;> simp [optNames, Arg.truthy, Arg.wrapped, hne, hv]
  unfold estimate at h
  cases h1 : checkCols cols (optNames treatment ++ optNames outcome ++ optNames adjustment ++ optNames covariate) with
  | error e => rw [h1] at h; cases h
  | ok u =>
    rw [h1] at h
    simp only at h
    cases h2 : checkNodes m.graph.causation.keys (optNames adjustment ++ optNames covariate) with
    | error e => rw [h2] at h; cases h
    | ok u2 =>
      constructor
      · intro a ha hal v hv
        have h3 := hmem a hal v hv
        apply checkCols_ok h1
        rcases ha with rfl | rfl | rfl | rfl <;> simp [h3]
      · intro a ha hal v hv
        have h3 := hmem a hal v hv
        apply checkNodes_ok h2
        rcases ha with rfl | rfl <;> simp [h3]

/-- non-vacuity -/
example : estimate id { CM.new (CG.init [("z", []), ("x", ["z"]), ("y", ["x", "z"])] []) with
      treatment := some (.list ["x"]), outcome := some (.list ["y"]) } ["x", "y", "z"] false none none (some (.list ["z"])) none =
    .ok (some ⟨some (.list ["x"]), some (.list ["y"]), some (.list ["z"]), none⟩) := by decide +kernel
example : estimate id { CM.new (CG.init [("z", []), ("x", ["z"]), ("y", ["x", "z"])] []) with
      treatment := some (.list ["x"]), outcome := some (.list ["y"]) } ["x", "y", "z"] false none none none (some (.list [])) =
    .error .assertion := by decide +kernel

/-- C97. After `identify(T, Y, ('backdoor', 'all'))` or `('backdoor', 'minimal')` has returned a set on a causal diagram,
`estimate` with no further arguments fits an unfitted estimator for `T` and `Y` with an adjustment set that satisfies the
back-door criterion for them. -/
theorem C97_after_identify (c : Causation α) (A : List (α × α)) (hD : IsDict c) (h : IsDiagram c A U) :
    ∃ G, IsExplicit c A U G ∧ ∀ (ord : List α → List α), (∀ l, (ord l).Perm l) →
      ∀ (m m' : CM α) (T Y : Arg α) (a : Adjust) (r : BackdoorList α × Prob α) (cols : List α), m.graph = CG.init c A →
      (a = .all ∨ a = .minimal) →
      identify ord m T Y (.backdoor a) = (.ok [.backdoor (some r)], m') →
      ∃ S : List α, BackDoor G {v | v ∈ T.wrapped} {v | v ∈ Y.wrapped} {v | v ∈ S} ∧
        estimate ord m' cols false none none none none = .ok (some ⟨some T, some Y, some (.set S), none⟩) := by
  refine ⟨_, C08_explicit_faithful_partial c A h, fun ord hord m m' T Y a r cols hg ha hid => ?_⟩
  obtain ⟨hin, _, hf, T', Y', hm', hTY⟩ := identify_ok hid
  obtain ⟨rfl, rfl⟩ : T' = T ∧ Y' = Y := by
    rcases hTY with ⟨e1, e2, _⟩ | ⟨e, _⟩
    · exact ⟨e1, e2⟩
    · cases e
  cases hf with
  | cons hc _ =>
    cases hc with
    | backdoor hc =>
      obtain ⟨r1, r2⟩ := r
      rw [hg] at hc
      obtain ⟨S, rest, rfl, hS, hb⟩ := head_admissible hD h hord ha hc
      refine ⟨S, hb, ?_⟩
      have hadj : m'.adjustmentSet = some (S :: rest) := by
        rw [hm']
        show remembered _ _ = _
        rw [hg, hc]
        rfl
      have hT : m'.treatment = some T' := by rw [hm']
      have hY : m'.outcome = some Y' := by rw [hm']
      unfold estimate
      simp [checkCols, checkNodes, optNames, defaultAdjustment, hadj, hT, hY]

/-- non-vacuity -/
example : (identify id (CM.new (CG.init [("z", []), ("x", ["z"]), ("y", ["x", "z"])] [])) (.name "x") (.name "y")
      (.backdoor .minimal)).1.toOption.map List.length = some 1 ∧
    estimate id (identify id (CM.new (CG.init [("z", []), ("x", ["z"]), ("y", ["x", "z"])] [])) (.name "x") (.name "y")
      (.backdoor .minimal)).2 ["x", "y", "z"] false none none none none =
      .ok (some ⟨some (.name "x"), some (.name "y"), some (.set ["z"]), none⟩) := by decide +kernel

/-- C97. With neither an adjustment set nor covariates, and no set remembered, `estimate` fits with the parents of the
identified treatment as the adjustment set (the back-door criterion holds under the conditions of C14). -/
theorem C97_default_partial (c : Causation α) (A : List (α × α)) (hD : IsDict c) (h : IsDiagram c A U) :
    ∃ G, IsExplicit c A U G ∧ ∀ (ord : List α → List α) (m : CM α) (T Y : Arg α) (cols : List α) (r : FitArgs α),
      m.graph = CG.init c A → m.treatment = some T → m.outcome = some Y → m.adjustmentSet = none →
      estimate ord m cols false none none none none = .ok (some r) →
      ∃ S : List α, r = ⟨some T, some Y, some (.list S), none⟩ ∧ (∀ s, s ∈ S ↔ ∃ x ∈ T.wrapped, Parent c s x) ∧
        ((∀ x ∈ T.wrapped, ∀ u, ¬ Paired A x u) → (∀ x ∈ T.wrapped, x ∉ Y.wrapped) →
          (∀ s ∈ S, s ∉ Y.wrapped ∧ ∀ x ∈ T.wrapped, ¬ Reach (Parent c) x s) →
          BackDoor G {v | v ∈ T.wrapped} {v | v ∈ Y.wrapped} {v | v ∈ S}) := by
  refine ⟨_, C08_explicit_faithful_partial c A h, fun ord m T Y cols r hg hT hY ha hok => ?_⟩
  unfold estimate at hok
  simp only [checkCols, checkNodes, optNames, defaultAdjustment, ha, hT, hY, List.append_nil, List.all_nil, if_true,
    and_self] at hok
  generalize hr : backdoor ord m T Y .simple = res at hok
  obtain ⟨b, m2⟩ := res
  obtain ⟨e1, e2⟩ := backdoor_ok hr
  rw [hg] at e1
  simp only at hok
  split at hok
  · cases hok
  · rename_i a hd
    simp only [Bool.false_eq_true, if_false, Except.ok.injEq, Option.some.injEq] at hok
    split at hd
    · cases hd
    · rename_i l p
      cases hd
      obtain ⟨S, hS, k1, k2⟩ := simple_admissible hD h e1
      cases hS
      exact ⟨l, hok.symm, k1, k2⟩
    · cases hd
    · cases hd

/-- non-vacuity -/
example : estimate id { CM.new (CG.init [("z", []), ("x", ["z"]), ("y", ["x", "z"])] []) with
      treatment := some (.list ["x"]), outcome := some (.list ["y"]) } ["x", "y", "z"] false none none none none =
    .ok (some ⟨some (.list ["x"]), some (.list ["y"]), some (.list ["z"]), none⟩) := by decide +kernel

/-- two treatments with one confounder each -/
def twoTreatments : CG String :=
  CG.init [("z", []), ("v", []), ("x", ["z"]), ("w", ["v"]), ("y", ["x", "z", "w", "v"])] []

/-- C97, violation: the set remembered by an earlier call for another treatment is used. After identifying `x` with
`minimal` and then `w` with `simple`, the effect of `w` is estimated with the set found for `x`, which is not a back-door
set for `w`. -/
theorem C97_stale_refuted :
    estimate id (identify id (identify id (CM.new twoTreatments) (.name "x") (.name "y") (.backdoor .minimal)).2
      (.name "w") (.name "y") (.backdoor .simple)).2 ["x", "y", "z", "v", "w"] false none none none none =
      .ok (some ⟨some (.name "w"), some (.name "y"), some (.set ["z"]), none⟩) ∧
    isValidBackdoorSet twoTreatments ["z"] ["w"] ["y"] = .ok false := by decide +kernel

/-- C97, violation: the sets are validated for the identified treatment, not for the one given to `estimate`. -/
theorem C97_override_refuted :
    estimate id (identify id (CM.new twoTreatments) (.name "x") (.name "y") .general).2 ["x", "y", "z", "v", "w"] false
      (some (.name "w")) none (some (.list ["z"])) none =
      .ok (some ⟨some (.name "w"), some (.name "y"), some (.list ["z"]), none⟩) ∧
    estimate id (identify id (CM.new twoTreatments) (.name "x") (.name "y") .general).2 ["x", "y", "z", "v", "w"] false
      (some (.name "w")) none (some (.list ["v"])) none = .error .assertion ∧
    isValidBackdoorSet twoTreatments ["z"] ["w"] ["y"] = .ok false ∧
    isValidBackdoorSet twoTreatments ["v"] ["w"] ["y"] = .ok true := by decide +kernel

/-- C97, violation: after the default `identify` on sets the object remembers an empty treatment, for which every set
passes: here the mediator `m` of the effect is accepted as the adjustment set. -/
theorem C97_after_auto_refuted :
    estimate id (identify id (CM.new (CG.init [("z", []), ("x", ["z"]), ("m", ["x"]), ("y", ["m", "z"])] [])) (.set ["x"])
      (.set ["y"]) .auto).2 ["x", "y", "z", "m"] false none none (some (.list ["m"])) none =
      .ok (some ⟨some (.set []), some (.set []), some (.list ["m"]), none⟩) ∧
    isValidBackdoorSet (CG.init [("z", []), ("x", ["z"]), ("m", ["x"]), ("y", ["m", "z"])] []) ["m"] ["x"] ["y"] =
      .ok false := by decide +kernel

/-- C97. Without an earlier `identify` the call raises a TypeError as soon as the names are known. -/
theorem C97_before_identify (ord : List α → List α) (g : CG α) (cols : List α) (fitted : Bool)
    (treatment outcome adjustment covariate : Option (Arg α)) :
    ∃ e, estimate ord (CM.new g) cols fitted treatment outcome adjustment covariate = .error e := by
  unfold estimate
  split
  · exact ⟨_, rfl⟩
  split
  · exact ⟨_, rfl⟩
  simp only
  split
  · exact ⟨.type, rfl⟩
  · exact ⟨.type, rfl⟩

/-! ### C98: `identify_estimate` -/

/-- C98, violation: `identify_estimate` never returns, whatever the graph, the data, the names and the style, for any
estimator that refuses a probability expression as the name of its covariates: the loop runs over the pair (sets,
expression) instead of over the sets. -/
theorem C98_never_returns_refuted {F R : Type} (ord : List α → List α) (m : CM α) (cols : List α) (E : Estimator α F R)
    (original : Option F) (T Y : Arg α) (adjust : Adjust) (hE : ∀ T Y p, ∃ e, E.fit T Y (.prob p) = .error e) :
    ∃ e, identifyEstimate ord m cols E original T Y adjust = .error e := by
  unfold identifyEstimate
  split
  · exact ⟨_, rfl⟩
  split
  · exact ⟨_, rfl⟩
  split
  · exact ⟨_, rfl⟩
  · exact ⟨_, rfl⟩
  rename_i l p _
  unfold estLoop
  split
  · exact ⟨_, rfl⟩
  split
  · exact ⟨_, rfl⟩
  unfold estLoop
  obtain ⟨e, he⟩ := hE T Y p
  rw [he]
  exact ⟨_, rfl⟩

/-- C98, violation: an estimator that is not fitted when it is handed over is never asked after a successful fit: the
copies are fitted, the original is asked. -/
theorem C98_original_asked_refuted {F R : Type} (ord : List α → List α) (m : CM α) (cols : List α) (E : Estimator α F R)
    (T Y : Arg α) (adjust : Adjust) (hE : ∃ e, E.estimate none = .error e) :
    ∃ e, identifyEstimate ord m cols E none T Y adjust = .error e := by
  unfold identifyEstimate
  split
  · exact ⟨_, rfl⟩
  split
  · exact ⟨_, rfl⟩
  split
  · exact ⟨_, rfl⟩
  · exact ⟨_, rfl⟩
  rename_i l p _
  unfold estLoop
  split
  · exact ⟨_, rfl⟩
  obtain ⟨e, he⟩ := hE
  rw [he]
  exact ⟨_, rfl⟩

/-- C98, violation: with the default style no estimator at all makes the call return. -/
theorem C98_default_refuted {F R : Type} (ord : List α → List α) (m : CM α) (cols : List α) (E : Estimator α F R)
    (original : Option F) (T Y : Arg α) :
    ∃ e, identifyEstimate ord m cols E original T Y .other = .error e := by
  unfold identifyEstimate
  split
  · exact ⟨_, rfl⟩
  split
  · exact ⟨_, rfl⟩
  split
  · exact ⟨_, rfl⟩
  · exact ⟨_, rfl⟩
  rename_i l p hb
  exfalso
  generalize hr : backdoor ord m T Y .other = res at hb
  obtain ⟨b, m2⟩ := res
  obtain ⟨e1, _⟩ := backdoor_ok hr
  simp only at hb
  rw [hb] at e1
  exact backdoor_other _ _ _ _ _ e1

/-- non-vacuity: an estimator of the kind the first two theorems speak about -/
example : ∃ E : Estimator String Unit Nat, (∀ T Y p, ∃ e, E.fit T Y (.prob p) = .error e) ∧ (∃ e, E.estimate none = .error e) ∧
    E.estimate (some ()) = .ok 1 :=
  ⟨⟨fun _ _ c => match c with | .answer _ => .ok () | .prob _ => .error .key,
    fun f => match f with | none => .error .exception | some _ => .ok 1⟩, fun _ _ _ => ⟨_, rfl⟩, ⟨_, rfl⟩, rfl⟩

end YL.Props
