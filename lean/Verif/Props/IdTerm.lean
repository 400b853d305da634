import Verif.Lib.IdGraph
import Mathlib.Tactic.Linarith

/-!
# C21: the ID algorithm terminates
-/

set_option linter.unusedSectionVars false

namespace YL.Props

open YL Spec

variable {α : Type} [DecidableEq α]

/-- The quantity that decreases in every recursive call. -/
def idMeasure (g : CG α) (x : List α) : Nat :=
  g.causation.keys.length * (g.causation.keys.length + 1) + (g.causation.keys.filter (· ∉ x)).length + 1

theorem length_lt_of_subset {l m : List α} (hl : l.Nodup) (hm : m.Nodup) (h : ∀ v ∈ l, v ∈ m) {a : α} (ha : a ∈ m)
    (ha' : a ∉ l) : l.length < m.length := by
  rw [← List.toFinset_card_of_nodup hl, ← List.toFinset_card_of_nodup hm]
  apply Finset.card_lt_card
  rw [Finset.ssubset_iff_of_subset (fun v hv => by simp at hv ⊢; exact h v hv)]
  exact ⟨a, by simpa using ha, by simpa using ha'⟩

theorem measure_smaller_graph {c : Causation α} {A : List (α × α)} {g g' : CG α} (h : Ind c A g) (h' : Ind c A g')
    (hsub : ∀ v ∈ g'.causation.keys, v ∈ g.causation.keys) {a : α} (ha : a ∈ g.causation.keys)
    (ha' : a ∉ g'.causation.keys) (x x' : List α) : idMeasure g' x' < idMeasure g x := by
  have h1 := length_lt_of_subset h'.keyNodup h.keyNodup hsub ha ha'
  unfold idMeasure
  have h2 : (g'.causation.keys.filter (· ∉ x')).length ≤ g'.causation.keys.length := List.length_filter_le _ _
  generalize g'.causation.keys.length = n at *
  generalize g.causation.keys.length = m at *
  have : n * (n + 1) + n + 1 ≤ m * (m + 1) := by
    obtain ⟨d, rfl⟩ : ∃ d, m = n + 1 + d := ⟨m - n - 1, by omega⟩
    nlinarith
  omega

theorem measure_more_treatments {c : Causation α} {A : List (α × α)} {g : CG α} (h : Ind c A g) {x x' : List α}
    (hx : ∀ v ∈ g.causation.keys, v ∉ x' → v ∉ x) {a : α} (ha : a ∈ g.causation.keys) (hax : a ∉ x) (hax' : a ∈ x') :
    idMeasure g x' < idMeasure g x := by
  unfold idMeasure
  have := length_lt_of_subset (l := g.causation.keys.filter (· ∉ x')) (m := g.causation.keys.filter (· ∉ x))
    (h.keyNodup.filter _) (h.keyNodup.filter _) (fun v hv => by
      simp only [List.mem_filter, decide_eq_true_eq] at hv ⊢
      exact ⟨hv.1, hx v hv.1 hv.2⟩) (a := a) (by simp [ha, hax]) (by simp [hax'])
  omega

/-- Recursive calls stay within the measure. -/
theorem id_stable {c : Causation α} {A : List (α × α)} (hac : Acyclic (Parent c)) : ∀ (f : Nat) (nested : Bool)
    (y x : List α) (prob : Prob α) (g : CG α), Ind c A g → idMeasure g x ≤ f →
    idAux f nested y x prob g ≠ .error .recursion ∧
    ∀ f' ≥ f, idAux f' nested y x prob g = idAux f nested y x prob g := by
  intro f
  induction f with
  | zero => intro _ _ x _ g _ h; unfold idMeasure at h; omega
  | succ f ih =>
    intro nested y x prob g hg hm
    obtain ⟨vtopo, ht, -⟩ := (C02_topoOrder g).1 (hg.acyclic hac)
    have key : ∀ f' ≥ f, idAux (f' + 1) nested y x prob g = idAux (f + 1) nested y x prob g ∧
        idAux (f + 1) nested y x prob g ≠ .error .recursion := by
      intro f' hf'
      rw [idAux, idAux]
      simp only [ht]
      by_cases hx : x = []
      · simp [hx]
      rw [if_neg hx, if_neg hx]
      by_cases han : g.causation.keys.any (· ∉ g.ancestors y) = true
      · rw [if_pos han, if_pos han]
        cases hb : g.buildSubGraph (g.ancestors y) with
        | error e =>
          refine ⟨rfl, ?_⟩
          unfold CG.buildSubGraph checkNodes at hb
          split at hb
          · cases hb
          · rename_i h1; split at h1
            · cases h1
            · cases h1; cases hb; simp
        | ok g' =>
          obtain ⟨g'', e1, e2, e3⟩ := hg.build (buildSubGraph_ok hb)
          rw [hb] at e1; cases e1
          rw [List.any_eq_true] at han
          obtain ⟨a, ha, hna⟩ := han
          have hlt := measure_smaller_graph hg e2 (fun v hv => buildSubGraph_ok hb v ((e3 v).1 hv)) ha
            (fun h => by simp at hna; exact hna ((e3 a).1 h)) x (x.filter (· ∈ g.ancestors y))
          obtain ⟨i1, i2⟩ := ih nested y (x.filter (· ∈ g.ancestors y))
            (restrictProb g.causation.keys (g.ancestors y) prob) g' e2 (by omega)
          exact ⟨i2 f' hf', i1⟩
      · rw [if_neg han, if_neg han]
        cases hr : g.removeIncoming x with
        | error e =>
          refine ⟨rfl, ?_⟩
          by_cases hxk : ∀ v ∈ x, v ∈ g.causation.keys
          · obtain ⟨g', e1, _⟩ := C07_removeIncoming_exact g hg.sync x hxk
            rw [hr] at e1; cases e1
          · unfold CG.removeIncoming checkNodes at hr
            rw [if_neg (by simpa using hxk)] at hr
            cases hr; simp
        | ok gx =>
          dsimp only
          by_cases hw : g.causation.keys.filter (fun a => a ∉ x ∧ a ∉ gx.ancestors y) ≠ []
          · rw [if_pos hw, if_pos hw]
            obtain ⟨a, ha⟩ := List.exists_mem_of_ne_nil _ hw
            have ha' := ha
            simp only [List.mem_filter, decide_eq_true_eq] at ha'
            have hlt := measure_more_treatments hg (x := x)
              (x' := x ++ g.causation.keys.filter (fun a => a ∉ x ∧ a ∉ gx.ancestors y))
              (fun v _ h h' => h (by simp [h'])) ha'.1 ha'.2.1 (List.mem_append_right _ ha)
            obtain ⟨i1, i2⟩ := ih nested y (x ++ g.causation.keys.filter (fun a => a ∉ x ∧ a ∉ gx.ancestors y)) prob g
              hg (by omega)
            exact ⟨i2 f' hf', i1⟩
          · rw [if_neg hw, if_neg hw]
            obtain ⟨R, hp, -⟩ := hg.comps hac x
            match hcs : (g.removeNodes x).cComponents with
            | [] => exact ⟨rfl, by simp⟩
            | [s] =>
              dsimp only
              by_cases h5 : setEq (g.cComponents.headD []) g.dag.nodes = true
              · rw [if_pos h5, if_pos h5]; exact ⟨rfl, by simp⟩
              · rw [if_neg h5, if_neg h5]
                by_cases h6 : g.cComponents.any (setEq s) = true
                · rw [if_pos h6, if_pos h6]
                  refine ⟨rfl, ?_⟩
                  unfold chainFactors
                  split
                  · rename_i h'; split at h' <;> cases h'; simp
                  · simp
                · rw [if_neg h6, if_neg h6]
                  cases hfind : g.cComponents.find? (fun sub => s.all (· ∈ sub)) with
                  | none => exact ⟨rfl, by simp⟩
                  | some sub =>
                    dsimp only
                    cases hch : chainFactors vtopo sub with
                    | error e =>
                      refine ⟨rfl, ?_⟩
                      unfold chainFactors at hch
                      split at hch <;> cases hch; simp
                    | ok ps =>
                      dsimp only
                      cases hb : g.buildSubGraph sub with
                      | error e =>
                        refine ⟨rfl, ?_⟩
                        unfold CG.buildSubGraph checkNodes at hb
                        split at hb
                        · cases hb
                        · rename_i h1; split at h1
                          · cases h1
                          · cases h1; cases hb; simp
                      | ok g' =>
                        obtain ⟨g'', e1, e2, e3⟩ := hg.build (buildSubGraph_ok hb)
                        rw [hb] at e1; cases e1
                        have hsub := List.mem_of_find?_eq_some hfind
                        have hp0 := hg.comps0 hac
                        obtain ⟨p1, p2, p3, p4⟩ := hp0
                        -- the component is a proper subset
                        have hprop : ∃ a ∈ g.causation.keys, a ∉ sub := by
                          by_contra hcon
                          push Not at hcon
                          apply h5
                          cases hcg : g.cComponents with
                          | nil => rw [hcg] at hsub; cases hsub
                          | cons c0 l =>
                            rw [List.headD_cons, setEq_iff]
                            rw [hcg] at p1 p2 p3 p4 hsub
                            have hc0 : c0 = sub := by
                              rcases List.mem_cons.1 hsub with h | h
                              · exact h.symm
                              · exfalso
                                rw [List.pairwise_cons] at p3
                                obtain ⟨v, hv⟩ := List.exists_mem_of_ne_nil _ (p1 c0 (by simp))
                                exact p3.1 sub h v hv (hcon v (hg.nodeKey ((p2 v).2 ⟨c0, by simp, hv⟩)))
                            subst hc0
                            intro v
                            exact ⟨fun hv => (p2 v).2 ⟨c0, by simp, hv⟩, fun hv => hcon v (hg.nodeKey hv)⟩
                        obtain ⟨a, ha, hna⟩ := hprop
                        have hlt := measure_smaller_graph hg e2 (fun v hv => buildSubGraph_ok hb v ((e3 v).1 hv)) ha
                          (fun h => hna ((e3 a).1 h)) x (x.filter (· ∈ sub))
                        obtain ⟨i1, i2⟩ := ih true y (x.filter (· ∈ sub)) (.mk [] [] [] ps) g' e2 (by omega)
                        dsimp only
                        rw [i2 f' hf']
                        refine ⟨rfl, ?_⟩
                        cases hi : idAux f true y (x.filter (· ∈ sub)) (.mk [] [] [] ps) g' with
                        | error e => rw [hi] at i1; simpa using i1
                        | ok r => simp
            | s :: t :: l =>
              dsimp only
              rw [hcs] at hp
              obtain ⟨p1, p2, p3, p4⟩ := hp
              have hrec : ∀ d ∈ s :: t :: l, idMeasure g (g.causation.keys.filter (· ∉ d)) < idMeasure g x := by
                intro d hd
                have hdk : ∀ v ∈ d, v ∈ g.dag.nodes ∧ v ∉ x := fun v hv => (p2 v).2 ⟨d, hd, hv⟩
                -- another component gives an element outside `d`
                have : ∃ a ∈ g.dag.nodes, a ∉ x ∧ a ∉ d := by
                  rw [List.pairwise_cons, List.pairwise_cons] at p3
                  obtain ⟨v, hv⟩ := List.exists_mem_of_ne_nil _ (p1 s (by simp))
                  obtain ⟨w, hw'⟩ := List.exists_mem_of_ne_nil _ (p1 t (by simp))
                  have hvk : v ∈ g.dag.nodes ∧ v ∉ x := (p2 v).2 ⟨s, by simp, hv⟩
                  have hwk : w ∈ g.dag.nodes ∧ w ∉ x := (p2 w).2 ⟨t, by simp, hw'⟩
                  rcases List.mem_cons.1 hd with rfl | hd
                  · exact ⟨w, hwk.1, hwk.2, fun h => p3.1 t (by simp) w h hw'⟩
                  · exact ⟨v, hvk.1, hvk.2, fun h => p3.1 d hd v hv h⟩
                obtain ⟨a, ha, hax, had⟩ := this
                refine measure_more_treatments hg (fun v hv h hvx => ?_) (hg.nodeKey ha) hax
                  (by simp [hg.nodeKey ha, had])
                simp only [List.mem_filter, decide_eq_true_eq, not_and, not_not] at h
                exact (hdk v (h hv)).2 hvx
              have hcongr : mapOk (fun c => idAux f' nested c (g.causation.keys.filter (· ∉ c)) prob g) (s :: t :: l) =
                  mapOk (fun c => idAux f nested c (g.causation.keys.filter (· ∉ c)) prob g) (s :: t :: l) :=
                mapOk_congr (fun d hd => (ih nested d (g.causation.keys.filter (· ∉ d)) prob g hg
                  (by have := hrec d hd; omega)).2 f' hf')
              rw [hcongr]
              refine ⟨rfl, ?_⟩
              cases hmo : mapOk (fun c => idAux f nested c (g.causation.keys.filter (· ∉ c)) prob g) (s :: t :: l) with
              | error e =>
                obtain ⟨d, hd, he⟩ := mapOk_err hmo
                have := (ih nested d (g.causation.keys.filter (· ∉ d)) prob g hg (by have := hrec d hd; omega)).1
                rw [he] at this
                simpa using this
              | ok rs => simp
    refine ⟨(key f le_rfl).2, fun f' hf' => ?_⟩
    obtain ⟨f'', rfl⟩ : ∃ f'', f' = f'' + 1 := ⟨f' - 1, by omega⟩
    exact (key f'' (by omega)).1

/-- C21. On every acyclic graph whose names are all declared, `id(y, x)` needs a recursion depth of at most
`(n + 1)²`, `n` the number of variables: every larger recursion budget gives the same answer (an expression, or an
exception other than running out of the budget). -/
theorem C21_id_terminates (c : Causation α) (A : List (α × α)) (hD : IsDict c) (hac : Acyclic (Parent c))
    (hc : ∀ u v, Parent c u v → u ∈ c.map (·.1)) (ha : ∀ u v, Paired A u v → u ∈ c.map (·.1)) (y x : List α) :
    ∃ r, r ≠ .error .recursion ∧ ∀ n ≥ (c.length + 1) ^ 2,
      (idAux n false y x (CG.init c A).prob (CG.init c A)).map (·.1) = r := by
  have hg := ind_init hD ⟨hc, ha⟩
  have hm : idMeasure (CG.init c A) x ≤ (c.length + 1) ^ 2 := by
    unfold idMeasure
    have h1 : (CG.init c A).causation.keys.length = c.length := by simp [CG.init, Causation.keys]
    have h2 : ((CG.init c A).causation.keys.filter (· ∉ x)).length ≤ c.length := by
      rw [← h1]; exact List.length_filter_le _ _
    rw [h1]
    nlinarith
  obtain ⟨h1, h2⟩ := id_stable hac _ false y x (CG.init c A).prob _ hg hm
  refine ⟨_, ?_, fun n hn => by rw [h2 n hn]⟩
  cases h : idAux ((c.length + 1) ^ 2) false y x (CG.init c A).prob (CG.init c A) with
  | error e => rw [h] at h1; simpa [Except.map] using h1
  | ok r => simp [Except.map]

/-- non-vacuity: the front-door graph; the budget of `CausalModel.id` in the model is that bound -/
example : (CG.init [("x", []), ("m", ["x"]), ("y", ["m"])] [("x", "y")]).id ["y"] ["x"] =
    .ok (.mk [] [] ["m"] [.mk [] [] [] [.mk ["m"] ["x"] [] []],
      .mk [] [] ["x"] [.mk ["x"] [] [] [], .mk ["y"] ["x", "m"] [] []]]) := by rfl

/-- C21, violation: if a cause is mentioned that is not a key of the causation (`CausalGraph({'x': [], 'y':
['x', 'u']})`), `id({'y'}, {'x'})` calls itself with the same arguments for ever, whatever the budget. -/
theorem C21_undeclared_cause_loops (n : Nat) :
    let g := CG.init [("x", []), ("y", ["x", "u"])] []
    idAux n false ["y"] ["x"] g.prob g = .error .recursion := by
  intro g
  induction n with
  | zero => rfl
  | succ n ih =>
    rw [idAux]
    have h1 : g.topoOrder = .ok ["x", "u", "y"] := by decide
    have h2 : g.causation.keys = ["x", "y"] := by decide
    have h3 : g.removeIncoming ["x"] = .ok g := by decide
    have h4 : (g.removeNodes ["x"]).cComponents = [["y"], ["u"]] := by decide
    have h5 : (["x", "y"].any (· ∉ g.ancestors ["y"])) = false := by decide
    have h6 : (["x", "y"].filter (fun a => a ∉ ["x"] ∧ a ∉ g.ancestors ["y"])) = [] := by decide
    have h7 : (["x", "y"].filter (· ∉ ["y"])) = ["x"] := by decide
    simp only [h1, h2, h3, h4, h5, h6, mapOk, h7, ih, reduceCtorEq, if_false, ne_eq, not_true, Bool.false_eq_true,
      List.cons_ne_nil]

end YL.Props
