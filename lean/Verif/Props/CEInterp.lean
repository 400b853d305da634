import Verif.Model.CEInterp
import Verif.Props.Importance
import Mathlib.Tactic.Abel

/-!
# C130: `CEInterpreter`
-/

set_option linter.unusedSectionVars false

namespace YL.Spec
open YL YL.Tree

variable {K : Type} [Field K] [LinearOrder K] {d : Nat}

/-- the covariates of a row, by position -/
def covAt (l : List K) : Nat → K := fun i => l.getD i 0

/-- the effects of the training rows that pass through node `i` -/
def effectsThrough (nodes : List (Node K (Fin d → K))) (v : List (List K)) (es : List (Fin d → K)) (i : Nat) : List (Fin d → K) :=
  ((v.zip es).filter (fun p => reaches nodes (covAt p.1) i)).map (fun p => p.2)

/-- the average effect -/
def averageEff (es : List (Fin d → K)) : Fin d → K := fun k => (es.map (fun e => e k)).sum / (es.length : K)

end YL.Spec

namespace YL.Props
open YL YL.Tree YL.Spec

section
variable {C K : Type} [DecidableEq C] [Field K] [LinearOrder K] [IsStrictOrderedRing K] {d : Nat}

/-- what is needed of sklearn's regression tree (squared error): a proper tree for as many features as the training rows have, in which
training rows pass through every node and the value of a leaf is the average of its training rows -/
def Regressor (grow : List (List K) → List (Fin d → K) → Except Err (CEInterp.SkTree K d)) : Prop :=
  ∀ v es t, grow v es = .ok t → Proper t.nodes ∧ (∀ r ∈ v, r.length = t.nFeatures) ∧
    ∀ i n, t.nodes[i]? = some n → effectsThrough t.nodes v es i ≠ [] ∧ (n.left = none → n.value = averageEff (effectsThrough t.nodes v es i))

/-- the tree with one leaf is such a tree -/
def stump (v : List (List K)) (es : List (Fin d → K)) : Except Err (CEInterp.SkTree K d) :=
  match v, es with
  | r :: _, _ :: _ =>
    if v.all (fun q => decide (q.length = r.length)) ∧ v.length = es.length then
      .ok ⟨r.length, [⟨none, none, 0, 0, 0, v.length, averageEff es⟩]⟩
    else .error .value
  | _, _ => .error .value

theorem through_root {nodes : List (Node K (Fin d → K))} (h0 : 0 < nodes.length) {v : List (List K)} {es : List (Fin d → K)}
    (hl : v.length = es.length) : effectsThrough nodes v es 0 = es := by
  unfold effectsThrough
  have : ∀ q : Nat → K, reaches nodes q 0 = true := by
    intro q
    unfold reaches
    rw [List.any_eq_true]
    exact ⟨0, List.mem_range.mpr h0, by simp [walk]⟩
  simp only [this, List.filter_true]
  exact List.map_snd_zip (by omega)

theorem stump_regressor : Regressor (K := K) (d := d) stump := by
  intro v es t h
  unfold stump at h
  split at h
  · rename_i r v' e es'
    by_cases hc : (r :: v').all (fun q => decide (q.length = r.length)) ∧ (r :: v').length = (e :: es').length
    · rw [if_pos hc] at h
      cases h
      obtain ⟨h1, h2⟩ := hc
      refine ⟨⟨?_, ?_, by simp⟩, ?_, ?_⟩
      · intro i n hi
        cases i with
        | zero => simp at hi; subst hi; exact Or.inl ⟨rfl, rfl⟩
        | succ i => simp at hi
      · simp [childIds]
      · intro q hq
        simpa using List.all_eq_true.mp h1 q hq
      · intro i n hi
        cases i with
        | zero =>
          rw [through_root (by simp) h2]
          simp at hi; subst hi
          exact ⟨by simp, fun _ => rfl⟩
        | succ i => simp at hi
    · rw [if_neg hc] at h; cases h
  · cases h

theorem path_reaches {V : Type} {nodes : List (Node K V)} (h : Proper nodes) (q : Nat → K) (i : Nat) :
    i ∈ decisionPath nodes q ↔ reaches nodes q i = true := by
  have h0 := h.pos
  obtain ⟨_, _, _, _, _, a6⟩ := pathFrom_spec h.fwd q nodes.length 0 (by omega) h0
  unfold decisionPath
  rw [a6]
  unfold reaches
  rw [List.any_eq_true]
  simp only [List.mem_range, decide_eq_true_eq]
  constructor
  · rintro ⟨k, hk, e⟩
    by_cases hkl : k = nodes.length
    · refine ⟨nodes.length - 1, by omega, ?_⟩
      rw [← e, hkl]
      obtain ⟨p1, p2⟩ := proper_walk h q (nodes.length - 1)
      obtain ⟨n, hn⟩ : ∃ n, nodes[walk nodes q (nodes.length - 1) 0]? = some n := ⟨nodes[walk nodes q (nodes.length - 1) 0]'p1, by simp⟩
      have hlf : n.left = none := by
        rcases h.fwd _ n hn with ⟨a, _⟩ | ⟨l, r, a, b, c1, c2, c3, c4⟩
        · exact a
        · rcases p2 with p2 | p2
          · simp [isLeafAt, hn, a, b] at p2
          · omega
      have := walk_add (nodes := nodes) q (nodes.length - 1) 1 0
      rw [walk_at_leaf hn hlf] at this
      rw [← this]
      congr 1
      omega
    · exact ⟨k, by omega, e⟩
  · rintro ⟨k, hk, e⟩
    exact ⟨k, hk.le, e⟩

theorem effectsAt_through {nodes : List (Node K (Fin d → K))} (h : Proper nodes) (v : List (List K)) (es : List (Fin d → K))
    (i : Nat) : CEInterp.effectsAt nodes v es i = effectsThrough nodes v es i := by
  unfold CEInterp.effectsAt effectsThrough
  congr 1
  apply List.filter_congr
  intro p _
  rw [Bool.eq_iff_iff, decide_eq_true_eq]
  exact path_reaches h _ i

/-- the two children of a node share out its rows -/
theorem sum_children {V A B : Type} [AddCommMonoid B] {nodes : List (Node K V)} (h : Proper nodes) {i l r : Nat} {n : Node K V}
    (hi : nodes[i]? = some n) (hl : n.left = some l) (hr : n.right = some r) (g : A → List K) (f : A → B) (L : List A) :
    ((L.filter (fun p => reaches nodes (covAt (g p)) i)).map f).sum =
      ((L.filter (fun p => reaches nodes (covAt (g p)) l)).map f).sum +
      ((L.filter (fun p => reaches nodes (covAt (g p)) r)).map f).sum := by
  have hne := proper_sides h hi hl hr
  have hL : ∀ q : Nat → K, reaches nodes q l = true ↔ reaches nodes q i = true ∧ q n.feature ≤ n.threshold := by
    intro q
    rw [proper_reaches h hi (c := l) (by simp [hl])]
    by_cases hq : q n.feature ≤ n.threshold
    · simp [hq, hl]
    · simp [hq, hr, hne]
  have hR : ∀ q : Nat → K, reaches nodes q r = true ↔ reaches nodes q i = true ∧ ¬ q n.feature ≤ n.threshold := by
    intro q
    rw [proper_reaches h hi (c := r) (by simp [hr])]
    by_cases hq : q n.feature ≤ n.threshold
    · simp [hq, hl, hne.symm]
    · simp [hq, hr]
  induction L with
  | nil => simp
  | cons a L ih =>
    have e1 := hL (covAt (g a))
    have e2 := hR (covAt (g a))
    by_cases c1 : reaches nodes (covAt (g a)) i = true
    · by_cases c2 : covAt (g a) n.feature ≤ n.threshold
      · have f1 := e1.mpr ⟨c1, c2⟩
        have f2 : reaches nodes (covAt (g a)) r = false := by
          rw [Bool.eq_false_iff]; intro hh; exact (e2.mp hh).2 c2
        simp only [List.filter_cons, c1, f1, f2, if_true, List.map_cons, List.sum_cons, ih]
        simp only [Bool.false_eq_true, if_false]
        abel
      · have f1 := e2.mpr ⟨c1, c2⟩
        have f2 : reaches nodes (covAt (g a)) l = false := by
          rw [Bool.eq_false_iff]; intro hh; exact c2 (e1.mp hh).2
        simp only [List.filter_cons, c1, f1, f2, if_true, List.map_cons, List.sum_cons, ih]
        simp only [Bool.false_eq_true, if_false]
        abel
    · have c1' : reaches nodes (covAt (g a)) i = false := by simpa using c1
      have f1 : reaches nodes (covAt (g a)) l = false := by
        rw [Bool.eq_false_iff]; intro hh; exact c1 (e1.mp hh).1
      have f2 : reaches nodes (covAt (g a)) r = false := by
        rw [Bool.eq_false_iff]; intro hh; exact c1 (e2.mp hh).1
      simp only [List.filter_cons, c1', f1, f2]
      simpa using ih

variable {sqrt : K → K} {grow : List (List K) → List (Fin d → K) → Except Err (CEInterp.SkTree K d)}
  {fr : CEInterp.Frame C K} {m : CEInterp.EstModel C K d} {s : CEInterp.Interp C K d}

/-- what a successful `fit` establishes -/
structure CEFacts (sqrt : K → K) (grow : List (List K) → List (Fin d → K) → Except Err (CEInterp.SkTree K d))
    (fr : CEInterp.Frame C K) (m : CEInterp.EstModel C K d) (s : CEInterp.Interp C K d) (es : List (Fin d → K)) : Prop where
  fitted : m.fitted = true
  cov : m.covariate = some s.covariate
  tr : s.transformer = m.transformer
  est : m.estimate fr = .ok es
  sel : ∃ raw, CEInterp.selectCols fr s.covariate = .ok raw ∧ s.v = CEInterp.transform m.transformer raw ∧ es.length = raw.length
  grown : grow s.v es = .ok s.tree
  dict : s.nodeDict = (List.range s.tree.nodes.length).map (fun i =>
    (CEInterp.meanOf (CEInterp.effectsAt s.tree.nodes s.v es i), CEInterp.stdOf sqrt (CEInterp.effectsAt s.tree.nodes s.v es i)))

theorem transform_length (tr : Option (List K → List K)) (v : List (List K)) : (CEInterp.transform tr v).length = v.length := by
  cases tr <;> simp [CEInterp.transform]

theorem ceFit_ok (h : CEInterp.fit sqrt grow fr m = .ok s) : ∃ es, CEFacts sqrt grow fr m s es := by
  unfold CEInterp.fit at h
  by_cases h1 : m.fitted = false
  · rw [if_pos h1] at h; cases h
  · rw [if_neg h1] at h
    cases hc : m.covariate with
    | none => rw [hc] at h; cases h
    | some cov =>
      rw [hc] at h
      simp only [] at h
      cases hs : CEInterp.selectCols fr cov with
      | error e => rw [hs] at h; cases h
      | ok raw =>
        rw [hs] at h
        simp only [] at h
        cases he : m.estimate fr with
        | error e => rw [he] at h; cases h
        | ok es =>
          rw [he] at h
          simp only [] at h
          by_cases hl : es.length ≠ raw.length
          · rw [if_pos hl] at h; cases h
          · rw [if_neg hl] at h
            cases hg : grow (CEInterp.transform m.transformer raw) es with
            | error e => rw [hg] at h; cases h
            | ok t =>
              rw [hg] at h
              cases h
              exact ⟨es, by simpa using h1, hc, rfl, he, ⟨raw, hs, rfl, by omega⟩, hg, rfl⟩

theorem CEFacts.len {es : List (Fin d → K)} (h : CEFacts sqrt grow fr m s es) : s.v.length = es.length := by
  obtain ⟨raw, _, e, l⟩ := h.sel
  rw [e, transform_length, l]

/-- **C130.** `fit` succeeds only for a fitted estimator with covariates that the data frame has; then `node_dict_` has one entry per node
of the tree: the mean and the standard deviation of the effects `estimate(data)` of exactly those training rows that pass through it. -/
theorem C130_node_dict (hg : Regressor grow) (h : CEInterp.fit sqrt grow fr m = .ok s) :
    m.fitted = true ∧ m.covariate = some s.covariate ∧ (∀ c ∈ s.covariate, c ∈ fr.cols) ∧
    ∃ es, m.estimate fr = .ok es ∧ es.length = fr.rows.length ∧ s.nodeDict.length = s.tree.nodes.length ∧
      ∀ i < s.tree.nodes.length, ∃ e, s.nodeDict[i]? = some e ∧ e.1 = averageEff (effectsThrough s.tree.nodes s.v es i) ∧
        ∀ k, e.2 k = sqrt (((effectsThrough s.tree.nodes s.v es i).map (fun u => (u k - averageEff (effectsThrough s.tree.nodes s.v es i) k) ^ 2)).sum /
          ((effectsThrough s.tree.nodes s.v es i).length : K)) := by
  obtain ⟨es, f⟩ := ceFit_ok h
  obtain ⟨hP, _, _⟩ := hg _ _ _ f.grown
  obtain ⟨raw, hs, _, hl⟩ := f.sel
  unfold CEInterp.selectCols at hs
  by_cases hall : s.covariate.all (fun c => decide (c ∈ fr.cols)) = true
  · rw [if_pos hall] at hs
    cases hs
    refine ⟨f.fitted, f.cov, ?_, es, f.est, by simpa using hl, by rw [f.dict]; simp, ?_⟩
    · intro c hc
      simpa using List.all_eq_true.mp hall c hc
    · intro i hi
      refine ⟨_, by rw [f.dict, List.getElem?_map, List.getElem?_range hi]; rfl, ?_, ?_⟩
      · show CEInterp.meanOf _ = _
        rw [effectsAt_through hP]
        rfl
      · intro k
        show CEInterp.stdOf sqrt _ k = _
        rw [effectsAt_through hP]
        rfl
  · rw [if_neg hall] at hs; cases hs

/-- **C130.** The means of the nodes fit together: the root has the mean of all effects, and the (by row counts) weighted mean of a node is the sum
of those of its two children; no node is empty. -/
theorem C130_means_consistent (hg : Regressor grow) (h : CEInterp.fit sqrt grow fr m = .ok s) (es : List (Fin d → K))
    (he : m.estimate fr = .ok es) :
    (∃ e, s.nodeDict[0]? = some e ∧ e.1 = averageEff es) ∧
    (∀ i < s.tree.nodes.length, 0 < (effectsThrough s.tree.nodes s.v es i).length) ∧
    ∀ i n l r, s.tree.nodes[i]? = some n → n.left = some l → n.right = some r →
      (effectsThrough s.tree.nodes s.v es i).length = (effectsThrough s.tree.nodes s.v es l).length + (effectsThrough s.tree.nodes s.v es r).length ∧
      ∃ ei el er, s.nodeDict[i]? = some ei ∧ s.nodeDict[l]? = some el ∧ s.nodeDict[r]? = some er ∧ ∀ k,
        ((effectsThrough s.tree.nodes s.v es i).length : K) * ei.1 k =
          ((effectsThrough s.tree.nodes s.v es l).length : K) * el.1 k + ((effectsThrough s.tree.nodes s.v es r).length : K) * er.1 k := by
  obtain ⟨es', f⟩ := ceFit_ok h
  have : es' = es := by have := f.est; rw [he] at this; cases this; rfl
  subst this
  obtain ⟨hP, _, hne⟩ := hg _ _ _ f.grown
  have hget : ∀ i < s.tree.nodes.length, s.nodeDict[i]? = some (averageEff (effectsThrough s.tree.nodes s.v es' i),
      CEInterp.stdOf sqrt (effectsThrough s.tree.nodes s.v es' i)) := by
    intro i hi
    rw [f.dict, List.getElem?_map, List.getElem?_range hi]
    simp only [Option.map_some, effectsAt_through hP]
    rfl
  have hpos : ∀ i < s.tree.nodes.length, 0 < (effectsThrough s.tree.nodes s.v es' i).length := by
    intro i hi
    obtain ⟨n, hn⟩ : ∃ n, s.tree.nodes[i]? = some n := ⟨s.tree.nodes[i], by simp [hi]⟩
    exact List.length_pos_iff.mpr (hne i n hn).1
  refine ⟨⟨_, hget 0 hP.pos, ?_⟩, hpos, ?_⟩
  · rw [through_root hP.pos f.len]
  · intro i n l r hi hl hr
    have hil : i < s.tree.nodes.length := (List.getElem?_eq_some_iff.mp hi).1
    obtain ⟨c3, c4⟩ : l < s.tree.nodes.length ∧ r < s.tree.nodes.length := by
      rcases hP.fwd i n hi with ⟨a, b⟩ | ⟨l', r', a, b, _, _, c3, c4⟩
      · rw [hl] at a; cases a
      · rw [hl] at a; rw [hr] at b; cases a; cases b; exact ⟨c3, c4⟩
    refine ⟨?_, _, _, _, hget i hil, hget l c3, hget r c4, ?_⟩
    · have := sum_children hP hi hl hr (fun p : List K × (Fin d → K) => p.1) (fun _ => 1) (s.v.zip es')
      unfold effectsThrough
      simpa using this
    · intro k
      have hm : ∀ j < s.tree.nodes.length, ((effectsThrough s.tree.nodes s.v es' j).length : K) *
          averageEff (effectsThrough s.tree.nodes s.v es' j) k = ((effectsThrough s.tree.nodes s.v es' j).map (fun e => e k)).sum := by
        intro j hj
        unfold averageEff
        have : ((effectsThrough s.tree.nodes s.v es' j).length : K) ≠ 0 := by
          have := hpos j hj
          exact_mod_cast this.ne'
        field_simp
      rw [hm i hil, hm l c3, hm r c4]
      have := sum_children hP hi hl hr (fun p : List K × (Fin d → K) => p.1) (fun p => p.2 k) (s.v.zip es')
      unfold effectsThrough
      simp only [List.map_map]
      exact this

/-- a row ends in a leaf, and the leaf is the only leaf it passes through -/
theorem apply_leaf {V : Type} {nodes : List (Node K V)} (h : Proper nodes) (q : Nat → K) :
    ∃ n, nodes[apply nodes q]? = some n ∧ n.left = none ∧ reaches nodes q (apply nodes q) = true := by
  obtain ⟨⟨n, a, b, _⟩, _, c, _⟩ := pathFrom_spec h.fwd q nodes.length 0 (by omega) h.pos
  exact ⟨n, a, b, (path_reaches h q _).mp c⟩

theorem leaf_unique {V : Type} {nodes : List (Node K V)} (h : Proper nodes) (q : Nat → K) {i : Nat} {n : Node K V}
    (hi : nodes[i]? = some n) (hl : n.left = none) (hr : reaches nodes q i = true) : apply nodes q = i := by
  obtain ⟨_, _, _, a4, _, _⟩ := pathFrom_spec h.fwd q nodes.length 0 (by omega) h.pos
  have hm := (path_reaches h q i).mpr hr
  by_contra hne
  obtain ⟨m, m1, m2⟩ := (a4 i hm).2 (fun e => hne e.symm)
  rw [hi] at m1
  cases m1
  exact m2 hl

theorem walk_pred (s : CEInterp.Interp C K d) (h : Proper s.tree.nodes) (q : Nat → K) {i : Nat} {n : Node K (Fin d → K)}
    (hi : s.tree.nodes[i]? = some n) (hl : n.left = none) (hr : reaches s.tree.nodes q i = true) :
    Tree.predict s.tree.nodes q = some n.value := by
  unfold Tree.predict
  rw [leaf_unique h q hi hl hr, hi]
  rfl

/-- **C130.** What the tree predicts for a row is the mean recorded in `node_dict_` for the leaf the row ends in. -/
theorem C130_prediction_is_leaf_mean (hg : Regressor grow) (h : CEInterp.fit sqrt grow fr m = .ok s) (row : List K) :
    ∃ i e n, s.tree.nodes[i]? = some n ∧ n.left = none ∧ reaches s.tree.nodes (covAt row) i = true ∧
      s.nodeDict[i]? = some e ∧ Tree.predict s.tree.nodes (covAt row) = some e.1 := by
  obtain ⟨es, f⟩ := ceFit_ok h
  obtain ⟨hP, _, hne⟩ := hg _ _ _ f.grown
  obtain ⟨n, a, b, c⟩ := apply_leaf hP (covAt row)
  have hil := (List.getElem?_eq_some_iff.mp a).1
  refine ⟨_, (averageEff (effectsThrough s.tree.nodes s.v es (apply s.tree.nodes (covAt row))),
      CEInterp.stdOf sqrt (effectsThrough s.tree.nodes s.v es (apply s.tree.nodes (covAt row)))), n, a, b, c, ?_, ?_⟩
  · rw [f.dict, List.getElem?_map, List.getElem?_range hil]
    simp only [Option.map_some, effectsAt_through hP]
    rfl
  · rw [walk_pred s hP _ a b c, (hne _ n a).2 b]

/-- **C130.** The tree keeps averages: over the training rows, the predictions have the same total (hence the same mean, the average
treatment effect) as the effects they interpret. -/
theorem C130_calibrated (hg : Regressor grow) (h : CEInterp.fit sqrt grow fr m = .ok s) (es : List (Fin d → K))
    (he : m.estimate fr = .ok es) (k : Fin d) :
    (s.v.map (fun row => ((Tree.predict s.tree.nodes (covAt row)).getD (fun _ => 0)) k)).sum = (es.map (fun e => e k)).sum := by
  obtain ⟨es', f⟩ := ceFit_ok h
  have : es' = es := by have := f.est; rw [he] at this; cases this; rfl
  subst this
  obtain ⟨hP, _, hne⟩ := hg _ _ _ f.grown
  let F : List K × (Fin d → K) → K := fun p => ((Tree.predict s.tree.nodes (covAt p.1)).getD (fun _ => 0)) k
  let G : List K × (Fin d → K) → K := fun p => p.2 k
  have key : ∀ fuel i, i < s.tree.nodes.length → s.tree.nodes.length - i ≤ fuel →
      (((s.v.zip es').filter (fun p => reaches s.tree.nodes (covAt p.1) i)).map F).sum =
      (((s.v.zip es').filter (fun p => reaches s.tree.nodes (covAt p.1) i)).map G).sum := by
    intro fuel
    induction fuel with
    | zero => intro i h1 h2; omega
    | succ fuel ih =>
      intro i h1 h2
      obtain ⟨n, hn⟩ : ∃ n, s.tree.nodes[i]? = some n := ⟨s.tree.nodes[i], by simp [h1]⟩
      rcases hP.fwd i n hn with ⟨a, b⟩ | ⟨l, r, a, b, c1, c2, c3, c4⟩
      · have hv := (hne i n hn).2 a
        have hnil := (hne i n hn).1
        have hF : ∀ p ∈ (s.v.zip es').filter (fun p => reaches s.tree.nodes (covAt p.1) i), F p = n.value k := by
          intro p hp
          have := walk_pred s hP (covAt p.1) hn a (List.mem_filter.mp hp).2
          simp [F, this]
        rw [List.map_congr_left hF, hv]
        unfold averageEff effectsThrough
        unfold effectsThrough at hnil
        rw [List.map_const', List.sum_replicate, List.length_map, List.map_map, nsmul_eq_mul]
        have hp : (((s.v.zip es').filter (fun p => reaches s.tree.nodes (covAt p.1) i)).length : K) ≠ 0 := by
          have : 0 < ((s.v.zip es').filter (fun p => reaches s.tree.nodes (covAt p.1) i)).length := by
            apply List.length_pos_iff.mpr
            intro e
            exact hnil (by rw [e]; rfl)
          exact_mod_cast this.ne'
        rw [mul_div_cancel₀ _ hp]
        rfl
      · rw [sum_children hP hn a b (fun p : List K × (Fin d → K) => p.1) F,
          sum_children hP hn a b (fun p : List K × (Fin d → K) => p.1) G, ih l c3 (by omega), ih r c4 (by omega)]
  have h0 := key s.tree.nodes.length 0 hP.pos (by omega)
  have hall : ∀ q : Nat → K, reaches s.tree.nodes q 0 = true := by
    intro q
    unfold reaches
    rw [List.any_eq_true]
    exact ⟨0, List.mem_range.mpr hP.pos, by simp [walk]⟩
  simp only [hall, List.filter_true] at h0
  have e1 : (s.v.zip es').map F = s.v.map (fun row => ((Tree.predict s.tree.nodes (covAt row)).getD (fun _ => 0)) k) := by
    have : (s.v.zip es').map F = ((s.v.zip es').map Prod.fst).map
        (fun row => ((Tree.predict s.tree.nodes (covAt row)).getD (fun _ => 0)) k) := by
      rw [List.map_map]; rfl
    rw [this, List.map_fst_zip (by rw [f.len])]
  have e2 : (s.v.zip es').map G = es'.map (fun e => e k) := by
    have : (s.v.zip es').map G = ((s.v.zip es').map Prod.snd).map (fun e => e k) := by rw [List.map_map]; rfl
    rw [this, List.map_snd_zip (by rw [f.len])]
  rw [← e1, ← e2, h0]

/-- **C130.** `interpret` explains every row correctly and sufficiently: it returns one text per row, in order; every line reports the row's own
covariate and a test that the row passes; the lines name exactly the inner nodes the row passes through; and every row that passes the same
tests ends in the same leaf. -/
theorem C130_explanation (hg : Regressor grow) (h : CEInterp.fit sqrt grow fr m = .ok s) (rows : List (List K))
    (hw : ∀ r ∈ rows, r.length = s.tree.nFeatures) :
    ∃ texts, CEInterp.interpret s (some rows) none = .ok texts ∧
      List.Forall₂ (fun row text =>
        (∀ l ∈ text, l.value = covAt row l.feature ∧ lineHolds (covAt row) l) ∧
        (∀ i, (∃ l ∈ text, l.node = i) ↔ reaches s.tree.nodes (covAt row) i = true ∧ ∃ n, s.tree.nodes[i]? = some n ∧ n.left ≠ none) ∧
        ∀ row' : List K, (∀ l ∈ text, lineHolds (covAt row') l) →
          Tree.predict s.tree.nodes (covAt row') = Tree.predict s.tree.nodes (covAt row)) rows texts := by
  obtain ⟨es, f⟩ := ceFit_ok h
  obtain ⟨hP, _, _⟩ := hg _ _ _ f.grown
  refine ⟨rows.map (fun r => explain s.tree.nodes (covAt r)), ?_, ?_⟩
  · have hwo : CEInterp.widthOk s.tree rows = true := List.all_eq_true.mpr (fun r hr => decide_eq_true (hw r hr))
    unfold CEInterp.interpret CEInterp.checkFeatures
    simp only [hwo, if_true]
    rfl
  · rw [List.forall₂_map_right_iff, List.forall₂_same]
    intro row _
    obtain ⟨b1, b2, b3⟩ := explain_forward hP.fwd hP.pos (covAt row)
    refine ⟨b1, b2, fun row' hr => ?_⟩
    unfold Tree.predict
    rw [b3 _ hr]

/-- **C130.** `interpret` with a data frame selects the covariates by name: it is `interpret` of the covariates of its rows, whatever other
columns the frame has and in whatever order; without arguments it is `interpret` of the data the interpreter was fitted with. -/
theorem C130_interpret_frame (hg : Regressor grow) (h : CEInterp.fit sqrt grow fr m = .ok s) :
    CEInterp.interpret s none none = CEInterp.interpret s none (some fr) ∧
    ∀ fr' : CEInterp.Frame C K, m.transformer = none → (∀ c ∈ s.covariate, c ∈ fr'.cols) →
      CEInterp.interpret s none (some fr') = CEInterp.interpret s (some (fr'.rows.map (fun r => s.covariate.map r))) none := by
  obtain ⟨es, f⟩ := ceFit_ok h
  obtain ⟨hP, hw, _⟩ := hg _ _ _ f.grown
  obtain ⟨raw, h1, h2, h3⟩ := f.sel
  constructor
  · have hwo : CEInterp.widthOk s.tree s.v = true := List.all_eq_true.mpr (fun r hr => decide_eq_true (hw r hr))
    unfold CEInterp.interpret CEInterp.checkFeatures
    simp only [h1, f.tr, ← h2, hwo, if_true]
  · intro fr' ht hc
    unfold CEInterp.interpret CEInterp.checkFeatures
    have : CEInterp.selectCols fr' s.covariate = .ok (fr'.rows.map (fun r => s.covariate.map r)) := by
      unfold CEInterp.selectCols
      rw [if_pos (List.all_eq_true.mpr (fun c hh => by simpa using hc c hh))]
    have htr : CEInterp.transform s.transformer (fr'.rows.map (fun r => s.covariate.map r)) =
        fr'.rows.map (fun r => s.covariate.map r) := by rw [f.tr, ht]; rfl
    simp only [this, htr]

/-- **C130.** `predict` and `decide` do not select the covariates: for an estimator without covariate transformer they are right on frames whose
columns are exactly the covariates in their order. -/
theorem C130_predict (hg : Regressor grow) (h : CEInterp.fit sqrt grow fr m = .ok s) (hne : fr.rows ≠ []) (ht : m.transformer = none)
    (fr' : CEInterp.Frame C K) (hc : fr'.cols = s.covariate) :
    CEInterp.predict s fr' = .ok (fr'.rows.map (fun r => Tree.predict s.tree.nodes (covAt (s.covariate.map r)))) := by
  obtain ⟨es, f⟩ := ceFit_ok h
  obtain ⟨hP, hw, _⟩ := hg _ _ _ f.grown
  obtain ⟨raw, h1, h2, h3⟩ := f.sel
  have hwid : s.covariate.length = s.tree.nFeatures := by
    unfold CEInterp.selectCols at h1
    split at h1
    · cases h1
      rw [ht] at h2
      cases hfr : fr.rows with
      | nil => exact absurd hfr hne
      | cons r rs =>
        rw [← hw (s.covariate.map r) (by rw [h2, hfr]; simp [CEInterp.transform]), List.length_map]
    · cases h1
  have htr : CEInterp.transform s.transformer (CEInterp.allCols fr') = fr'.rows.map (fun r => s.covariate.map r) := by
    rw [f.tr, ht]
    unfold CEInterp.transform CEInterp.allCols
    rw [hc]
  unfold CEInterp.predict
  rw [htr, if_pos]
  · rw [List.map_map]; rfl
  · apply List.all_eq_true.mpr
    intro r hr
    obtain ⟨r', _, rfl⟩ := List.mem_map.mp hr
    simpa using hwid

/-- **C130.** On a frame with a row and another number of columns than covariates, `predict` raises, in particular on the frame with treatment and
outcome the interpreter was fitted with. -/
theorem C130_predict_width (hg : Regressor grow) (h : CEInterp.fit sqrt grow fr m = .ok s) (hne : fr.rows ≠ []) (ht : m.transformer = none)
    (fr' : CEInterp.Frame C K) (hc : fr'.cols.length ≠ s.covariate.length) (hr : fr'.rows ≠ []) :
    CEInterp.predict s fr' = .error .value := by
  obtain ⟨es, f⟩ := ceFit_ok h
  obtain ⟨hP, hw, _⟩ := hg _ _ _ f.grown
  obtain ⟨raw, h1, h2, h3⟩ := f.sel
  have hwid : s.covariate.length = s.tree.nFeatures := by
    unfold CEInterp.selectCols at h1
    split at h1
    · cases h1
      rw [ht] at h2
      cases hfr : fr.rows with
      | nil => exact absurd hfr hne
      | cons r rs =>
        rw [← hw (s.covariate.map r) (by rw [h2, hfr]; simp [CEInterp.transform]), List.length_map]
    · cases h1
  unfold CEInterp.predict
  rw [if_neg]
  intro hh
  rw [f.tr, ht] at hh
  obtain ⟨r, hr⟩ := List.exists_mem_of_ne_nil _ hr
  have := List.all_eq_true.mp hh (fr'.cols.map r) (by
    unfold CEInterp.transform CEInterp.allCols
    exact List.mem_map.mpr ⟨r, hr, rfl⟩)
  rw [decide_eq_true_eq, List.length_map] at this
  omega

end

/-! ### a concrete case -/

/-- a tree that asks for the first covariate -/
def askFirst (v : List (List ℚ)) (es : List (Fin 1 → ℚ)) : Except Err (CEInterp.SkTree ℚ 1) :=
  if v = [[0, 0], [0, 1], [1, 0]] ∧ es.map (fun e => e 0) = [1, 3, 5] then
    .ok ⟨2, [⟨some 1, some 2, 0, 1 / 2, 0, 3, fun _ => 3⟩, ⟨none, none, 0, 0, 0, 2, fun _ => 2⟩, ⟨none, none, 0, 0, 0, 1, fun _ => 5⟩]⟩
  else .error .value

/-- three rows with treatment, outcome and two covariates -/
def ceFrame : CEInterp.Frame String ℚ :=
  ⟨["x", "y", "v1", "v2"], [fun c => if c = "x" then 1 else 0, fun c => if c = "v2" then 1 else 0, fun c => if c = "v1" then 1 else 0]⟩

/-- a fitted estimator with the effects 1, 3, 5 -/
def ceModel : CEInterp.EstModel String ℚ 1 := ⟨true, some ["v1", "v2"], none, fun _ => .ok [fun _ => 1, fun _ => 3, fun _ => 5]⟩

/-- the interpreter `fit` makes of them -/
def ceFitted : CEInterp.Interp String ℚ 1 :=
  ⟨["v1", "v2"], none, [[0, 0], [0, 1], [1, 0]],
    ⟨2, [⟨some 1, some 2, 0, 1 / 2, 0, 3, fun _ => 3⟩, ⟨none, none, 0, 0, 0, 2, fun _ => 2⟩, ⟨none, none, 0, 0, 0, 1, fun _ => 5⟩]⟩,
    (List.range 3).map (fun i => (CEInterp.meanOf (CEInterp.effectsAt [⟨some 1, some 2, 0, 1 / 2, 0, 3, fun _ => 3⟩,
      ⟨none, none, 0, 0, 0, 2, fun _ => 2⟩, ⟨none, none, 0, 0, 0, 1, fun _ => 5⟩] [[0, 0], [0, 1], [1, 0]]
        [fun _ => 1, fun _ => 3, fun _ => 5] i), CEInterp.stdOf id (CEInterp.effectsAt [⟨some 1, some 2, 0, 1 / 2, 0, 3, fun _ => 3⟩,
      ⟨none, none, 0, 0, 0, 2, fun _ => 2⟩, ⟨none, none, 0, 0, 0, 1, fun _ => 5⟩] [[0, 0], [0, 1], [1, 0]]
        [fun _ => 1, fun _ => 3, fun _ => 5] i)))⟩

theorem askFirst_regressor : Regressor askFirst := by
  intro v es t h
  unfold askFirst at h
  by_cases hc : v = [[0, 0], [0, 1], [1, 0]] ∧ es.map (fun e => e 0) = [1, 3, 5]
  · rw [if_pos hc] at h
    cases h
    obtain ⟨rfl, hes⟩ := hc
    have : es = [fun _ => 1, fun _ => 3, fun _ => 5] := by
      have e : ∀ (f : Fin 1 → ℚ) (x : ℚ), f 0 = x → f = fun _ => x := by
        intro f x hx; funext j; rw [Subsingleton.elim j 0, hx]
      rcases es with _ | ⟨a, _ | ⟨b, _ | ⟨c, _ | ⟨z, es⟩⟩⟩⟩ <;> simp at hes
      obtain ⟨h1, h2, h3⟩ := hes
      rw [e a _ h1, e b _ h2, e c _ h3]
    subst this
    refine ⟨⟨?_, by decide, by simp⟩, by decide, ?_⟩
    · intro i n hi
      match i, hi with
      | 0, hi => simp at hi; subst hi; exact Or.inr ⟨1, 2, rfl, rfl, by decide, by decide, by decide, by decide⟩
      | 1, hi => simp at hi; subst hi; exact Or.inl ⟨rfl, rfl⟩
      | 2, hi => simp at hi; subst hi; exact Or.inl ⟨rfl, rfl⟩
      | i + 3, hi => simp at hi
    · intro i n hi
      match i, hi with
      | 0, hi => simp at hi; subst hi; exact ⟨by decide +kernel, by simp⟩
      | 1, hi =>
        simp at hi; subst hi
        refine ⟨by decide +kernel, fun _ => ?_⟩
        funext j
        rw [Subsingleton.elim j 0]
        decide +kernel
      | 2, hi =>
        simp at hi; subst hi
        refine ⟨by decide +kernel, fun _ => ?_⟩
        funext j
        rw [Subsingleton.elim j 0]
        decide +kernel
      | i + 3, hi => simp at hi
  · rw [if_neg hc] at h; cases h

theorem ceFitted_ok : CEInterp.fit id askFirst ceFrame ceModel = .ok ceFitted := by rfl

example : (ceFitted.nodeDict.map (fun e => (e.1 0, e.2 0))) = [(3, 8 / 3), (2, 1), (5, 0)] := by decide +kernel

example : CEInterp.interpret ceFitted none none = .ok [[⟨0, 0, 0, true, 1 / 2⟩], [⟨0, 0, 0, true, 1 / 2⟩], [⟨0, 0, 1, false, 1 / 2⟩]] := by
  decide +kernel

/-- **C130, refuted.** `predict` on the very frame of the fit raises, although `interpret` accepts it; and on a frame with the covariates in another
order the answer differs from that for the covariates in order (2 instead of 5). -/
theorem C130_predict_refuted :
    CEInterp.predict ceFitted ceFrame = .error .value ∧
    (∃ texts, CEInterp.interpret ceFitted none (some ceFrame) = .ok texts) ∧
    (CEInterp.predict ceFitted ⟨["v1", "v2"], [fun c => if c = "v1" then 1 else 0]⟩).toOption.map (fun l => l.map (fun o => o.map (fun f => f 0)))
      = some [some 5] ∧
    (CEInterp.predict ceFitted ⟨["v2", "v1"], [fun c => if c = "v1" then 1 else 0]⟩).toOption.map (fun l => l.map (fun o => o.map (fun f => f 0)))
      = some [some 2] := by
  refine ⟨by rfl, ⟨_, rfl⟩, by decide +kernel, by decide +kernel⟩

end YL.Props
