import Verif.Props.Paths
import Verif.Props.Backdoor
import Verif.Lib.FrontAdjust

/-!
# C19, C20: front-door adjustment

`ord` is the unknown iteration order of a Python set.
-/

set_option linter.unusedSectionVars false

namespace YL.Props

open YL Spec LatentNames

variable {α : Type} [DecidableEq α] [LatentNames α] [CharNames α]

theorem anyOk_ok {β : Type} {f : β → Except Err Bool} : ∀ {l : List β} {b : Bool}, anyOk f l = .ok b →
    (b = true ∧ ∃ x ∈ l, f x = .ok true) ∨ (b = false ∧ ∀ x ∈ l, f x = .ok false) := by
  intro l
  induction l with
  | nil => intro b h; cases h; exact .inr ⟨rfl, by simp⟩
  | cons x l ih =>
    intro b h
    rw [anyOk] at h
    cases hx : f x with
    | error e => rw [hx] at h; cases h
    | ok r =>
      rw [hx] at h
      cases r with
      | true => cases h; exact .inl ⟨rfl, x, by simp, hx⟩
      | false =>
        rcases ih h with ⟨h1, y, hy, h2⟩ | ⟨h1, h2⟩
        · exact .inl ⟨h1, y, by simp [hy], h2⟩
        · exact .inr ⟨h1, by simpa [hx] using h2⟩

theorem reach_of_backward {E : α → α → Prop} : ∀ (p : List α) (s t : α), p.head? = some s → p.getLast? = some t →
    p.IsChain (fun a b => E b a) → Reach E t s := by
  intro p
  induction p with
  | nil => intro s t h; cases h
  | cons a p ih =>
    intro s t h1 h2 hc
    simp only [List.head?_cons, Option.some.injEq] at h1
    subst h1
    cases p with
    | nil =>
      simp only [List.getLast?_singleton, Option.some.injEq] at h2
      subst h2; exact .refl
    | cons b p =>
      rw [List.isChain_cons_cons] at hc
      rw [List.getLast?_cons_cons] at h2
      exact (ih b t rfl h2 hc.2).tail hc.1

theorem reach_of_diPath {E : α → α → Prop} : ∀ (p : List α) (s t : α), IsDiPath E s t p →
    Reach E s t ∧ ∀ v ∈ p, Reach E s v ∧ Reach E v t := by
  intro p
  induction p with
  | nil => rintro s t ⟨_, h, _⟩; cases h
  | cons a p ih =>
    rintro s t ⟨hc, h1, h2⟩
    simp only [List.head?_cons, Option.some.injEq] at h1
    subst h1
    cases p with
    | nil =>
      simp only [List.getLast?_singleton, Option.some.injEq] at h2
      subst h2
      exact ⟨.refl, fun v hv => by simp only [List.mem_singleton] at hv; subst hv; exact ⟨.refl, .refl⟩⟩
    | cons b p =>
      rw [List.isChain_cons_cons] at hc
      rw [List.getLast?_cons_cons] at h2
      obtain ⟨k1, k2⟩ := ih b t ⟨hc.2, rfl, h2⟩
      refine ⟨k1.head hc.1, fun v hv => ?_⟩
      rcases List.mem_cons.1 hv with rfl | hv
      · exact ⟨.refl, k1.head hc.1⟩
      · exact ⟨(k2 v hv).1.head hc.1, (k2 v hv).2⟩

theorem nodup_of_chain {E : α → α → Prop} (hac : Acyclic E) : ∀ (p : List α), p.IsChain E → p.Nodup := by
  intro p
  induction p with
  | nil => simp
  | cons a p ih =>
    intro hc
    rw [List.nodup_cons]
    cases p with
    | nil => simp
    | cons b p =>
      rw [List.isChain_cons_cons] at hc
      refine ⟨fun hm => ?_, ih hc.2⟩
      have hl : ∃ t, (b :: p).getLast? = some t := ⟨_, List.getLast?_eq_some_getLast (by simp)⟩
      obtain ⟨t, ht⟩ := hl
      have := (reach_of_diPath (b :: p) b t ⟨hc.2, rfl, ht⟩).2 a hm
      exact hac a (Relation.TransGen.head' hc.1 this.1)

theorem diPath_of_reach {R : α → α → Prop} {s t : α} (h : Relation.ReflTransGen R s t) :
    ∃ p : List α, p.IsChain R ∧ p.head? = some s ∧ p.getLast? = some t := by
  induction h using Relation.ReflTransGen.head_induction_on with
  | refl => exact ⟨[t], by simp, rfl, rfl⟩
  | @head a b e _ ih =>
    obtain ⟨p, k1, k2, k3⟩ := ih
    cases p with
    | nil => cases k2
    | cons b' p =>
      simp only [List.head?_cons, Option.some.injEq] at k2
      subst k2
      exact ⟨a :: b' :: p, List.isChain_cons_cons.2 ⟨e, k1⟩, rfl, by rw [List.getLast?_cons_cons]; exact k3⟩

/-- From an ordinary name, directed paths of the explicit diagram are directed paths of the causation. -/
theorem chain_explicit {c : Causation α} {A : List (α × α)} {G : α → α → Prop} (hE : IsExplicit c A U G) :
    ∀ (p : List α) (s : α), p.head? = some s → (∀ i, s ≠ U i) → (p.IsChain G ↔ p.IsChain (Parent c)) := by
  intro p
  induction p with
  | nil => intro s h; cases h
  | cons a p ih =>
    intro s h hs
    simp only [List.head?_cons, Option.some.injEq] at h
    subst h
    cases p with
    | nil => simp
    | cons b p =>
      rw [List.isChain_cons_cons, List.isChain_cons_cons, hE.observed a b hs]
      constructor
      · rintro ⟨h1, h2⟩
        refine ⟨h1, (ih b rfl ?_).1 h2⟩
        rintro i rfl; exact hE.root _ _ ((hE.observed _ _ hs).2 h1)
      · rintro ⟨h1, h2⟩
        refine ⟨h1, (ih b rfl ?_).2 h2⟩
        rintro i rfl; exact hE.root _ _ ((hE.observed _ _ hs).2 h1)

/-- The directed paths listed by networkx. -/
theorem directed_paths {c : Causation α} {A : List (α × α)} (h : IsDiagram c A U) {t y : α} (hy : OnEdge c y)
    {ps : List (List α)}
    (hps : allSimplePaths (CG.init c A).observedDag.nodes (CG.init c A).observedDag.succs t y = .ok ps) :
    (∀ i, t ≠ U i) ∧ ∀ p, p ∈ ps ↔ t ≠ y ∧ IsDiPath (CG.init c A).explicitDag.E t y p := by
  have hE := C08_explicit_faithful_partial c A h
  have hwf := CG.wf_observed c
  have htN : t ∈ (CG.observedDagOf c).nodes := by
    by_contra hn
    unfold allSimplePaths at hps
    rw [if_neg (show t ∉ (CG.init c A).observedDag.nodes from hn)] at hps; cases hps
  have htU : ∀ i, t ≠ U i := by
    rintro i rfl
    exact (h.fresh i).2.1 (CG.mem_nodes_observed.1 htN)
  refine ⟨htU, fun p => ?_⟩
  rw [mem_allSimplePaths (fun a b hb => by
    rw [MDG.mem_succs] at hb; exact hwf.right hb) (CG.mem_nodes_observed.2 hy) hps p]
  have hch : (fun a b => b ∈ (CG.init c A).observedDag.succs a) = Parent c := by
    funext a b
    rw [MDG.mem_succs]
    exact eq_iff_iff.2 CG.E_observed
  rw [hch]
  constructor
  · rintro ⟨hne, h1, h2, h3, h4⟩
    exact ⟨hne, (chain_explicit hE p t h3 htU).2 h2, h3, h4⟩
  · rintro ⟨hne, h2, h3, h4⟩
    have h2' := (chain_explicit hE p t h3 htU).1 h2
    exact ⟨hne, nodup_of_chain h.acyclic p h2', h2', h3, h4⟩

/-- Rule 2 for descendants of the treatment. -/
theorem rule2 {c : Causation α} {A : List (α × α)} (h : IsDiagram c A U) {t : α} {S : List α}
    (hS : ∀ s ∈ S, Reach1 (CG.init c A).explicitDag.E t s) {b : Bool}
    (hb : openInto (CG.init c A) t S = .ok b) :
    b = false ↔ ∀ z ∈ S, ∀ p, IsBackDoorPath (CG.init c A).explicitDag.E t z p →
      HasCollider (CG.init c A).explicitDag.E p := by
  have hE := C08_explicit_faithful_partial c A h
  have hac := hE.acyclic
  -- a backdoor path of more than two nodes is connected iff it has no collider
  have hconn : ∀ z ∈ S, ∀ p b, IsBackDoorPath (CG.init c A).explicitDag.E t z p →
      isConnectedBackdoorPath (CG.init c A) p = .ok b →
      (b = true → ¬ HasCollider (CG.init c A).explicitDag.E p) ∧
      (b = false → 2 < p.length → HasCollider (CG.init c A).explicitDag.E p) := by
    intro z hz p b hp hok
    obtain ⟨⟨h1, h2, h3, h4⟩, a, l, rfl, ha⟩ := hp
    have hzt : ¬ Reach (CG.init c A).explicitDag.E z t := fun hr =>
      hac t (Relation.TransGen.trans_left (hS z hz) hr)
    have hback : ¬ (t :: a :: l).IsChain (fun a b => (CG.init c A).explicitDag.E b a) := fun hc =>
      hzt (reach_of_backward _ t z rfl h4 hc)
    unfold isConnectedBackdoorPath at hok
    dsimp only at hok
    split at hok
    · cases hok
    · rw [if_pos (MDG.mem_preds.2 ha)] at hok
      cases hcol : hasCollider (CG.init c A) (t :: a :: l) with
      | error e => rw [hcol] at hok; cases hok
      | ok bc =>
        rw [hcol] at hok
        have hcs' := (hasCollider_exact c A h (t :: a :: l)).2 bc hcol
        simp only [hback, and_false, or_false] at hcs'
        cases bc with
        | true =>
          cases hok
          exact ⟨by simp, fun _ _ => hcs'.1 rfl⟩
        | false =>
          have hno : ¬ HasCollider (CG.init c A).explicitDag.E (t :: a :: l) := fun hh => by
            have := hcs'.2 hh; cases this
          refine ⟨fun _ => hno, fun hbf hlen => ?_⟩
          have hlast : (t :: a :: l).getLastD t = z := by
            rw [List.getLastD_eq_getLast?, h4]; rfl
          simp only [hlast] at hok
          cases hgb : getBackdoorPath (CG.init c A) t z with
          | error e => rw [hgb] at hok; cases hok
          | ok ps =>
            rw [hgb] at hok
            have hzE : ∃ u, Adj (CG.init c A).explicitDag.E u z := by
              rcases Relation.TransGen.tail'_iff.1 (hS z hz) with ⟨u, _, hu⟩
              exact ⟨u, .inl hu⟩
            have hm := ((backdoorPath_exact c A h hgb hzE).2 (t :: a :: l)).2
              ⟨⟨⟨h1, h2, h3, h4⟩, a, l, rfl, ha⟩, hlen⟩
            simp only [Except.ok.injEq] at hok
            rw [← hok] at hbf
            simp [hm] at hbf
  unfold openInto at hb
  rcases anyOk_ok hb with ⟨rfl, z, hz, hzt⟩ | ⟨rfl, hall⟩
  · simp only [Bool.true_eq_false, false_iff]
    intro hcon
    cases hgb : getBackdoorPath (CG.init c A) t z with
    | error e => rw [hgb] at hzt; cases hzt
    | ok ps =>
      rw [hgb] at hzt
      rcases anyOk_ok hzt with ⟨_, p, hp, hpt⟩ | ⟨h', _⟩
      · have hzE : ∃ u, Adj (CG.init c A).explicitDag.E u z := by
          rcases Relation.TransGen.tail'_iff.1 (hS z hz) with ⟨u, _, hu⟩
          exact ⟨u, .inl hu⟩
        have hbp := ((backdoorPath_exact c A h hgb hzE).2 p).1 hp
        exact (hconn z hz p true hbp.1 hpt).1 rfl (hcon z hz p hbp.1)
      · cases h'
  · simp only [true_iff]
    intro z hz p hp
    have hzf := hall z hz
    cases hgb : getBackdoorPath (CG.init c A) t z with
    | error e => rw [hgb] at hzf; cases hzf
    | ok ps =>
      rw [hgb] at hzf
      have hzE : ∃ u, Adj (CG.init c A).explicitDag.E u z := by
        rcases Relation.TransGen.tail'_iff.1 (hS z hz) with ⟨u, _, hu⟩
        exact ⟨u, .inl hu⟩
      have hlen : 2 < p.length := by
        obtain ⟨⟨h1, h2, h3, h4⟩, a, l, rfl, ha⟩ := hp
        cases l with
        | nil =>
          simp only [List.getLast?_cons_cons, List.getLast?_singleton, Option.some.injEq] at h4
          subst h4
          exact absurd ((hS a hz).tail ha) (hac t)
        | cons b l => simp
      rcases anyOk_ok hzf with ⟨h', _⟩ | ⟨_, hf⟩
      · cases h'
      · have hm := ((backdoorPath_exact c A h hgb hzE).2 p).2 ⟨hp, hlen⟩
        exact (hconn z hz p false hp (hf p hm)).2 rfl hlen

/-- `is_frontdoor_set` for sets of descendants of the treatment. -/
theorem frontdoor_iff {c : Causation α} {A : List (α × α)} (hD : IsDict c) (h : IsDiagram c A U) {t y : α}
    (hty : t ≠ y) (hy : OnEdge c y) {S : List α} (hS : ∀ s ∈ S, Reach1 (CG.init c A).explicitDag.E t s) {b : Bool}
    (hok : isFrontdoorSet (CG.init c A) S t y = .ok b) :
    b = true ↔ FrontDoor (CG.init c A).explicitDag.E t y {s | s ∈ S} := by
  have hE := C08_explicit_faithful_partial c A h
  have htS : t ∉ S := fun hs => hE.acyclic t (hS t hs)
  unfold isFrontdoorSet at hok
  split at hok
  · cases hok
  · split at hok
    · cases hok
    · rename_i ps hps
      obtain ⟨htU, hpaths⟩ := directed_paths h hy hps
      have hr1 : ps.any (fun p => !(p.any (fun v => decide (v ∈ S)))) = true ↔
          ¬ ∀ p, IsDiPath (CG.init c A).explicitDag.E t y p → ∃ z ∈ {s | s ∈ S}, z ∈ p := by
        rw [List.any_eq_true]
        constructor
        · rintro ⟨p, hp, hn⟩ hcon
          obtain ⟨z, hz, hzp⟩ := hcon p ((hpaths p).1 hp).2
          simp only [Bool.not_eq_true', List.any_eq_false, decide_eq_true_eq] at hn
          exact hn z hzp hz
        · intro hcon
          push Not at hcon
          obtain ⟨p, hp, hn⟩ := hcon
          refine ⟨p, (hpaths p).2 ⟨hty, hp⟩, ?_⟩
          simp only [Bool.not_eq_true', List.any_eq_false, decide_eq_true_eq]
          exact fun v hv hs => hn v hs hv
      split at hok
      · rename_i h1
        cases hok
        exact ⟨fun h => (by cases h), fun h' => absurd h'.1 (hr1.1 h1)⟩
      · rename_i h1
        rw [hr1, not_not] at h1
        split at hok
        · cases hok
        · rename_i ho
          cases hok
          have := rule2 h hS ho
          refine ⟨fun h => (by cases h), fun h' => ?_⟩
          have := this.2 h'.2.1
          cases this
        · rename_i ho
          have h2 := (rule2 h hS ho).1 rfl
          have h3 := valid_dsep hD h hok (fun s hs => by
            rw [List.mem_singleton] at hs; subst hs
            exact ⟨htS, by simpa using hty⟩)
          have e1 : ({a | a ∈ [y]} : Set α) = {y} := by ext; simp
          have e2 : ({a | a ∈ [t]} : Set α) = {t} := by ext; simp
          rw [e1, e2] at h3
          rw [h3]
          exact ⟨fun h => ⟨h1, h2, h⟩, fun h => h.2.2⟩

/-- C19, first part. `is_frontdoor_set(S, t, y)`, whenever it answers on a causal diagram for a set `S` of
proper descendants of `t`, decides Pearl's front-door criterion on the diagram with explicit latent variables.
Missing: sets with other nodes, where the code misses direct and long open back-door paths
(`C19_accepts_parent`, `C19_accepts_ancestor`), and outcomes without observed edge. -/
theorem C19_is_frontdoor_set_partial (c : Causation α) (A : List (α × α)) (hD : IsDict c) (h : IsDiagram c A U) :
    ∃ G, IsExplicit c A U G ∧ ∀ S t y b, isFrontdoorSet (CG.init c A) S t y = .ok b → t ≠ y → OnEdge c y →
      (∀ s ∈ S, Reach1 G t s) → (b = true ↔ FrontDoor G t y {s | s ∈ S}) :=
  ⟨_, C08_explicit_faithful_partial c A h, fun _ _ _ _ hok hty hy hS => frontdoor_iff hD h hty hy hS hok⟩

/-- non-vacuity -/
example : isFrontdoorSet (CG.init [("x", []), ("m", ["x"]), ("y", ["m"])] [("x", "y")]) ["m"] "x" "y" = .ok true ∧
    isFrontdoorSet (CG.init [("x", []), ("m", ["x"]), ("y", ["m"])] [("x", "y"), ("x", "m")]) ["m"] "x" "y" =
      .ok false ∧
    isFrontdoorSet (CG.init [("x", []), ("m", ["x"]), ("y", ["m"])] [("x", "y"), ("m", "y")]) ["m"] "x" "y" =
      .ok false ∧
    isFrontdoorSet (CG.init [("x", []), ("m", ["x"]), ("y", ["m", "x"])] [("x", "y")]) ["m"] "x" "y" =
      .ok false := by decide +kernel

/-- C19, violation: `{w, n}` is accepted on `v → w → x → n → y`, `w → y`, `x ↔ y` although `w → x` is an open back-door
path from `x` to `w` (paths of two nodes are skipped). -/
theorem C19_accepts_parent :
    isFrontdoorSet (CG.init [("v", []), ("w", ["v"]), ("x", ["w"]), ("n", ["x"]), ("y", ["n", "w"])] [("x", "y")]) ["w", "n"] "x" "y" =
      .ok true := by decide +kernel

/-- C19, violation: the same with `w → b → a → x` (chains are taken for paths with a collider); with
`w → a → x` the set is rejected. -/
theorem C19_accepts_ancestor :
    isFrontdoorSet (CG.init [("v", []), ("w", ["v"]), ("b", ["w"]), ("a", ["b"]), ("x", ["a"]), ("n", ["x"]), ("y", ["n", "w"])] [("x", "y")])
      ["w", "n"] "x" "y" = .ok true ∧
    isFrontdoorSet (CG.init [("v", []), ("w", ["v"]), ("a", ["w"]), ("x", ["a"]), ("n", ["x"]), ("y", ["n", "w"])] [("x", "y")])
      ["w", "n"] "x" "y" = .ok false := by decide +kernel

/-- The answer of `get_frontdoor_set` as a list of adjustment sets. -/
def frontSets : BackdoorList α → List (List α)
  | .names l => [l]
  | .sets l => l

/-- What a successful search returns. -/
theorem front_result {c : Causation α} {A : List (α × α)} (hD : IsDict c) (h : IsDiagram c A U)
    {ord : List α → List α} (hord : ∀ l, (ord l).Perm l) {t y : α} {adj : Adjust} {r : BackdoorList α} {p : Prob α}
    (hty : t ≠ y) (hy : OnEdge c y) (hok : frontdoorSearch ord (CG.init c A) t y adj = .ok (r, p)) :
    (∀ i, t ≠ U i) ∧ ∃ S rest, frontSets r = S :: rest ∧ p = frontdoorProb t y S ∧
      (∀ S ∈ frontSets r, FrontDoor (CG.init c A).explicitDag.E t y {s | s ∈ S} ∧ S.Nodup ∧
        ∀ s ∈ S, s ≠ t ∧ s ≠ y ∧ ∃ q, IsDiPath (CG.init c A).explicitDag.E t y q ∧ s ∈ q) ∧
      (∀ Z : Finset α, (∀ s ∈ Z, s ≠ t ∧ s ≠ y ∧ ∃ q, IsDiPath (CG.init c A).explicitDag.E t y q ∧ s ∈ q) →
        FrontDoor (CG.init c A).explicitDag.E t y {s | s ∈ Z} →
        (adj = .all → ∃ S ∈ frontSets r, S.toFinset = Z) ∧ (adj ≠ .all → S.length ≤ Z.card)) := by
  have hE := C08_explicit_faithful_partial c A h
  unfold frontdoorSearch at hok
  split at hok
  · cases hok
  · rename_i ps hps
    obtain ⟨htU, hpaths⟩ := directed_paths h hy hps
    refine ⟨htU, ?_⟩
    dsimp only at hok
    set init := ord ((ps.flatten.eraseDups).filter (fun v => v ≠ t ∧ v ≠ y)) with hinit
    have hnd : init.Nodup := by
      rw [hinit]; exact (hord _).nodup_iff.2 ((nodup_eraseDups _ _ le_rfl).filter _)
    have hmem : ∀ v, v ∈ init ↔ v ≠ t ∧ v ≠ y ∧ ∃ q, IsDiPath (CG.init c A).explicitDag.E t y q ∧ v ∈ q := by
      intro v
      rw [hinit, (hord _).mem_iff, List.mem_filter, List.mem_eraseDups, List.mem_flatten, decide_eq_true_eq]
      constructor
      · rintro ⟨⟨q, hq, hv⟩, h1, h2⟩
        exact ⟨h1, h2, q, ((hpaths q).1 hq).2, hv⟩
      · rintro ⟨h1, h2, q, hq, hv⟩
        exact ⟨⟨q, (hpaths q).2 ⟨hty, hq⟩, hv⟩, h1, h2⟩
    have hdesc : ∀ S : List α, S.Sublist init → ∀ s ∈ S, Reach1 (CG.init c A).explicitDag.E t s := by
      intro S hS s hs
      obtain ⟨h1, _, q, hq, hv⟩ := (hmem s).1 (hS.subset hs)
      rcases Relation.reflTransGen_iff_eq_or_transGen.1 ((reach_of_diPath q t y hq).2 s hv).1 with h' | h'
      · exact absurd h' h1
      · exact h'
    have hgood : ∀ S ∈ powerset init, isFrontdoorSet (CG.init c A) S t y = .ok true →
        FrontDoor (CG.init c A).explicitDag.E t y {s | s ∈ S} ∧ S.Nodup ∧
        ∀ s ∈ S, s ≠ t ∧ s ≠ y ∧ ∃ q, IsDiPath (CG.init c A).explicitDag.E t y q ∧ s ∈ q := by
      intro S hS hok'
      have hsub := mem_powerset.1 hS
      exact ⟨(frontdoor_iff hD h hty hy (hdesc S hsub) hok').1 rfl, hnd.sublist hsub,
        fun s hs => (hmem s).1 (hsub.subset hs)⟩
    have hcand : ∀ Z : Finset α, (∀ s ∈ Z, s ≠ t ∧ s ≠ y ∧ ∃ q, IsDiPath (CG.init c A).explicitDag.E t y q ∧ s ∈ q) →
        ∃ S ∈ powerset init, S.toFinset = Z ∧ S.length = Z.card ∧
          ∀ b, isFrontdoorSet (CG.init c A) S t y = .ok b →
            (b = true ↔ FrontDoor (CG.init c A).explicitDag.E t y {s | s ∈ Z}) := by
      intro Z hZ
      have hsub : (init.filter (· ∈ Z)).Sublist init := List.filter_sublist
      have hset : (init.filter (· ∈ Z)).toFinset = Z := by
        ext s
        rw [List.mem_toFinset, List.mem_filter, decide_eq_true_eq]
        exact ⟨fun h => h.2, fun h => ⟨(hmem s).2 (hZ s h), h⟩⟩
      refine ⟨_, mem_powerset.2 hsub, hset, ?_, fun b hb => ?_⟩
      · rw [← List.toFinset_card_of_nodup (hnd.filter _), hset]
      · rw [frontdoor_iff hD h hty hy (hdesc _ hsub) hb]
        have : ({s | s ∈ init.filter (· ∈ Z)} : Set α) = {s | s ∈ Z} := by
          ext s
          show s ∈ init.filter (· ∈ Z) ↔ s ∈ Z
          rw [← List.mem_toFinset, hset]
        rw [this]
    have hsimple : (∀ S rest, frontSets r = S :: rest → adj ≠ .all →
        firstSep (fun i => isFrontdoorSet (CG.init c A) i t y) (powerset init) = .ok [S] → rest = [] →
        p = frontdoorProb t y S → _) := fun S rest hr hadj hfs hrest hp =>
      show ∃ S rest, frontSets r = S :: rest ∧ p = frontdoorProb t y S ∧
      (∀ S ∈ frontSets r, FrontDoor (CG.init c A).explicitDag.E t y {s | s ∈ S} ∧ S.Nodup ∧
        ∀ s ∈ S, s ≠ t ∧ s ≠ y ∧ ∃ q, IsDiPath (CG.init c A).explicitDag.E t y q ∧ s ∈ q) ∧
      (∀ Z : Finset α, (∀ s ∈ Z, s ≠ t ∧ s ≠ y ∧ ∃ q, IsDiPath (CG.init c A).explicitDag.E t y q ∧ s ∈ q) →
        FrontDoor (CG.init c A).explicitDag.E t y {s | s ∈ Z} →
        (adj = .all → ∃ S ∈ frontSets r, S.toFinset = Z) ∧ (adj ≠ .all → S.length ≤ Z.card)) by
        rcases firstSep_ok _ _ hfs with ⟨h1, _⟩ | ⟨l₁, S', l₂, hl, hS', hsep, hbefore⟩
        · cases h1
        · cases hS'
          subst hrest
          refine ⟨S, [], hr, hp, ?_, ?_⟩
          · rw [hr]
            intro S₁ hS₁
            rw [List.mem_singleton] at hS₁; subst hS₁
            exact hgood _ (hl ▸ List.mem_append_right _ List.mem_cons_self) hsep
          · intro Z hZ hfd
            refine ⟨fun h => absurd h hadj, fun _ => ?_⟩
            obtain ⟨S₂, hS₂, -, hcard, hiff⟩ := hcand Z hZ
            rw [hl, List.mem_append] at hS₂
            rcases hS₂ with hS₂ | hS₂
            · have := (hiff _ (hbefore S₂ hS₂)).2 hfd
              cases this
            · rw [← hcard]
              rcases List.mem_cons.1 hS₂ with rfl | hS₂
              · exact le_rfl
              · have hsort := powerset_sorted init
                rw [hl, List.pairwise_append] at hsort
                exact (List.pairwise_cons.1 hsort.2.1).1 S₂ hS₂
    cases adj with
    | other => cases hok
    | all =>
      dsimp only at hok
      split at hok
      · cases hok
      · cases hok
      · rename_i S l hfs
        simp only [Except.ok.injEq, Prod.mk.injEq] at hok
        obtain ⟨rfl, rfl⟩ := hok
        obtain ⟨hall, heq⟩ := allSep_ok _ _ hfs
        refine ⟨S, l, rfl, rfl, ?_, ?_⟩
        · intro S' hS'
          change S' ∈ S :: l at hS'
          rw [heq, List.mem_filter] at hS'
          obtain ⟨b, hb⟩ := hall S' hS'.1
          have hbt : b = true := by have := hS'.2; rw [hb] at this; exact this
          subst hbt
          exact hgood S' hS'.1 hb
        · intro Z hZ hfd
          refine ⟨fun _ => ?_, fun h => absurd rfl h⟩
          obtain ⟨S₂, hS₂, hset, -, hiff⟩ := hcand Z hZ
          obtain ⟨b, hb⟩ := hall S₂ hS₂
          have hbt := (hiff b hb).2 hfd
          subst hbt
          refine ⟨S₂, ?_, hset⟩
          show S₂ ∈ S :: l
          rw [heq, List.mem_filter]
          exact ⟨hS₂, by rw [hb]; rfl⟩
    | simple =>
      dsimp only at hok
      split at hok
      · cases hok
      · rename_i a s rest hfs
        simp only [Except.ok.injEq, Prod.mk.injEq] at hok
        obtain ⟨rfl, rfl⟩ := hok
        have hrest : rest = [] := by
          rcases firstSep_ok _ _ hfs with ⟨h1, _⟩ | ⟨l₁, S', l₂, hl, hS', hsep, hbefore⟩
          · cases h1
          · simpa using congrArg List.tail hS'
        subst hrest
        exact hsimple (a :: s) [] rfl (by decide) hfs rfl rfl
      · cases hok
    | minimal =>
      dsimp only at hok
      split at hok
      · cases hok
      · rename_i a s rest hfs
        simp only [Except.ok.injEq, Prod.mk.injEq] at hok
        obtain ⟨rfl, rfl⟩ := hok
        have hrest : rest = [] := by
          rcases firstSep_ok _ _ hfs with ⟨h1, _⟩ | ⟨l₁, S', l₂, hl, hS', hsep, hbefore⟩
          · cases h1
          · simpa using congrArg List.tail hS'
        subst hrest
        exact hsimple (a :: s) [] rfl (by decide) hfs rfl rfl
      · cases hok

theorem get_front {ord : List α → List α} {g : CG α} {T Y : NameArg α} {adj : Adjust} {r : BackdoorList α}
    {p : Prob α} (hok : (getFrontdoorSet ord g T Y adj).1 = .ok (r, p)) :
    ∃ t y, ((T = .set [t] ∧ Y = .set [y]) ∨ (T = .name t ∧ Y = .name y)) ∧
      frontdoorSearch ord g t y adj = .ok (r, p) := by
  unfold getFrontdoorSet at hok
  split at hok
  · cases hok
  · split at hok
    · exact ⟨_, _, .inl ⟨rfl, rfl⟩, hok⟩
    · cases hok
    · exact ⟨_, _, .inr ⟨rfl, rfl⟩, hok⟩
    · cases hok

/-- C19, second part. Whenever `get_frontdoor_set` returns on a causal diagram, for different treatment and
outcome, every set it returns satisfies the front-door criterion; among the sets of interior nodes of directed
paths, `all` lists every set that satisfies it, and for the other styles none that satisfies it is smaller. -/
theorem C19_get_frontdoor_set (c : Causation α) (A : List (α × α)) (hD : IsDict c) (h : IsDiagram c A U) :
    ∃ G, IsExplicit c A U G ∧ ∀ (ord : List α → List α), (∀ l, (ord l).Perm l) → ∀ T Y adj r p,
      (getFrontdoorSet ord (CG.init c A) T Y adj).1 = .ok (r, p) →
      ∃ t y, ((T = .set [t] ∧ Y = .set [y]) ∨ (T = .name t ∧ Y = .name y)) ∧
        (t ≠ y → OnEdge c y → (∀ S ∈ frontSets r, FrontDoor G t y {s | s ∈ S}) ∧
          ∀ Z : Finset α, (∀ s ∈ Z, s ≠ t ∧ s ≠ y ∧ ∃ q, IsDiPath G t y q ∧ s ∈ q) →
            FrontDoor G t y {s | s ∈ Z} →
            (adj = .all → ∃ S ∈ frontSets r, S.toFinset = Z) ∧
            (adj ≠ .all → ∃ S, r = .names S ∧ S.length ≤ Z.card)) := by
  refine ⟨_, C08_explicit_faithful_partial c A h, fun ord hord T Y adj r p hok => ?_⟩
  obtain ⟨t, y, hTY, hs⟩ := get_front hok
  refine ⟨t, y, hTY, fun hty hy => ?_⟩
  obtain ⟨_, S, rest, hr, hp, h1, h2⟩ := front_result hD h hord hty hy hs
  refine ⟨fun S hS => (h1 S hS).1, fun Z hZ hfd => ⟨(h2 Z hZ hfd).1, fun hadj => ?_⟩⟩
  refine ⟨S, ?_, (h2 Z hZ hfd).2 hadj⟩
  cases r with
  | names l => simp only [frontSets, List.cons.injEq] at hr; rw [hr.1]
  | sets l =>
    exfalso
    unfold frontdoorSearch at hs
    split at hs
    · cases hs
    · dsimp only at hs
      cases adj with
      | other => cases hs
      | all => exact hadj rfl
      | simple => dsimp only at hs; split at hs <;> cases hs
      | minimal => dsimp only at hs; split at hs <;> cases hs

/-- non-vacuity: the front-door graph with one and with two mediators -/
example : Except.map Prod.fst (getFrontdoorSet id (CG.init [("x", []), ("m", ["x"]), ("y", ["m"])]
      [("x", "y")]) (.set ["x"]) (.set ["y"]) .all).1 = .ok (.sets [["m"]]) ∧
    Except.map Prod.fst (getFrontdoorSet id (CG.init [("x", []), ("m", ["x"]), ("n", ["m"]), ("y", ["n"])]
      [("x", "y")]) (.set ["x"]) (.set ["y"]) .minimal).1 = .ok (.names ["m"]) := by decide +kernel

/-- C19, violation: on `x → m → n → y` with `x ↔ y` listing all front-door sets raises NodeNotFound: testing
`{m, n}` cuts `n` off the graph. -/
theorem C19_all_crash :
    Except.map Prod.fst (getFrontdoorSet id (CG.init [("x", []), ("m", ["x"]), ("n", ["m"]), ("y", ["n"])]
      [("x", "y")]) (.set ["x"]) (.set ["y"]) .all).1 = .error .nodeNotFound := by decide +kernel

/-- C19, violation: the caller's sets are emptied by the call. -/
theorem C19_pops_arguments :
    (getFrontdoorSet id (CG.init [("x", []), ("m", ["x"]), ("y", ["m"])] [("x", "y")])
      (.set ["x"]) (.set ["y"]) .simple).2 = (.set [], .set []) := by decide +kernel

/-- C19, violation: names of more than one character are split into characters by the node check, so the call
raises AssertionError on a graph in which `{m}` satisfies the criterion. -/
theorem C19_long_names :
    Except.map Prod.fst (getFrontdoorSet id (CG.init [("x1", []), ("m", ["x1"]), ("y", ["m"])] [("x1", "y")])
      (.set ["x1"]) (.set ["y"]) .simple).1 = .error .assertion ∧
    Except.map Prod.fst (getFrontdoorSet id (CG.init [("x", []), ("m", ["x"]), ("y", ["m"])] [("x", "y")])
      (.set ["x"]) (.set ["y"]) .simple).1 = .ok (.names ["m"]) := by decide +kernel

/-- C19, violation: without the latent arc `x ↔ y` the call raises NodeNotFound although `{m}` still satisfies
the criterion. -/
theorem C19_crash :
    Except.map Prod.fst (getFrontdoorSet id (CG.init [("x", []), ("m", ["x"]), ("y", ["m"])] [])
      (.set ["x"]) (.set ["y"]) .simple).1 = .error .nodeNotFound := by decide +kernel

/-! ### C20 -/

/-- The second rule as d-separation. -/
theorem rule2_dsep {E : α → α → Prop} (hac : Acyclic E) {x : α} {Z : Set α} (hx : x ∉ Z)
    (h : ∀ z ∈ Z, ∀ p, IsBackDoorPath E x z p → HasCollider E p) : DSep (CutOut E {x}) {x} Z ∅ := by
  intro p hnd hp s hs z hz hsx hzZ
  rw [Set.mem_singleton_iff] at hsx
  subst hsx
  have hchain : ∀ q : List α, ActivePath (CutOut E {s}) ∅ q → q.IsChain (Adj E) := by
    intro q
    induction q with
    | nil => simp
    | cons a q ih =>
      intro hq
      cases q with
      | nil => simp
      | cons b q =>
        exact List.isChain_cons_cons.2 ⟨(ActivePath.adj hq).imp (·.1) (·.1), ih (ActivePath.tail hq)⟩
  cases p with
  | nil => exact hp.elim
  | cons a p =>
    simp only [List.head?_cons, Option.mem_def, Option.some.injEq] at hs
    subst hs
    cases p with
    | nil =>
      simp only [List.getLast?_singleton, Option.mem_def, Option.some.injEq] at hz
      subst hz; exact hx hzZ
    | cons b p =>
      have hba : E b a := by
        rcases ActivePath.adj hp with h' | h'
        · exact absurd rfl h'.2
        · exact h'.1
      obtain ⟨l₁, u, v, w, l₂, heq, h1, h2⟩ :=
        h z hzZ (a :: b :: p) ⟨⟨hnd, hchain _ hp, rfl, hz⟩, b, p, rfl, hba⟩
      rw [heq] at hp hnd
      have hopen := open_at l₁ l₂ hp
      have hua : u ≠ a := by
        rintro rfl
        cases l₁ with
        | nil =>
          simp only [List.nil_append, List.cons.injEq] at heq
          obtain ⟨-, rfl, -⟩ := heq
          exact hac.asymm hba h1
        | cons k l₁ =>
          simp only [List.cons_append, List.cons.injEq] at heq
          rw [← heq.1] at hnd
          simp at hnd
      have hwa : w ≠ a := by
        rintro rfl
        cases l₁ with
        | nil =>
          simp only [List.nil_append, List.cons.injEq] at heq
          rw [← heq.1] at hnd
          simp at hnd
        | cons k l₁ =>
          simp only [List.cons_append, List.cons.injEq] at heq
          rw [← heq.1] at hnd
          simp at hnd
      rcases hopen with ⟨_, _, z', hz', _⟩ | ⟨hn, _⟩
      · exact hz'
      · exact hn ⟨⟨h1, hua⟩, h2, hwa⟩

theorem frontdoor_value {c : Causation α} {A : List (α × α)} {G : α → α → Prop} (hE : IsExplicit c A U G)
    {V : Finset α} (hV : ∀ a b, G a b → a ∈ V ∧ b ∈ V)
    {Ω : α → Type} [∀ i, Fintype (Ω i)] {K : Type} [Field K] [LinearOrder K] [IsStrictOrderedRing K]
    (M : BayesNet (K := K) V G Ω) {t y : α} {S : List α} (hty : t ≠ y) (ht : t ∈ V) (hy : y ∈ V)
    (hS : ∀ s ∈ S, s ∈ V ∧ s ≠ y ∧ Reach1 G t s) (hb : FrontDoor G t y {a | a ∈ S})
    (hov : ∀ v, M.P {t} v ≠ 0 → M.P (S.toFinset ∪ {t}) v ≠ 0) (v : ∀ i, Ω i) (hv : M.P {t} v ≠ 0) :
    eval M (frontdoorProb t y S) v = M.Pdo {t} {y} v := by
  have hac := hE.acyclic
  have htS : t ∉ S := fun h => hac t (hS t h).2.2
  obtain ⟨r1, r2, r3⟩ := hb
  have d2 := (dsep_iff_not_connected (acyclic_cutOut hac _) {t} {a | a ∈ S} ∅ (fun _ _ => id) (fun _ _ => id)).1
    (rule2_dsep hac (Z := {a | a ∈ S}) htS r2)
  have d3 := (dsep_iff_not_connected (acyclic_cutOut hac _) {a | a ∈ S} {y} {t}
    (fun a ha h => htS (by rw [Set.mem_singleton_iff] at h; exact h ▸ ha))
    (fun a ha h => hty (by rw [Set.mem_singleton_iff] at h ha; rw [← h, ← ha]))).1 r3
  have hmain := frontdoor_adjust (M := M) hac (fun i j _ hij => (hV i j hij).1) (x := t) (Y := {y})
    (Z := S.toFinset) ht (Finset.singleton_subset_iff.2 hy) (fun s hs => (hS s (List.mem_toFinset.1 hs)).1)
    (by simpa using hty) (by simpa using htS)
    (by rw [Finset.disjoint_singleton_left, List.mem_toFinset]; exact fun h => (hS y h).2.1 rfl)
    (by
      intro y' hy' hr
      rw [Finset.mem_singleton] at hy'; subst hy'
      obtain ⟨p, k1, k2, k3⟩ := diPath_of_reach hr
      obtain ⟨z, hz, hzp⟩ := r1 p ⟨k1.imp (fun _ _ h => h.1), k2, k3⟩
      have hzS : z ∈ S := hz
      have hnot : ∀ (p : List α), p.IsChain (fun a b => G a b ∧ a ∉ S.toFinset ∧ b ∉ S.toFinset) →
          (∀ s, p.head? = some s → s ∉ S) → ∀ v ∈ p, v ∉ S := by
        intro p
        induction p with
        | nil => intro _ _ v hv; cases hv
        | cons a p ih =>
          intro hc hh v hv
          rcases List.mem_cons.1 hv with rfl | hv
          · exact hh _ rfl
          · cases p with
            | nil => cases hv
            | cons b p =>
              rw [List.isChain_cons_cons] at hc
              refine ih hc.2 (fun s hs => ?_) v hv
              simp only [List.head?_cons, Option.some.injEq] at hs
              subst hs
              simpa using hc.1.2.2
      exact hnot p k1 (fun s hs => by rw [k2] at hs; cases hs; exact htS) z hzp hzS)
    (by
      intro z hz hr
      have e1 : ({a | a ∈ {t} ∪ S.toFinset ∪ (∅ : Finset α)} : Set α) = {t} ∪ {a | a ∈ S} ∪ ∅ := by ext; simp
      have e2 : ({a | a ∈ (∅ : Finset α)} : Set α) = ∅ := by ext; simp
      have e3 : ({a | a ∈ ({t} : Finset α)} : Set α) = {t} := by ext; simp
      rw [e1, e2, e3] at hr
      exact d2 t rfl z (List.mem_toFinset.1 hz) hr)
    (by
      intro z hz y' hy' hr
      rw [Finset.mem_singleton] at hy'; subst hy'
      have e1 : ({a | a ∈ S.toFinset ∪ {y'} ∪ ({t} : Finset α)} : Set α) = {a | a ∈ S} ∪ {y'} ∪ {t} := by
        ext; simp [or_assoc]; tauto
      have e2 : ({a | a ∈ S.toFinset} : Set α) = {a | a ∈ S} := by ext; simp
      have e3 : ({a | a ∈ ({t} : Finset α)} : Set α) = {t} := by ext; simp
      rw [e1, e2, e3] at hr
      exact d3 z (List.mem_toFinset.1 hz) y' rfl hr)
    (by
      intro z hz hr
      exact hac t (Relation.TransGen.trans_left (hS z (List.mem_toFinset.1 hz)).2.2 hr)) hov v hv
  rw [← hmain, frontdoorProb, eval_mk]
  refine sumOut_congr (fun u hu => ?_)
  have hut : M.P {t} u ≠ 0 := by
    rw [BayesNet.dependsOn_P (fun i j _ hij => (hV i j hij).1) {t} (fun i hi => by
      simp at hi; subst hi; exact hu i (by simpa using htS))]
    exact hv
  simp only [List.map_cons, List.map_nil, List.prod_cons, List.prod_nil, eval_mk, List.toFinset_nil,
    sumOut_empty, mul_one, if_true, one_mul, List.toFinset_cons, List.cons_ne_nil, if_false, insert_empty_eq,
    reduceCtorEq]
  congr 1
  · split
    · rename_i h0; subst h0
      simp [BayesNet.cond, hut]
    · rfl
  · congr 1
    funext w
    congr 1
    · congr 1
      ext; simp
    · simp [BayesNet.cond, BayesNet.P_empty hac]

/-- the statement of `C20_frontdoor_expression` for the graph itself -/
theorem frontdoor_expression_at (c : Causation α) (A : List (α × α)) (hD : IsDict c) (h : IsDiagram c A U) :
    ∀ (ord : List α → List α), (∀ l, (ord l).Perm l) → ∀ T Y adj r p,
      (getFrontdoorSet ord (CG.init c A) T Y adj).1 = .ok (r, p) →
      ∃ t y, ((T = .set [t] ∧ Y = .set [y]) ∨ (T = .name t ∧ Y = .name y)) ∧
      (t ≠ y → OnEdge c y →
        ∀ (V : Finset α), (∀ a b, (CG.init c A).explicitDag.E a b → a ∈ V ∧ b ∈ V) →
        ∀ (Ω : α → Type) [∀ i, Fintype (Ω i)] (K : Type) [Field K] [LinearOrder K] [IsStrictOrderedRing K]
        (M : BayesNet (K := K) V (CG.init c A).explicitDag.E Ω),
        (∀ v, M.P {t} v ≠ 0 → M.P (((frontSets r).headD []).toFinset ∪ {t}) v ≠ 0) →
        ∀ v, M.P {t} v ≠ 0 → eval M p v = M.Pdo {t} {y} v) := by
  have hE := C08_explicit_faithful_partial c A h
  refine fun ord hord T Y adj r p hok => ?_
  obtain ⟨t, y, hTY, hs⟩ := get_front hok
  refine ⟨t, y, hTY, fun hty hy V hV Ω _ K _ _ _ M hov v hv => ?_⟩
  obtain ⟨htU, S, rest, hr, rfl, h1, _⟩ := front_result hD h hord hty hy hs
  have hSin : S ∈ frontSets r := by rw [hr]; exact List.mem_cons_self
  obtain ⟨k1, k2, k3⟩ := h1 S hSin
  rw [hr, List.headD_cons] at hov
  have htE : OnEdge c t := by
    unfold frontdoorSearch allSimplePaths at hs
    by_cases hn : t ∈ (CG.init c A).observedDag.nodes
    · exact CG.mem_nodes_observed.1 hn
    · rw [if_neg hn] at hs; cases hs
  have hinV : ∀ v, OnEdge c v → v ∈ V := by
    rintro v ⟨u, hu | hu⟩
    · exact (hV _ _ (CG.E_explicit.2 (.inl hu))).2
    · exact (hV _ _ (CG.E_explicit.2 (.inl hu))).1
  refine frontdoor_value hE hV M hty (hinV t htE) (hinV y hy) (fun s hs' => ?_) k1 hov v hv
  obtain ⟨m1, m2, q, hq, hsq⟩ := k3 s hs'
  have hreach : Reach1 (CG.init c A).explicitDag.E t s := by
    rcases Relation.reflTransGen_iff_eq_or_transGen.1 ((reach_of_diPath q t y hq).2 s hsq).1 with h' | h'
    · exact absurd h' m1
    · exact h'
  refine ⟨?_, m2, hreach⟩
  obtain ⟨u, _, hu⟩ := Relation.TransGen.tail'_iff.1 hreach
  exact (hV _ _ hu).2

/-- C20. Whenever `get_frontdoor_set(t, y, ...)` returns an expression on a causal diagram, its value equals
`P(y | do(t))` in every discrete causal model of the diagram, at every treatment value of positive probability,
provided all values of the adjustment set have positive probability under every treatment value that has. -/
theorem C20_frontdoor_expression (c : Causation α) (A : List (α × α)) (hD : IsDict c) (h : IsDiagram c A U) :
    ∃ G, IsExplicit c A U G ∧ ∀ (ord : List α → List α), (∀ l, (ord l).Perm l) → ∀ T Y adj r p,
      (getFrontdoorSet ord (CG.init c A) T Y adj).1 = .ok (r, p) →
      ∃ t y, ((T = .set [t] ∧ Y = .set [y]) ∨ (T = .name t ∧ Y = .name y)) ∧
      (t ≠ y → OnEdge c y →
        ∀ (V : Finset α), (∀ a b, G a b → a ∈ V ∧ b ∈ V) →
        ∀ (Ω : α → Type) [∀ i, Fintype (Ω i)] (K : Type) [Field K] [LinearOrder K] [IsStrictOrderedRing K]
        (M : BayesNet (K := K) V G Ω),
        (∀ v, M.P {t} v ≠ 0 → M.P (((frontSets r).headD []).toFinset ∪ {t}) v ≠ 0) →
        ∀ v, M.P {t} v ≠ 0 → eval M p v = M.Pdo {t} {y} v) :=
  ⟨_, C08_explicit_faithful_partial c A h, frontdoor_expression_at c A hD h⟩

/-- non-vacuity: on the front-door graph a positive model (independent fair coins) meets the hypotheses -/
example : ∃ G, IsExplicit [("x", []), ("m", ["x"]), ("y", ["m"])] [("x", "y")] (U (α := String)) G ∧
    ∀ V : Finset String, (∀ a b, G a b → a ∈ V ∧ b ∈ V) →
    ∀ v, eval (fairCoins V G) (frontdoorProb "x" "y" ["m"]) v = (fairCoins V G).Pdo {"x"} {"y"} v := by
  obtain ⟨G, hE, hm⟩ := C20_frontdoor_expression [("x", []), ("m", ["x"]), ("y", ["m"])] [("x", "y")]
    (by constructor <;> decide) (isDiagram_of_test _ _ (by decide))
  refine ⟨G, hE, fun V hV v => ?_⟩
  obtain ⟨t, y, h1, h2⟩ := hm id (fun _ => List.Perm.refl _) (.name "x") (.name "y") .simple (.names ["m"])
    (frontdoorProb "x" "y" ["m"]) (by rfl)
  simp at h1
  obtain ⟨rfl, rfl⟩ := h1
  have hp : ∀ S w, (fairCoins V G).P S w ≠ 0 := fun S w =>
    ne_of_gt (BayesNet.Positive.P_pos (fun _ _ _ => by norm_num [fairCoins]) _ w)
  exact h2 (by decide) ⟨"m", .inl ⟨["m"], by decide, by decide⟩⟩ V hV _ _ _ (fun _ _ => hp _ _) v (hp _ _)

end YL.Props
