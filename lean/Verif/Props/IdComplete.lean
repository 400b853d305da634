import Verif.Lib.HedgeModels
import Verif.Props.Id

/-!
# C140: when `id` raises `IdentificationError` the effect is really not identifiable
-/

set_option linter.unusedSectionVars false

namespace YL.Props

open YL Spec LatentNames

variable {α : Type} [DecidableEq α] [LatentNames α]

/-- `v` is in `y` or has a directed path to `y` on which all variables satisfy `P` -/
def Avoid (c : Causation α) (P : α → Prop) (y : List α) (v : α) : Prop :=
  ∃ w ∈ y, Relation.ReflTransGen (fun a b => Parent c a b ∧ P a ∧ P b) v w

/-- the variables in `F` are linked by arcs inside `F` -/
def ArcConn (A : List (α × α)) (F : α → Prop) : Prop :=
  ∀ a b, F a → F b → Relation.ReflTransGen (fun a b => Paired A a b ∧ F a ∧ F b) a b

/-- every variable of `F` outside `S` has a child in `F` -/
def Grounded (c : Causation α) (S F : α → Prop) : Prop := ∀ v, F v → ¬ S v → ∃ w, F w ∧ Parent c v w

/-- a hedge for the effect of `X` on `Y` -/
structure HedgeFor (c : Causation α) (A : List (α × α)) (X Y : List α) (S F : α → Prop) : Prop where
  sub : ∀ v, S v → F v
  keys : ∀ v, F v → v ∈ c.keys
  some : ∃ v, S v
  connF : ArcConn A F
  connS : ArcConn A S
  ground : Grounded c S F
  down : ∀ v, S v → Avoid c (fun a => a ∉ X) Y v
  hit : ∃ v, F v ∧ v ∈ X

/-- what holds in every recursive call of `id(Y, X)` -/
structure CallInv (c : Causation α) (A : List (α × α)) (X Y : List α) (g : CG α) (y x : List α) : Prop where
  ind : Ind c A g
  yx : ∀ v ∈ y, v ∉ x
  keep : ∀ v ∈ X, v ∈ g.causation.keys → v ∈ x
  down : ∀ v, Avoid c (fun a => a ∈ g.causation.keys ∧ a ∉ x) y v → Avoid c (fun a => a ∉ X) Y v
  hit : ∀ S F : α → Prop, (∀ v, S v → F v) → (∀ v, F v → v ∈ g.causation.keys) → (∀ v, S v → v ∉ x) → (∃ v, S v) →
    ArcConn A F → Grounded c S F → (∀ v, S v → Avoid c (fun a => a ∈ g.causation.keys ∧ a ∉ x) y v) →
    (∃ v, F v ∧ v ∈ x) → ∃ v, F v ∧ v ∈ X

section
variable {c : Causation α} {A : List (α × α)} {X Y : List α} {g : CG α} {y x : List α}

theorem rtg_mono {r r' : α → α → Prop} {a b : α} (h : Relation.ReflTransGen r a b) (hr : ∀ a b, r a b → r' a b) :
    Relation.ReflTransGen r' a b := by
  induction h with
  | refl => exact .refl
  | tail _ e ih => exact ih.tail (hr _ _ e)

theorem Avoid.mono {P Q : α → Prop} {v : α} (h : Avoid c P y v) (hPQ : ∀ a, P a → Q a) : Avoid c Q y v := by
  obtain ⟨w, hw, hr⟩ := h
  exact ⟨w, hw, rtg_mono hr (fun a b e => ⟨e.1, hPQ a e.2.1, hPQ b e.2.2⟩)⟩

theorem Avoid.self {P : α → Prop} {v : α} (h : v ∈ y) : Avoid c P y v := ⟨v, h, .refl⟩

theorem Avoid.step {P : α → Prop} {u v : α} (h : Avoid c P y v) (e : Parent c u v) (hu : P u) (hv : P v) : Avoid c P y u := by
  obtain ⟨w, hw, hr⟩ := h
  exact ⟨w, hw, hr.head ⟨e, hu, hv⟩⟩

/-- restricting the graph and the treatments to a set of variables keeps the invariant -/
theorem CallInv.restrict (h : CallInv c A X Y g y x) {g' : CG α} (hg' : Ind c A g') {W : List α}
    (hk : ∀ v, v ∈ g'.causation.keys ↔ v ∈ W) (hW : ∀ v ∈ W, v ∈ g.causation.keys) :
    CallInv c A X Y g' y (x.filter (· ∈ W)) := by
  have hsub : ∀ a, (a ∈ g'.causation.keys ∧ a ∉ x.filter (· ∈ W)) → (a ∈ g.causation.keys ∧ a ∉ x) := by
    rintro a ⟨h1, h2⟩
    rw [hk] at h1
    refine ⟨hW a h1, fun hx => h2 ?_⟩
    simp [hx, h1]
  refine ⟨hg', fun v hv hvx => h.yx v hv (List.mem_filter.1 hvx).1, ?_, ?_, ?_⟩
  · intro v hv hvk
    rw [hk] at hvk
    simp [h.keep v hv (hW v hvk), hvk]
  · exact fun v hv => h.down v (hv.mono hsub)
  · intro S F h1 h2 h3 h4 h5 h6 h7 ⟨v, hvF, hvx⟩
    refine h.hit S F h1 (fun v hv => hW v ((hk v).1 (h2 v hv))) (fun v hv hx => h3 v hv ?_) h4 h5 h6
      (fun v hv => (h7 v hv).mono hsub) ⟨v, hvF, (List.mem_filter.1 hvx).1⟩
    have := (hk v).1 (h2 v (h1 v hv))
    simp [hx, this]

/-- a set whose members outside `S` have children inside is upstream of everything `S` is upstream of -/
theorem grounded_avoid (hac : Acyclic (Parent c)) {S F : α → Prop} {P : α → Prop} (hfin : ∀ v, F v → v ∈ c.keys)
    (hg : Grounded c S F) (hP : ∀ v, F v → P v) (hS : ∀ v, S v → Avoid c P y v) : ∀ v, F v → Avoid c P y v := by
  classical
  by_contra hcon
  push Not at hcon
  obtain ⟨v0, h0, h0'⟩ := hcon
  obtain ⟨u, hu, hsink⟩ := exists_sink hac (c.keys.toFinset.filter (fun v => F v ∧ ¬ Avoid c P y v))
    ⟨v0, Finset.mem_filter.2 ⟨List.mem_toFinset.2 (hfin _ h0), h0, h0'⟩⟩
  rw [Finset.mem_filter] at hu
  obtain ⟨w, hw, e⟩ := hg u hu.2.1 (fun hs => hu.2.2 (hS u hs))
  by_cases hA : Avoid c P y w
  · exact hu.2.2 (hA.step e (hP u hu.2.1) (hP w hw))
  · exact hsink w (Finset.mem_filter.2 ⟨List.mem_toFinset.2 (hfin _ hw), hw, hA⟩) e

theorem buildSubGraph_err {S : List α} {e : Err} (h : g.buildSubGraph S = .error e) : e ≠ .identification := by
  unfold CG.buildSubGraph checkNodes at h
  split at h
  · cases h
  · rename_i h'
    split at h'
    · cases h'
    · cases h'; cases h; decide

theorem chainFactors_err {l s : List α} {e : Err} (h : chainFactors l s = .error e) : e ≠ .identification := by
  unfold chainFactors at h
  split at h
  · cases h
  · cases h; decide

theorem removeIncoming_err (hs : g.Sync) {e : Err} (h : g.removeIncoming x = .error e) : e ≠ .identification := by
  by_cases hx : ∀ v ∈ x, v ∈ g.causation.keys
  · obtain ⟨g', h', _⟩ := C07_removeIncoming_exact g hs x hx
    rw [h'] at h; cases h
  · unfold CG.removeIncoming checkNodes at h
    have : ¬ (x.all (· ∈ g.causation.keys) = true) := by simpa using hx
    rw [if_neg this] at h
    cases h; decide

/-- whenever a call fails there is a hedge for the original query -/
theorem fail_hedge (hac : Acyclic (Parent c)) :
    ∀ (f : Nat) (nested : Bool) (y x : List α) (prob : Prob α) (g : CG α), CallInv c A X Y g y x →
      idAux f nested y x prob g = .error .identification → ∃ S F, HedgeFor c A X Y S F := by
  intro f
  induction f with
  | zero => intro _ _ _ _ _ _ h; cases h
  | succ f ih =>
    intro nested y x prob g hI hok
    have hg := hI.ind
    obtain ⟨vtopo, ht, -⟩ := (C02_topoOrder g).1 (hg.acyclic hac)
    rw [idAux] at hok
    simp only [ht] at hok
    by_cases hx : x = []
    · rw [if_pos hx] at hok; cases hok
    rw [if_neg hx] at hok
    by_cases han : g.causation.keys.any (· ∉ g.ancestors y) = true
    · rw [if_pos han] at hok
      cases hbg : g.buildSubGraph (g.ancestors y) with
      | error e =>
        rw [hbg] at hok; cases hok
        exact absurd rfl (buildSubGraph_err hbg)
      | ok g' =>
        rw [hbg] at hok
        dsimp only at hok
        have hsubk := buildSubGraph_ok hbg
        obtain ⟨g'', e1, e2, e3⟩ := hg.build hsubk
        rw [e1] at hbg; cases hbg
        exact ih _ _ _ _ _ (hI.restrict e2 e3 hsubk) hok
    rw [if_neg han] at hok
    have hall : ∀ v ∈ g.causation.keys, v ∈ g.ancestors y := by simpa using han
    cases hr : g.removeIncoming x with
    | error e =>
      rw [hr] at hok; cases hok
      exact absurd rfl (removeIncoming_err hg.sync hr)
    | ok gx =>
      rw [hr] at hok
      dsimp only at hok
      have hxk := removeIncoming_ok hr
      obtain ⟨gx', r1, _, r3, _, r5, _⟩ := C07_removeIncoming_exact g hg.sync x hxk
      rw [hr] at r1; cases r1
      -- upstream of y in the graph without the edges into x
      have hup : ∀ v, v ∈ g.causation.keys → v ∉ x →
          (v ∈ gx.ancestors y ↔ Avoid c (fun a => a ∈ g.causation.keys ∧ a ∉ x) y v) := by
        intro v hvk hvx
        rw [C01_ancestors_exact]
        constructor
        · rintro ⟨w, hw, hrw⟩
          refine ⟨w, hw, ?_⟩
          have key : ∀ a, Reach (Parent gx.causation) a w → a ∈ g.causation.keys → a ∉ x →
              Relation.ReflTransGen (fun a b => Parent c a b ∧ (a ∈ g.causation.keys ∧ a ∉ x) ∧ b ∈ g.causation.keys ∧ b ∉ x) a w := by
            intro a ha
            induction ha using Relation.ReflTransGen.head_induction_on with
            | refl => intro _ _; exact .refl
            | head e _ ih' =>
              intro h1 h2
              obtain ⟨e1, e2⟩ := (r5 _ _).1 e
              obtain ⟨e3, e4, e5⟩ := (hg.par _ _).1 e1
              exact (ih' e5 e2).head ⟨e3, ⟨h1, h2⟩, e5, e2⟩
          exact key v hrw hvk hvx
        · rintro ⟨w, hw, hrw⟩
          refine ⟨w, hw, rtg_mono hrw (fun a b e => ?_)⟩
          exact (r5 a b).2 ⟨(hg.par a b).2 ⟨e.1, e.2.1.1, e.2.2.1⟩, e.2.2.2⟩
      by_cases hw : g.causation.keys.filter (fun a => a ∉ x ∧ a ∉ gx.ancestors y) ≠ []
      · rw [if_pos hw] at hok
        refine ih _ _ _ _ _ ⟨hg, ?_, ?_, ?_, ?_⟩ hok
        · intro v hv hvx
          rcases List.mem_append.1 hvx with hvx | hvx
          · exact hI.yx v hv hvx
          · simp only [List.mem_filter, decide_eq_true_eq] at hvx
            exact hvx.2.2 ((C01_ancestors_exact gx y v).2 ⟨v, hv, .refl⟩)
        · exact fun v hv hvk => List.mem_append_left _ (hI.keep v hv hvk)
        · exact fun v hv => hI.down v (hv.mono (fun a ha => ⟨ha.1, fun h => ha.2 (List.mem_append_left _ h)⟩))
        · intro S F h1 h2 h3 h4 h5 h6 h7 ⟨v, hvF, hvx⟩
          have h3' : ∀ v, S v → v ∉ x := fun v hv h => h3 v hv (List.mem_append_left _ h)
          have h7' : ∀ v, S v → Avoid c (fun a => a ∈ g.causation.keys ∧ a ∉ x) y v :=
            fun v hv => (h7 v hv).mono (fun a ha => ⟨ha.1, fun h => ha.2 (List.mem_append_left _ h)⟩)
          by_cases hFx : ∃ v, F v ∧ v ∈ x
          · exact hI.hit S F h1 h2 h3' h4 h5 h6 h7' hFx
          · exfalso
            push Not at hFx
            have hAv := grounded_avoid hac (fun v hv => hg.sub v (h2 v hv)) h6
              (P := fun a => a ∈ g.causation.keys ∧ a ∉ x) (fun v hv => ⟨h2 v hv, hFx v hv⟩) h7' v hvF
            rcases List.mem_append.1 hvx with hvx | hvx
            · exact hFx v hvF hvx
            · simp only [List.mem_filter, decide_eq_true_eq] at hvx
              exact hvx.2.2 ((hup v hvx.1 hvx.2.1).2 hAv)
      · rw [if_neg hw] at hok
        have hdown : ∀ v ∈ g.causation.keys, v ∉ x → Avoid c (fun a => a ∈ g.causation.keys ∧ a ∉ x) y v := by
          intro v hv hvx
          rw [← hup v hv hvx]
          by_contra hcon
          apply hw
          exact List.ne_nil_of_mem (List.mem_filter.2 ⟨hv, by simpa using ⟨hvx, hcon⟩⟩)
        obtain ⟨R, ⟨p1, p2, p3, p4⟩, hR⟩ := hg.comps hac x
        -- a component of the graph without x is linked by arcs
        have hconn : ∀ d ∈ (g.removeNodes x).cComponents, ArcConn A (· ∈ d) := by
          intro d hd a b ha hb
          have hab := (p4 d hd a ha b ((p2 b).2 ⟨d, hd, hb⟩)).1 hb
          rw [hR] at hab
          have key : ∀ z, Relation.ReflTransGen (fun a b => Paired A a b ∧ (a ∈ g.causation.keys ∧ a ∉ x) ∧
              (b ∈ g.causation.keys ∧ b ∉ x)) a z → z ∈ d ∧
              Relation.ReflTransGen (fun a b => Paired A a b ∧ a ∈ d ∧ b ∈ d) a z := by
            intro z hz
            induction hz with
            | refl => exact ⟨ha, .refl⟩
            | tail hz' e ih' =>
              obtain ⟨i1, i2⟩ := ih'
              rename_i q r
              have hrN : r ∈ g.dag.nodes := (hg.node r).2 ⟨e.2.2.1, .inr ⟨_, e.1⟩⟩
              have hrd : r ∈ d := by
                refine (p4 d hd q i1 r ⟨hrN, e.2.2.2⟩).2 ?_
                rw [hR]; exact .single e
              exact ⟨hrd, i2.tail ⟨e.1, i1, hrd⟩⟩
          exact (key b hab).2
        match hcs : (g.removeNodes x).cComponents with
        | [] => rw [hcs] at hok; cases hok
        | [s] =>
          rw [hcs] at hok p1 p2 p3 p4 hconn
          dsimp only at hok
          have hs' : ∀ v, v ∈ s ↔ v ∈ g.dag.nodes ∧ v ∉ x := by
            intro v
            rw [show (v ∈ g.dag.nodes ∧ v ∉ x) ↔ v ∈ {v | v ∈ g.dag.nodes ∧ v ∉ x} from Iff.rfl, p2 v]
            simp
          by_cases h5 : setEq (g.cComponents.headD []) g.dag.nodes = true
          · -- the failure
            obtain ⟨q1, q2, q3, q4⟩ := hg.comps0 hac
            obtain ⟨a0, ha0⟩ := List.exists_mem_of_ne_nil _ (p1 s (by simp))
            have hne : g.dag.nodes ≠ [] := List.ne_nil_of_mem ((hs' a0).1 ha0).1
            have hnodesx : ∀ v ∈ x, v ∈ g.dag.nodes ∧ ∃ w, w ∈ g.dag.nodes ∧ Parent c v w := by
              intro v hv
              obtain ⟨w, hw', hr'⟩ := (C01_ancestors_exact g y v).1 (hall v (hxk v hv))
              rcases hr'.cases_head with rfl | ⟨u, hu, _⟩
              · exact absurd hv (hI.yx _ hw')
              · have := (hg.par _ _).1 hu
                exact ⟨(hg.node v).2 ⟨this.2.1, .inl ⟨u, .inr this.1⟩⟩, u, (hg.node u).2 ⟨this.2.2, .inl ⟨v, .inl this.1⟩⟩, this.1⟩
            refine ⟨(· ∈ s), (· ∈ g.dag.nodes), ⟨fun v hv => ((hs' v).1 hv).1, fun v hv => hg.sub v (hg.nodeKey hv), ⟨a0, ha0⟩, ?_,
              hconn s (by simp), ?_, ?_, ?_⟩⟩
            · have hhead : g.cComponents.headD [] ∈ g.cComponents := by
                cases hcc : g.cComponents with
                | nil =>
                  rw [hcc] at h5
                  have := (setEq_iff.1 h5 a0).2 ((hs' a0).1 ha0).1
                  simp at this
                | cons d l => simp
              intro a b ha hb
              have hac' := (setEq_iff.1 h5 a).2 ha
              have hbc' := (setEq_iff.1 h5 b).2 hb
              have := (q4 _ hhead a hac' b hb).1 hbc'
              exact rtg_mono this (fun p q e => ⟨e.1, (hg.node p).2 ⟨e.2.1, .inr ⟨q, e.1.symm⟩⟩, (hg.node q).2 ⟨e.2.2, .inr ⟨p, e.1⟩⟩⟩)
            · intro v hv hvs
              have hvx : v ∈ x := by
                by_contra hcon
                exact hvs ((hs' v).2 ⟨hv, hcon⟩)
              exact (hnodesx v hvx).2
            · intro v hv
              exact hI.down v (hdown v (hg.nodeKey ((hs' v).1 hv).1) ((hs' v).1 hv).2)
            · -- an original treatment
              refine hI.hit (· ∈ s) (· ∈ g.dag.nodes) (fun v hv => ((hs' v).1 hv).1) (fun v hv => hg.nodeKey hv)
                (fun v hv => ((hs' v).1 hv).2) ⟨a0, ha0⟩ ?_ ?_ (fun v hv => hdown v (hg.nodeKey ((hs' v).1 hv).1) ((hs' v).1 hv).2) ?_
              · have hhead : g.cComponents.headD [] ∈ g.cComponents := by
                  cases hcc : g.cComponents with
                  | nil =>
                    rw [hcc] at h5
                    have := (setEq_iff.1 h5 a0).2 ((hs' a0).1 ha0).1
                    simp at this
                  | cons d l => simp
                intro a b ha hb
                have hac' := (setEq_iff.1 h5 a).2 ha
                have hbc' := (setEq_iff.1 h5 b).2 hb
                have := (q4 _ hhead a hac' b hb).1 hbc'
                exact rtg_mono this (fun p q e => ⟨e.1, (hg.node p).2 ⟨e.2.1, .inr ⟨q, e.1.symm⟩⟩, (hg.node q).2 ⟨e.2.2, .inr ⟨p, e.1⟩⟩⟩)
              · intro v hv hvs
                have hvx : v ∈ x := by
                  by_contra hcon
                  exact hvs ((hs' v).2 ⟨hv, hcon⟩)
                exact (hnodesx v hvx).2
              · obtain ⟨v, hv⟩ := List.exists_mem_of_ne_nil _ hx
                exact ⟨v, (hnodesx v hv).1, hv⟩
          rw [if_neg h5] at hok
          by_cases h6 : g.cComponents.any (setEq s) = true
          · rw [if_pos h6] at hok
            cases hch : chainFactors vtopo s with
            | error e =>
              rw [hch] at hok; cases hok
              exact absurd rfl (chainFactors_err hch)
            | ok ps => rw [hch] at hok; cases hok
          · rw [if_neg h6] at hok
            cases hfind : g.cComponents.find? (fun sub => s.all (· ∈ sub)) with
            | none => rw [hfind] at hok; cases hok
            | some sub =>
              rw [hfind] at hok
              dsimp only at hok
              cases hch : chainFactors vtopo sub with
              | error e =>
                rw [hch] at hok; cases hok
                exact absurd rfl (chainFactors_err hch)
              | ok ps =>
                rw [hch] at hok
                dsimp only at hok
                obtain ⟨q1, q2, q3, q4⟩ := hg.comps0 hac
                have hsub := List.mem_of_find?_eq_some hfind
                have hsubk : ∀ v ∈ sub, v ∈ g.causation.keys := fun v hv => hg.nodeKey ((q2 v).2 ⟨sub, hsub, hv⟩)
                obtain ⟨g', e1, e2, e3⟩ := hg.build hsubk
                rw [e1] at hok
                dsimp only at hok
                cases hrec : idAux f true y (x.filter (· ∈ sub)) (.mk [] [] [] ps) g' with
                | ok r' => rw [hrec] at hok; cases hok
                | error e =>
                  rw [hrec] at hok
                  cases hok
                  exact ih _ _ _ _ _ (hI.restrict e2 e3 hsubk) hrec
        | s :: t :: l =>
          rw [hcs] at hok p1 p2 p3 p4
          dsimp only at hok
          cases hmo : mapOk (fun c => idAux f nested c (g.causation.keys.filter (· ∉ c)) prob g) (s :: t :: l) with
          | ok rs => rw [hmo] at hok; cases hok
          | error e =>
            rw [hmo] at hok
            cases hok
            obtain ⟨d, hd, hdr⟩ := mapOk_err hmo
            have hdk : ∀ v ∈ d, v ∈ g.causation.keys ∧ v ∉ x := fun v hv =>
              ⟨hg.nodeKey ((p2 v).2 ⟨d, hd, hv⟩).1, ((p2 v).2 ⟨d, hd, hv⟩).2⟩
            have hav : ∀ v, Avoid c (fun a => a ∈ g.causation.keys ∧ a ∉ g.causation.keys.filter (· ∉ d)) d v →
                Avoid c (fun a => a ∈ g.causation.keys ∧ a ∉ x) y v := by
              rintro v ⟨w, hw', hrw⟩
              obtain ⟨z, hz, hrz⟩ := hdown w (hdk w hw').1 (hdk w hw').2
              refine ⟨z, hz, (rtg_mono hrw (fun a b e => ?_)).trans hrz⟩
              have hin : ∀ a, (a ∈ g.causation.keys ∧ a ∉ g.causation.keys.filter (· ∉ d)) → (a ∈ g.causation.keys ∧ a ∉ x) := by
                rintro a ⟨h1, h2⟩
                have : a ∈ d := by
                  by_contra hcon
                  exact h2 (List.mem_filter.2 ⟨h1, by simpa using hcon⟩)
                exact hdk a this
              exact ⟨e.1, hin a e.2.1, hin b e.2.2⟩
            refine ih _ _ _ _ _ ⟨hg, fun v hv => by simp [hv], ?_, fun v hv => hI.down v (hav v hv), ?_⟩ hdr
            · intro v hv hvk
              refine List.mem_filter.2 ⟨hvk, ?_⟩
              have := hI.keep v hv hvk
              simpa using fun hvd => (hdk v hvd).2 this
            · intro S F h1 h2 h3 h4 h5 h6 h7 ⟨v, hvF, hvx⟩
              have hSd : ∀ v, S v → v ∈ d := by
                intro v hv
                by_contra hcon
                exact h3 v hv (List.mem_filter.2 ⟨h2 v (h1 v hv), by simpa using hcon⟩)
              refine hI.hit S F h1 h2 (fun v hv => (hdk v (hSd v hv)).2) h4 h5 h6
                (fun v hv => hdown v (hdk v (hSd v hv)).1 (hdk v (hSd v hv)).2) ?_
              by_contra hcon
              push Not at hcon
              obtain ⟨a, ha⟩ := h4
              have hlink := h5 a v (h1 a ha) hvF
              have key : ∀ z, Relation.ReflTransGen (fun a b => Paired A a b ∧ F a ∧ F b) a z → z ∈ d := by
                intro z hz
                induction hz with
                | refl => exact hSd a ha
                | tail hz' e ih' =>
                  rename_i q r
                  have hrN : r ∈ g.dag.nodes := (hg.node r).2 ⟨h2 r e.2.2, .inr ⟨_, e.1⟩⟩
                  refine (p4 d hd q ih' r ⟨hrN, hcon r e.2.2⟩).2 ?_
                  rw [hR]
                  exact .single ⟨e.1, ⟨h2 q e.2.1, hcon q e.2.1⟩, h2 r e.2.2, hcon r e.2.2⟩
              have := (List.mem_filter.1 hvx).2
              simp only [decide_eq_true_eq] at this
              exact this (key v hlink)

/-- a hedge of the diagram gives two models -/
theorem hedge_models (hc : Declared c A) (h : IsDiagram c A U) {G : α → α → Prop} (hE : IsExplicit c A U G)
    {V : Finset α} (hV : ∀ a b, G a b → a ∈ V ∧ b ∈ V) (hk : ∀ k ∈ c.keys, k ∈ V) (hX : ∀ v ∈ X, v ∈ c.keys)
    (hY : ∀ v ∈ Y, v ∈ c.keys ∧ v ∉ X) {S F : α → Prop} (H : HedgeFor c A X Y S F) :
    ∃ M₁ M₂ : BayesNet (K := ℚ) V G (fun _ => Bool × Bool), (∀ v, 0 < M₁.P c.keys.toFinset v) ∧
      (∀ v, M₁.P c.keys.toFinset v = M₂.P c.keys.toFinset v) ∧ ∃ v, M₁.Pdo X.toFinset Y.toFinset v ≠ M₂.Pdo X.toFinset Y.toFinset v := by
  classical
  have hnl : ∀ v ∈ c.keys, ∀ i, v ≠ U i := fun v hv i e => (h.fresh i).1 (e ▸ hv)
  have hG : ∀ u v, Parent c u v → G u v := fun u v e => (hE.observed u v (hnl u (hc.parents u v e))).2 e
  have hdk : ∀ v, Avoid c (fun a => a ∉ X) Y v → v ∈ c.keys ∧ v ∉ X := by
    rintro v ⟨w, hw, hr⟩
    rcases hr.cases_head with rfl | ⟨u, e, -⟩
    · exact hY _ hw
    · exact ⟨hc.parents _ _ e.1, e.2.1⟩
  have hup : ∀ v, ∃ w, F v → ¬ S v → F w ∧ Parent c v w := by
    intro v
    by_cases hv : F v ∧ ¬ S v
    · obtain ⟨w, hw⟩ := H.ground v hv.1 hv.2
      exact ⟨w, fun _ _ => hw⟩
    · exact ⟨v, fun h1 h2 => absurd ⟨h1, h2⟩ hv⟩
  choose up hup using hup
  have hnx : ∀ v, ∃ w, Avoid c (fun a => a ∉ X) Y v → v ∉ Y → Avoid c (fun a => a ∉ X) Y w ∧ Parent c v w := by
    intro v
    by_cases hv : Avoid c (fun a => a ∉ X) Y v ∧ v ∉ Y
    · obtain ⟨w, hw, hr⟩ := hv.1
      rcases hr.cases_head with rfl | ⟨u, e, hr'⟩
      · exact absurd hw hv.2
      · exact ⟨u, fun _ _ => ⟨⟨w, hw, hr'⟩, e.1⟩⟩
    · exact ⟨v, fun h1 h2 => absurd ⟨h1, h2⟩ hv⟩
  choose nx hnx using hnx
  obtain ⟨y0, hy0⟩ := H.some
  let O := c.keys.toFinset
  have memO : ∀ v, v ∈ O ↔ v ∈ c.keys := fun v => List.mem_toFinset
  have memF : ∀ v, v ∈ O.filter F ↔ F v := fun v => by
    rw [Finset.mem_filter, memO]; exact ⟨fun h => h.2, fun h => ⟨H.keys v h, h⟩⟩
  have memS : ∀ v, v ∈ O.filter S ↔ S v := fun v => by
    rw [Finset.mem_filter, memO]; exact ⟨fun h => h.2, fun h => ⟨H.keys v (H.sub v h), h⟩⟩
  have memD : ∀ v, v ∈ O.filter (Avoid c (fun a => a ∉ X) Y) ↔ Avoid c (fun a => a ∉ X) Y v := fun v => by
    rw [Finset.mem_filter, memO]; exact ⟨fun h => h.2, fun h => ⟨(hdk v h).1, h⟩⟩
  let Λ := V.filter (fun l => (∃ i, l = U i) ∧ ∃ a b, a ≠ b ∧ F a ∧ F b ∧ ∀ v, G l v ↔ v = a ∨ v = b)
  -- every arc inside F has its latent variable in Λ
  have harc : ∀ a b, Paired A a b → F a → F b → ∃ l ∈ Λ, G l a ∧ G l b := by
    intro a b hab ha hb
    obtain ⟨i, hi, -⟩ := hE.arc a b hab
    have hne : a ≠ b := by
      rintro rfl
      rcases hab with h' | h' <;> exact h.irrefl _ h'
    refine ⟨U i, Finset.mem_filter.2 ⟨(hV _ _ ((hi a).2 (.inl rfl))).1, ⟨i, rfl⟩, a, b, hne, ha, hb, hi⟩, (hi a).2 (.inl rfl),
      (hi b).2 (.inr rfl)⟩
  have hH : Sign.Hedge V O G X.toFinset Y.toFinset (O.filter S) (O.filter F) (O.filter (Avoid c (fun a => a ∉ X) Y)) Λ up nx y0 := by
    refine { acyclic := hE.acyclic, OV := fun v hv => hk v ((memO v).1 hv), FO := Finset.filter_subset _ _,
             SF := fun v hv => (memF v).2 (H.sub v ((memS v).1 hv)), y0S := (memS y0).2 hy0, lat := ?_, two := ?_, connF := ?_,
             connS := ?_, upF := ?_, SD := fun v hv => (memD v).2 (H.down v ((memS v).1 hv)), DO := Finset.filter_subset _ _,
             nxD := ?_, DX := ?_, XO := ?_, YV := ?_, YX := ?_, hit := ?_ }
    · intro l hl
      rw [Finset.mem_filter] at hl
      obtain ⟨hlV, ⟨i, hi⟩, -⟩ := hl
      refine ⟨hlV, fun hO => ?_⟩
      exact hnl l ((memO l).1 hO) i hi
    · intro l hl
      rw [Finset.mem_filter] at hl
      obtain ⟨-, -, a, b, h1, h2, h3, h4⟩ := hl
      exact ⟨a, b, h1, (memF a).2 h2, (memF b).2 h3, h4⟩
    · intro B hBF ⟨b0, hb0⟩ hcl
      refine Finset.Subset.antisymm hBF (fun v hv => ?_)
      have hlink := H.connF b0 v ((memF b0).1 (hBF hb0)) ((memF v).1 hv)
      clear hv
      induction hlink with
      | refl => exact hb0
      | tail _ e ih =>
        obtain ⟨l, hl, g1, g2⟩ := harc _ _ e.1 e.2.1 e.2.2
        exact hcl l hl _ _ g1 g2 ih
    · intro B hBS ⟨b0, hb0⟩ hcl
      refine Finset.Subset.antisymm hBS (fun v hv => ?_)
      have hlink := H.connS b0 v ((memS b0).1 (hBS hb0)) ((memS v).1 hv)
      clear hv
      induction hlink with
      | refl => exact hb0
      | tail _ e ih =>
        obtain ⟨l, hl, g1, g2⟩ := harc _ _ e.1 (H.sub _ e.2.1) (H.sub _ e.2.2)
        exact hcl l hl _ _ g1 g2 ((memS _).2 e.2.1) ((memS _).2 e.2.2) ih
    · intro v hv hS
      obtain ⟨h1, h2⟩ := hup v ((memF v).1 hv) (fun h => hS ((memS v).2 h))
      exact ⟨hG _ _ h2, (memF _).2 h1⟩
    · intro v hv hvY
      obtain ⟨h1, h2⟩ := hnx v ((memD v).1 hv) (fun h => hvY (List.mem_toFinset.2 h))
      exact ⟨hG _ _ h2, (memD _).2 h1⟩
    · rw [Finset.disjoint_left]
      exact fun v hv hvX => (hdk v ((memD v).1 hv)).2 (List.mem_toFinset.1 hvX)
    · exact fun v hv => (memO v).2 (hX v (List.mem_toFinset.1 hv))
    · exact fun v hv => hk v (hY v (List.mem_toFinset.1 hv)).1
    · rw [Finset.disjoint_left]
      exact fun v hv hvX => (hY v (List.mem_toFinset.1 hv)).2 (List.mem_toFinset.1 hvX)
    · obtain ⟨v, h1, h2⟩ := H.hit
      exact ⟨v, (memF v).2 h1, List.mem_toFinset.2 h2⟩
  exact hH.not_identifiable

/-- C140. On every causal diagram with declared names, if `id(y, x)` raises `IdentificationError` then the effect is not
identifiable: there are two models of the diagram with the same, positive, distribution of the observed variables and
different `P(y | do(x))`. -/
theorem C140_id_complete (c : Causation α) (A : List (α × α)) (hD : IsDict c) (h : IsDiagram c A U)
    (hp : ∀ u v, Parent c u v → u ∈ c.map (·.1)) (ha : ∀ u v, Paired A u v → u ∈ c.map (·.1)) :
    ∃ G, IsExplicit c A U G ∧ ∀ (x y : List α), (∀ v ∈ x, v ∈ c.map (·.1)) → (∀ v ∈ y, v ∈ c.map (·.1) ∧ v ∉ x) →
      (CG.init c A).id y x = .error .identification →
      ∀ (V : Finset α), (∀ a b, G a b → a ∈ V ∧ b ∈ V) → (∀ k ∈ c.map (·.1), k ∈ V) →
        ∃ M₁ M₂ : BayesNet (K := ℚ) V G (fun _ => Bool × Bool), (∀ v, 0 < M₁.P (c.map (·.1)).toFinset v) ∧
          (∀ v, M₁.P (c.map (·.1)).toFinset v = M₂.P (c.map (·.1)).toFinset v) ∧
          ∃ v, M₁.Pdo x.toFinset y.toFinset v ≠ M₂.Pdo x.toFinset y.toFinset v := by
  refine ⟨_, C08_explicit_faithful_partial c A h, fun x y hx hy hok V hV hkV => ?_⟩
  have hc : Declared c A := ⟨hp, ha⟩
  have hg := ind_init hD hc
  have hfail : idGhost (CG.init c A) y x = .error .identification := by
    unfold CG.id at hok
    cases hgh : idGhost (CG.init c A) y x with
    | ok r => rw [hgh] at hok; cases hok
    | error e => rw [hgh] at hok; cases hok; rfl
  have hI : CallInv c A x y (CG.init c A) y x :=
    ⟨hg, fun v hv => (hy v hv).2, fun v hv _ => hv, fun v hv => hv.mono (fun a ha => ha.2),
      fun S F _ _ _ _ _ _ _ hh => hh⟩
  obtain ⟨S, F, H⟩ := fail_hedge h.acyclic _ _ _ _ _ _ hI hfail
  exact hedge_models hc h (C08_explicit_faithful_partial c A h) hV hkV hx hy H

end

end YL.Props
