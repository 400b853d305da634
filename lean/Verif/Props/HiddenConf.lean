import Verif.Model.HiddenConf
import Verif.Props.Graph
import Verif.Props.Backdoor
import Verif.Lib.Explicit
import Mathlib.Data.String.Basic

/-!
# C159: `estimate_hidden_cofounder`
-/

set_option linter.unusedSectionVars false

namespace YL.Spec

variable {α : Type}

/-- `a` is a proper ancestor of `b` -/
def ProperAnc (E : α → α → Prop) (a b : α) : Prop := Reach E a b ∧ a ≠ b

/-- node `v` lets the hidden node `u` be estimated: `v` is not hidden, `u` is its only hidden ancestor, and no observed ancestor of
`v` is influenced by `u` -/
def Estimable (E : α → α → Prop) (hidden : α → Prop) (v u : α) : Prop :=
  ¬ hidden v ∧ hidden u ∧ ProperAnc E u v ∧ (∀ w, hidden w → ProperAnc E w v → w = u) ∧
    ∀ a, ¬ hidden a → ProperAnc E a v → ¬ ProperAnc E u a

end YL.Spec

namespace YL.Props

open YL YL.Spec YL.Hidden

variable {α K : Type} [DecidableEq α]

theorem ancestors_of_mem {d : MDG α} {v : α} (h : v ∈ d.nodes) : ∃ an, d.ancestors v = .ok an := by
  unfold MDG.ancestors
  rw [if_pos h]
  exact ⟨_, rfl⟩

theorem reach_mem {d : MDG α} (hw : d.WF) {a v : α} (h : Reach d.E a v) (hv : v ∈ d.nodes) : a ∈ d.nodes := by
  rcases Relation.ReflTransGen.cases_head h with rfl | ⟨b, hb, -⟩
  · exact hv
  · exact hw.left hb

theorem reach_antisymm {E : α → α → Prop} (hac : Acyclic E) {a b : α} (h1 : Reach E a b) (h2 : Reach E b a) : a = b := by
  by_contra hne
  rcases Relation.reflTransGen_iff_eq_or_transGen.1 h1 with h | h
  · exact hne h.symm
  · exact hac a (Relation.TransGen.trans_left h h2)

theorem properAnc_trans {E : α → α → Prop} (hac : Acyclic E) {a b c : α} (h1 : ProperAnc E a b) (h2 : ProperAnc E b c) :
    ProperAnc E a c := by
  refine ⟨h1.1.trans h2.1, ?_⟩
  rintro rfl
  exact h1.2 (reach_antisymm hac h1.1 h2.1)

open Classical in
/-- the proper ancestors inside the node list -/
noncomputable def properAncCount (d : MDG α) (v : α) : Nat := (d.nodes.filter (fun a => decide (ProperAnc d.E a v))).length

theorem properAncCount_lt {d : MDG α} (hw : d.WF) (hac : Acyclic d.E) {a v : α} (h : ProperAnc d.E a v) (hv : v ∈ d.nodes) :
    properAncCount d a < properAncCount d v := by
  classical
  unfold properAncCount
  have ha : a ∈ d.nodes := reach_mem hw h.1 hv
  have hsub : ∀ x, decide (ProperAnc d.E x a) = true → decide (ProperAnc d.E x v) = true := by
    intro x hx
    simp only [decide_eq_true_eq] at hx ⊢
    exact properAnc_trans hac hx h
  have key : ∀ l : List α, a ∈ l → (l.filter (fun x => decide (ProperAnc d.E x a))).length < (l.filter (fun x => decide (ProperAnc d.E x v))).length := by
    intro l hl
    induction l with
    | nil => cases hl
    | cons b l ih =>
      have mono : (l.filter (fun x => decide (ProperAnc d.E x a))).length ≤ (l.filter (fun x => decide (ProperAnc d.E x v))).length := by
        clear ih hl
        induction l with
        | nil => simp
        | cons c l ih =>
          simp only [List.filter_cons]
          by_cases h1 : decide (ProperAnc d.E c a) = true
          · rw [if_pos h1, if_pos (hsub c h1)]; simpa using ih
          · rw [if_neg h1]
            split
            · simp only [List.length_cons]; omega
            · exact ih
      simp only [List.filter_cons]
      rcases List.mem_cons.1 hl with rfl | hl
      · rw [if_neg (by simp [ProperAnc]), if_pos (by simpa using h)]
        simp only [List.length_cons]; omega
      · have := ih hl
        by_cases h1 : decide (ProperAnc d.E b a) = true
        · rw [if_pos h1, if_pos (hsub b h1)]; simpa using this
        · rw [if_neg h1]
          split
          · simp only [List.length_cons]; omega
          · exact this
  exact key _ ha

theorem properAncCount_le (d : MDG α) (v : α) : properAncCount d v ≤ d.nodes.length := by
  unfold properAncCount
  exact List.length_filter_le _ _

/-- **C159** (`check_ancestors_chain`): on an acyclic graph the recursion ends and the test says exactly that `U` is no ancestor -/
theorem C159_chain {d : MDG α} (hw : d.WF) (hac : Acyclic d.E) (u : α) :
    ∀ (f : Nat) (v : α), v ∈ d.nodes → d.nodes.length < f → (chain d u f v = true ↔ ¬ ProperAnc d.E u v) := by
  have key : ∀ (f : Nat) (v : α), v ∈ d.nodes → properAncCount d v < f → (chain d u f v = true ↔ ¬ ProperAnc d.E u v) := by
    intro f
    induction f with
    | zero => intro v _ h; omega
    | succ f ih =>
      intro v hv hf
      obtain ⟨an, han⟩ := ancestors_of_mem hv
      have hm := MDG.mem_ancestors hw han
      simp only [chain, han]
      split
      · rename_i h0
        simp only [true_iff]
        intro h
        have := (hm u).2 h
        rw [h0] at this
        cases this
      · split
        · rename_i h1
          simp only [Bool.false_eq_true, false_iff, not_not]
          exact (hm u).1 h1
        · rename_i h1
          have h2 : ¬ ProperAnc d.E u v := fun h => h1 ((hm u).2 h)
          simp only [List.all_eq_true, h2, not_false_eq_true, iff_true]
          intro a ha
          have hav : ProperAnc d.E a v := (hm a).1 ha
          rw [ih a (reach_mem hw hav.1 hv) (by have := properAncCount_lt hw hac hav hv; omega)]
          exact fun h => h2 (properAnc_trans hac h hav)
  exact fun f v hv hf => key f v hv (by have := properAncCount_le d v; omega)

theorem nodup_bfs {N : List α} (hN : N.Nodup) {next : α → List α} : ∀ (f : Nat) (vis q : List α), vis.Nodup →
    (MDG.bfs N next f vis q).Nodup
  | 0, _, _, h => h
  | _ + 1, _, [], h => h
  | f + 1, vis, u :: q, h => by
    unfold MDG.bfs
    apply nodup_bfs hN f
    rw [List.nodup_append]
    refine ⟨h, hN.filter _, ?_⟩
    intro a ha b hb hab
    subst hab
    simp only [List.mem_filter, decide_eq_true_eq] at hb
    exact hb.2.2 ha

theorem nodup_ancestors {d : MDG α} (hw : d.WF) {v : α} {an : List α} (h : d.ancestors v = .ok an) : an.Nodup := by
  unfold MDG.ancestors at h
  split at h
  · cases h
    exact (nodup_bfs hw.nodesNodup _ _ _ (by simp)).filter _
  · cases h

theorem mem_hidden {hasU : α → Bool} {d : MDG α} {v : α} : v ∈ hiddenNodes hasU d ↔ v ∈ d.nodes ∧ hasU v = true := by
  unfold hiddenNodes
  rw [List.mem_filter]

/-- what the loop decides at a node -/
theorem candidate_spec {ord : List α → List α} (hord : ∀ l, (ord l).Perm l) {hasU : α → Bool} {d : MDG α} (hw : d.WF)
    (hac : Acyclic d.E) {v : α} (hv : v ∈ d.nodes) :
    (∃ u obs, candidate ord (hiddenNodes hasU d) d v = .ok (some (obs, u)) ∧ Estimable d.E (fun a => hasU a = true) v u ∧
      ∀ a, a ∈ obs ↔ ¬ hasU a = true ∧ ProperAnc d.E a v) ∨
    (candidate ord (hiddenNodes hasU d) d v = .ok none ∧ ∀ u, ¬ Estimable d.E (fun a => hasU a = true) v u) := by
  obtain ⟨an, han⟩ := ancestors_of_mem hv
  have hm : ∀ a, a ∈ ord an ↔ ProperAnc d.E a v := fun a => by
    rw [(hord an).mem_iff]; exact MDG.mem_ancestors hw han a
  have hmn : ∀ a, a ∈ ord an → a ∈ d.nodes := fun a ha => reach_mem hw ((hm a).1 ha).1 hv
  have hobs : ∀ a, a ∈ observedOf (hiddenNodes hasU d) (ord an) ↔ ¬ hasU a = true ∧ ProperAnc d.E a v := by
    intro a
    unfold observedOf
    simp only [List.mem_filter, decide_eq_true_eq, mem_hidden]
    constructor
    · rintro ⟨h1, h2⟩
      exact ⟨fun h => h2 ⟨hmn a h1, h⟩, (hm a).1 h1⟩
    · rintro ⟨h1, h2⟩
      exact ⟨(hm a).2 h2, fun h => h1 h.2⟩
  have hhid : ∀ a, a ∈ (ord an).filter (fun a => a ∈ hiddenNodes hasU d) ↔ hasU a = true ∧ ProperAnc d.E a v := by
    intro a
    simp only [List.mem_filter, decide_eq_true_eq, mem_hidden]
    constructor
    · rintro ⟨h1, h2⟩; exact ⟨h2.2, (hm a).1 h1⟩
    · rintro ⟨h1, h2⟩; exact ⟨(hm a).2 h2, hmn a ((hm a).2 h2), h1⟩
  have hnda : ((ord an).filter (fun a => a ∈ hiddenNodes hasU d)).Nodup := by
    apply List.Nodup.filter
    rw [(hord an).nodup_iff]
    exact nodup_ancestors hw han
  unfold candidate
  by_cases hvH : hasU v = true
  · rw [if_pos (mem_hidden.2 ⟨hv, hvH⟩)]
    exact Or.inr ⟨rfl, fun u h => h.1 hvH⟩
  · rw [if_neg (fun h => hvH (mem_hidden.1 h).2)]
    simp only [han]
    generalize (ord an).filter (fun a => a ∈ hiddenNodes hasU d) = hl at hhid hnda ⊢
    match hl, hhid, hnda with
    | [], hhid, _ =>
      refine Or.inr ⟨rfl, fun u h => ?_⟩
      have := (hhid u).2 ⟨h.2.1, h.2.2.1⟩
      cases this
    | [u], hhid, _ =>
      have hu := (hhid u).1 (by simp)
      have huniq : ∀ w, hasU w = true → ProperAnc d.E w v → w = u := fun w h1 h2 => by
        simpa using (hhid w).2 ⟨h1, h2⟩
      have hall : (observedOf (hiddenNodes hasU d) (ord an)).all (chain d u (d.nodes.length + 1)) = true ↔
          ∀ a, ¬ hasU a = true → ProperAnc d.E a v → ¬ ProperAnc d.E u a := by
        rw [List.all_eq_true]
        constructor
        · intro h a h1 h2
          exact (C159_chain hw hac u _ a (reach_mem hw h2.1 hv) (Nat.lt_succ_self _)).1 (h a ((hobs a).2 ⟨h1, h2⟩))
        · intro h a ha
          obtain ⟨h1, h2⟩ := (hobs a).1 ha
          exact (C159_chain hw hac u _ a (reach_mem hw h2.1 hv) (Nat.lt_succ_self _)).2 (h a h1 h2)
      by_cases hc : (observedOf (hiddenNodes hasU d) (ord an)).all (chain d u (d.nodes.length + 1)) = true
      · left
        exact ⟨u, _, by simp only [hc, if_true], ⟨hvH, hu.1, hu.2, huniq, hall.1 hc⟩, hobs⟩
      · right
        refine ⟨by simp only [hc]; rfl, fun w h => hc (hall.2 ?_)⟩
        have := huniq w h.2.1 h.2.2.1
        subst this
        exact h.2.2.2.2
    | a :: b :: l, hhid, hnda =>
      refine Or.inr ⟨rfl, fun u h => ?_⟩
      have h1 := (hhid a).1 (by simp)
      have h2 := (hhid b).1 (by simp)
      have e1 := h.2.2.2.1 a h1.1 h1.2
      have e2 := h.2.2.2.1 b h2.1 h2.2
      rw [e1, e2] at hnda
      simp at hnda

theorem loop_skip (ord : List α → List α) (key : α → α) (resid : List (List K) → List K → List K) (lr : Bool) (H : List α) (d : MDG α)
    (data : Option (Data α K)) {pre : List α} (hpre : ∀ v ∈ pre, candidate ord H d v = .ok none) (l : List α) :
    loop ord key resid lr H d (pre ++ l) data = loop ord key resid lr H d l data := by
  induction pre with
  | nil => rfl
  | cons v pre ih =>
    rw [List.cons_append]
    conv_lhs => unfold loop
    simp only [hpre v (by simp)]
    exact ih (fun v hv => hpre v (by simp [hv]))

section main
variable [LatentNames α] {ord : List α → List α} (hord : ∀ l, (ord l).Perm l) (hasU : α → Bool) (key : α → α)
  (resid : List (List K) → List K → List K) (lr : Bool) {g : CG α} (hac : Acyclic g.explicitDag.E) (data : Option (Data α K))
include hord hac

/-- **C159**: if no node lets a hidden node be estimated the call returns, reports how many names count as hidden, and the data is
unchanged. -/
theorem C159_nothing (h : ∀ v ∈ g.explicitDag.nodes, ∀ u, ¬ Estimable g.explicitDag.E (fun a => hasU a = true) v u) :
    run ord hasU key resid lr g data = (.ok (g.explicitDag.nodes.filter hasU).length, data) := by
  unfold run
  split
  · rename_i h0
    unfold hiddenNodes at h0
    rw [h0]
  · have hs : ∀ v ∈ g.explicitDag.nodes, candidate ord (hiddenNodes hasU g.explicitDag) g.explicitDag v = .ok none := by
      intro v hv
      rcases candidate_spec hord (hasU := hasU) (CG.wf_explicit g) hac hv with ⟨u, obs, -, h2, -⟩ | ⟨h1, -⟩
      · exact absurd h2 (h v hv u)
      · exact h1
    have := loop_skip ord key resid lr (hiddenNodes hasU g.explicitDag) g.explicitDag data hs []
    rw [List.append_nil] at this
    rw [this]
    rfl

/-- **C159, refuted** (estimating a hidden confounder): as soon as some node lets a hidden node be estimated the call raises, in every
case. The first such node decides: without data `TypeError`; a missing column gives `KeyError`; with a method other than `"lr"`
`UnboundLocalError`; a node without observed ancestors, or no rows, give `ValueError`; in all these cases the data is unchanged.
Otherwise the residual of the regression on the observed ancestors is stored as one new column and then `UnboundLocalError` is
raised: the graph is never changed and no second confounder is looked at. -/
theorem C159_raises_refuted {pre post : List α} {v u : α} (hn : g.explicitDag.nodes = pre ++ v :: post)
    (hpre : ∀ w ∈ pre, ∀ x, ¬ Estimable g.explicitDag.E (fun a => hasU a = true) w x)
    (hv : Estimable g.explicitDag.E (fun a => hasU a = true) v u) :
    ∃ obs : List α, (∀ a, a ∈ obs ↔ ¬ hasU a = true ∧ ProperAnc g.explicitDag.E a v) ∧
      (data = none → run ord hasU key resid lr g data = (.error .type, none)) ∧
      ∀ d, data = some d →
        ((¬ ∀ n ∈ obs ++ [v], n ∈ d.names) → run ord hasU key resid lr g data = (.error .key, some d)) ∧
        ((∀ n ∈ obs ++ [v], n ∈ d.names) →
          (lr = false → run ord hasU key resid lr g data = (.error .unbound, some d)) ∧
          (lr = true → (obs = [] ∨ d.size = 0) → run ord hasU key resid lr g data = (.error .value, some d)) ∧
          (lr = true → obs ≠ [] → d.size ≠ 0 → ∃ d', run ord hasU key resid lr g data = (.error .unbound, some d') ∧
            (∀ n, n ∈ d'.names ↔ n ∈ d.names ∨ n = key u) ∧ d'.col (key u) = resid (obs.map d.col) (d.col v) ∧
            ∀ n, n ≠ key u → d'.col n = d.col n)) := by
  have hvn : v ∈ g.explicitDag.nodes := by rw [hn]; simp
  have hs : ∀ w ∈ pre, candidate ord (hiddenNodes hasU g.explicitDag) g.explicitDag w = .ok none := by
    intro w hw
    rcases candidate_spec hord (hasU := hasU) (CG.wf_explicit g) hac (v := w) (by rw [hn]; simp [hw]) with ⟨x, obs, -, h2, -⟩ | ⟨h1, -⟩
    · exact absurd h2 (hpre w hw x)
    · exact h1
  rcases candidate_spec hord (hasU := hasU) (CG.wf_explicit g) hac hvn with ⟨u', obs, h1, h2, h3⟩ | ⟨-, h1⟩
  · have hu : u' = u := hv.2.2.2.1 u' h2.2.1 h2.2.2.1
    subst hu
    have hne : ¬ (hiddenNodes hasU g.explicitDag).length = 0 := by
      intro h0
      have : u' ∈ hiddenNodes hasU g.explicitDag := mem_hidden.2 ⟨reach_mem (CG.wf_explicit g) hv.2.2.1.1 hvn, hv.2.1⟩
      rw [List.length_eq_zero_iff.1 h0] at this
      cases this
    have hrun : ∀ e data', compute key resid lr obs v u' data = (.error e, data') → run ord hasU key resid lr g data = (.error e, data') := by
      intro e data' hc
      unfold run
      rw [if_neg hne]
      have hl := loop_skip ord key resid lr (hiddenNodes hasU g.explicitDag) g.explicitDag data hs (v :: post)
      rw [← hn] at hl
      rw [hl]
      unfold loop
      simp only [h1, hc]
    refine ⟨obs, h3, fun hd => hrun _ _ (by subst hd; rfl), fun d hd => ⟨fun hk => ?_, fun hk => ⟨fun hlr => ?_, fun hlr h0 => ?_, fun hlr h0 h00 => ?_⟩⟩⟩
    · subst hd
      apply hrun
      unfold compute
      simp only [if_neg hk]
    · subst hd; subst hlr
      apply hrun
      unfold compute
      simp only [if_pos hk]
      rfl
    · subst hd; subst hlr
      apply hrun
      unfold compute
      simp only [if_pos hk, if_pos h0, if_true]
    · subst hd; subst hlr
      refine ⟨d.set (key u') (resid (obs.map d.col) (d.col v)), hrun _ _ ?_, fun n => ?_, by simp [Data.set], fun n hn => by simp [Data.set, hn]⟩
      · unfold compute
        simp only [if_pos hk, if_true]
        rw [if_neg (by simp [h0, h00])]
      · unfold Data.set
        dsimp only
        split
        · rename_i hin
          constructor
          · exact Or.inl
          · rintro (h | rfl)
            · exact h
            · exact hin
        · simp
  · exact absurd hv (h1 u)

/-- **C159**: a call that returns has changed nothing and found nothing to estimate; in particular the function never reports an
estimated confounder. -/
theorem C159_returns {n : Nat} {data' : Option (Data α K)} (h : run ord hasU key resid lr g data = (.ok n, data')) :
    data' = data ∧ n = (g.explicitDag.nodes.filter hasU).length ∧
      ∀ v ∈ g.explicitDag.nodes, ∀ u, ¬ Estimable g.explicitDag.E (fun a => hasU a = true) v u := by
  by_cases hall : ∀ v ∈ g.explicitDag.nodes, ∀ u, ¬ Estimable g.explicitDag.E (fun a => hasU a = true) v u
  · have := C159_nothing hord hasU key resid lr hac data hall
    rw [h] at this
    injection this with h1 h2
    injection h1 with h1
    exact ⟨h2, h1, hall⟩
  · exfalso
    have hfirst : ∀ l : List α, (∃ v ∈ l, ∃ u, Estimable g.explicitDag.E (fun a => hasU a = true) v u) →
        ∃ pre v post, l = pre ++ v :: post ∧ (∀ w ∈ pre, ∀ x, ¬ Estimable g.explicitDag.E (fun a => hasU a = true) w x) ∧
          ∃ u, Estimable g.explicitDag.E (fun a => hasU a = true) v u := by
      intro l
      induction l with
      | nil => rintro ⟨v, hv, -⟩; cases hv
      | cons a l ih =>
        intro hex
        by_cases ha : ∃ u, Estimable g.explicitDag.E (fun a => hasU a = true) a u
        · exact ⟨[], a, l, rfl, by simp, ha⟩
        · obtain ⟨v, hv, hu⟩ := hex
          rcases List.mem_cons.1 hv with rfl | hv
          · exact absurd hu ha
          · obtain ⟨pre, w, post, h1, h2, h3⟩ := ih ⟨v, hv, hu⟩
            refine ⟨a :: pre, w, post, by rw [h1]; rfl, ?_, h3⟩
            intro x hx y hy
            rcases List.mem_cons.1 hx with rfl | hx
            · exact ha ⟨y, hy⟩
            · exact h2 x hx y hy
    push Not at hall
    obtain ⟨v, hv, u, hu⟩ := hall
    obtain ⟨pre, w, post, h1, h2, x, h3⟩ := hfirst _ ⟨v, hv, u, hu⟩
    obtain ⟨obs, -, hno, hso⟩ := C159_raises_refuted hord hasU key resid lr hac data h1 h2 h3
    rcases data with _ | d
    · rw [hno rfl] at h; cases h
    · obtain ⟨k1, k2⟩ := hso d rfl
      by_cases hk : ∀ n ∈ obs ++ [w], n ∈ d.names
      · obtain ⟨c1, c2, c3⟩ := k2 hk
        rcases lr with _ | _
        · rw [c1 rfl] at h; cases h
        · by_cases h0 : obs = [] ∨ d.size = 0
          · rw [c2 rfl h0] at h; cases h
          · push Not at h0
            obtain ⟨d', hd', -⟩ := c3 rfl h0.1 h0.2
            rw [hd'] at h; cases h
      · rw [k1 hk] at h; cases h

end main

/-! ### examples -/

/-- `"U" in node` -/
def nameHasU (s : String) : Bool := s.toList.contains 'U'

/-- `"estimate_" + node.lower()` -/
def estimateKey (s : String) : String := "estimate_" ++ s.toLower

/-- the confounded pair X -> Y, X <-> Y -/
def pairGraph : CG String := CG.init [("X", []), ("Y", ["X"])] [("X", "Y")]

/-- an instrument in front of the confounded pair -/
def ivGraph : CG String := CG.init [("Z", []), ("X", ["Z"]), ("Y", ["X"])] [("X", "Y")]

/-- a graph without any latent arc whose nodes have capital letters -/
def urbanGraph : CG String := CG.init [("Age", []), ("Urban", []), ("Pay", ["Age", "Urban"])] []

/-- **C159, refuted** (the confounded pair): for the standard diagram X -> Y with X <-> Y the call raises `ValueError` for every data
frame with both columns, because it fits a regression without features. -/
theorem C159_pair_refuted (resid : List (List K) → List K → List K) (d : Data String K) (hx : "X" ∈ d.names) :
    run id nameHasU estimateKey resid true pairGraph (some d) = (.error .value, some d) := by
  have hn : pairGraph.explicitDag.nodes = ["X", "Y", "U0"] := by decide +kernel
  have hh : hiddenNodes nameHasU pairGraph.explicitDag = ["U0"] := by decide +kernel
  have hc : candidate id ["U0"] pairGraph.explicitDag "X" = .ok (some ([], "U0")) := by
    have : (candidate id ["U0"] pairGraph.explicitDag "X").toOption = some (some ([], "U0")) := by decide +kernel
    match h : candidate id ["U0"] pairGraph.explicitDag "X", this with
    | .ok x, this => rw [Option.some.inj this]
  unfold run
  rw [hh, hn]
  simp only [List.length_singleton, one_ne_zero, if_false, loop, hc]
  simp [compute, hx]

/-- **C159, refuted** (the column is stored, then the call fails): with an observed cause in front the residual of X on Z becomes a
column of the user's data although the call raises `UnboundLocalError`. -/
theorem C159_column_refuted (resid : List (List K) → List K → List K) (d : Data String K) (hx : "X" ∈ d.names) (hz : "Z" ∈ d.names)
    (h0 : d.size ≠ 0) :
    run id nameHasU estimateKey resid true ivGraph (some d) =
      (.error .unbound, some (d.set "estimate_u0" (resid [d.col "Z"] (d.col "X")))) := by
  have hn : ivGraph.explicitDag.nodes = ["Z", "X", "Y", "U0"] := by decide +kernel
  have hh : hiddenNodes nameHasU ivGraph.explicitDag = ["U0"] := by decide +kernel
  have hc : candidate id ["U0"] ivGraph.explicitDag "X" = .ok (some (["Z"], "U0")) := by
    have : (candidate id ["U0"] ivGraph.explicitDag "X").toOption = some (some (["Z"], "U0")) := by decide +kernel
    match h : candidate id ["U0"] ivGraph.explicitDag "X", this with
    | .ok x, this => rw [Option.some.inj this]
  have hcz : candidate id ["U0"] ivGraph.explicitDag "Z" = .ok none := by
    have : (candidate id ["U0"] ivGraph.explicitDag "Z").toOption = some none := by decide +kernel
    match h : candidate id ["U0"] ivGraph.explicitDag "Z", this with
    | .ok x, this => rw [Option.some.inj this]
  have hk : estimateKey "U0" = "estimate_u0" := by decide +kernel
  unfold run
  rw [hh, hn]
  simp only [List.length_singleton, one_ne_zero, if_false, loop, hc, hcz]
  simp [compute, hx, hz, h0, hk]

/-- **C159, refuted** (names): a graph without any latent confounding; the observed node Urban counts as hidden because of its capital
letter, and the residual of Pay on Age is stored as its estimate. -/
theorem C159_names_refuted (resid : List (List K) → List K → List K) (d : Data String K) (hx : "Pay" ∈ d.names) (hz : "Age" ∈ d.names)
    (h0 : d.size ≠ 0) :
    urbanGraph.latentArcs = [] ∧ run id nameHasU estimateKey resid true urbanGraph (some d) =
      (.error .unbound, some (d.set "estimate_urban" (resid [d.col "Age"] (d.col "Pay")))) := by
  refine ⟨by decide +kernel, ?_⟩
  have hn : urbanGraph.explicitDag.nodes = ["Age", "Pay", "Urban"] := by decide +kernel
  have hh : hiddenNodes nameHasU urbanGraph.explicitDag = ["Urban"] := by decide +kernel
  have hc : candidate id ["Urban"] urbanGraph.explicitDag "Pay" = .ok (some (["Age"], "Urban")) := by
    have : (candidate id ["Urban"] urbanGraph.explicitDag "Pay").toOption = some (some (["Age"], "Urban")) := by decide +kernel
    match h : candidate id ["Urban"] urbanGraph.explicitDag "Pay", this with
    | .ok x, this => rw [Option.some.inj this]
  have hcz : candidate id ["Urban"] urbanGraph.explicitDag "Age" = .ok none := by
    have : (candidate id ["Urban"] urbanGraph.explicitDag "Age").toOption = some none := by decide +kernel
    match h : candidate id ["Urban"] urbanGraph.explicitDag "Age", this with
    | .ok x, this => rw [Option.some.inj this]
  have hk : estimateKey "Urban" = "estimate_urban" := by decide +kernel
  unfold run
  rw [hh, hn]
  simp only [List.length_singleton, one_ne_zero, if_false, loop, hc, hcz]
  simp [compute, hx, hz, h0, hk]

/-- the hypotheses hold for every diagram: the graph with explicit latent nodes is acyclic -/
theorem explicit_acyclic_of_diagram [LatentNames α] (c : Causation α) (A : List (α × α)) (h : IsDiagram c A LatentNames.U) :
    Acyclic (CG.init c A).explicitDag.E := (C08_explicit_faithful_partial c A h).acyclic

/-- three mutually confounded nodes: nothing can be estimated and the call returns -/
example (resid : List (List Int) → List Int → List Int) (d : Data String Int) :
    (run id nameHasU estimateKey resid true (CG.init [("X", []), ("Y", ["X"]), ("W", ["Y"])] [("X", "Y"), ("Y", "W"), ("X", "W")]) (some d)).1.toOption =
      some 3 := by
  rfl

end YL.Props
