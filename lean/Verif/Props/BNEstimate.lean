import Verif.Props.BNModel
import Mathlib.Data.Nat.Cast.Field

set_option linter.unusedSectionVars false

/-! C76: `BayesianNetwork.estimate`. -/

namespace YL.Props

open YL Spec BN

variable {α : Type} [LinearOrder α] {V : Type}

/-- non-vacuity of C72: a chain `a → b → c` with `a` given; only `c` and the missing `b` are generated -/
example : (mkDag (.other (⟨["c", "b", "a"], [("a", "b", .num 0), ("b", "c", .num 0)]⟩ : MDG String))).isOk = true ∧
    model (⟨["c", "b", "a"], [("a", "b", .num 0), ("b", "c", .num 0)]⟩ : MDG String) [("a", (5 : ℤ))]
      (condFn [] (fun _ l => l.sum + 1)) (some ["c"]) = .ok [("c", 7)] ∧
    model (⟨["c", "b", "a"], [("a", "b", .num 0), ("b", "c", .num 0)]⟩ : MDG String) [("a", (5 : ℤ))]
      (condFn [] (fun _ l => l.sum + 1)) none = .ok [("a", 5), ("b", 6), ("c", 7)] := by decide +kernel

/-- A world: the nodes with a `fixed` value have it, every other node is generated from its direct causes (taken in increasing
order of their names). -/
def World (E : α → α → Prop) (N : Set α) (fixed : α → Option V) (gen : α → List V → V) (val : α → V) : Prop :=
  ∀ v ∈ N, (∀ x, fixed v = some x → val v = x) ∧
    (fixed v = none → ∃ ps : List α, ps.Pairwise (· < ·) ∧ (∀ u, u ∈ ps ↔ E u v) ∧ val v = gen v (ps.map val))

/-- the first that is defined -/
def orElse3 (a b c : α → Option V) (v : α) : Option V := (a v).orElse (fun _ => (b v).orElse (fun _ => c v))

theorem condFn_eq (cond : List (α × V)) (gen : α → List V → V) (v : α) (inputs : List V) (obs : Option V) :
    condFn cond gen v inputs obs = ((kget cond v).orElse (fun _ => obs)).getD (gen v inputs) := by
  unfold condFn
  cases kget cond v <;> cases obs <;> rfl

theorem kget_upd (cond kv : List (α × V)) (v : α) : kget (upd cond kv) v = (kget kv v).orElse (fun _ => kget cond v) :=
  get_append kv cond v

/-- Worlds exist. -/
theorem C76_world_exists {g : MDG α} (hg : g.WF) (hv : ValidStructure {v | v ∈ g.nodes} g.E) (hne : g.nodes ≠ [])
    (kv cond data : List (α × V)) (gen : α → List V → V) :
    ∃ val, World g.E {v | v ∈ g.nodes} (orElse3 (kget kv) (kget cond) (kget data)) gen val := by
  obtain ⟨val, ks, h1, h2, h3, h4⟩ := C72_model_all hg hv hne data (condFn (upd cond kv) gen)
  refine ⟨val, fun v hvn => ?_⟩
  obtain ⟨ps, inp, a1, a2, a3, a4⟩ := h3 v hvn
  have hinp : inp = ps.map val := by
    have : ∀ (l : List α) (m : List V), (∀ p ∈ l, p ∈ g.nodes) →
        List.Forall₂ (fun p x => (p ∈ {v | v ∈ g.nodes} ∧ x = val p) ∨ (p ∉ {v | v ∈ g.nodes} ∧ kget data p = some x)) l m →
        m = l.map val := by
      intro l
      induction l with
      | nil => intro m _ hm; cases hm; rfl
      | cons p l ih =>
        intro m hsub hm
        cases hm with
        | cons h h' =>
        rw [ih _ (fun q hq => hsub q (List.mem_cons_of_mem _ hq)) h', List.map_cons]
        rcases h with h | h
        · rw [h.2]
        · exact absurd (hsub p (by simp)) h.1
    exact this ps inp (fun p hp => hg.left ((a2 p).1 hp)) a3
  rw [condFn_eq, kget_upd] at a4
  constructor
  · intro x hx
    rw [a4]
    unfold orElse3 at hx
    revert hx
    cases kget kv v <;> cases kget cond v <;> cases kget data v <;> simp
  · intro hx
    refine ⟨ps, a1, a2, ?_⟩
    rw [a4, hinp]
    unfold orElse3 at hx
    revert hx
    cases kget kv v <;> cases kget cond v <;> cases kget data v <;> simp

section draw

variable {g : MDG α} (hg : g.WF) (hv : ValidStructure {v | v ∈ g.nodes} g.E)
include hg hv

/-- what a draw returns, in terms of the structural equations -/
theorem drawOutcome_spec (data cond kv : List (α × V)) (gen : α → List V → V) (outcomes : List α)
    (hout : ∀ y ∈ outcomes, y ∈ g.nodes) (y : α) (hy : y ∈ outcomes) :
    ∃ (ns : List α) (val : α → V), (∀ u, u ∈ ns ↔ u ∈ outcomes ∨ ∃ y ∈ outcomes, g.E u y) ∧
      drawOutcome g data cond kv gen outcomes y = .ok (val y) ∧
      (let S := {v | Needed g.E {k | k ∈ data.map (·.1)} {v | v ∈ ns} v}
       Solves g.E S (kget data) (condFn (upd cond kv) gen) val ∧
       ∀ val', Solves g.E S (kget data) (condFn (upd cond kv) gen) val' → ∀ v ∈ ns, val' v = val v) := by
  have hne : g.nodes ≠ [] := List.ne_nil_of_mem (hout y hy)
  obtain ⟨ns, h1, h2, h3, _⟩ := C70_blanket_exact hg hv (fun v => [v]) (.many outcomes) rfl hout hne .upstream true true
  have hm : ∀ u, u ∈ ns ↔ u ∈ outcomes ∨ ∃ y ∈ outcomes, g.E u y := by
    intro u
    rw [h3]
    simp only [Blanket, NodesArg.toList, Set.mem_union, Set.mem_setOf_eq, true_and]
    by_cases h : u ∈ outcomes
    · simp [h]
    · simp [h]
  have hns : ∀ v ∈ ns, v ∈ g.nodes := by
    intro v hvn
    rcases (hm v).1 hvn with h | ⟨y, _, h⟩
    · exact hout v h
    · exact hg.left h
  obtain ⟨val, ks, h5, h6, h7, h8⟩ := C72_model_exact hg hv hne data (condFn (upd cond kv) gen) ns hns
  refine ⟨ns, val, hm, ?_, h7, h8⟩
  unfold drawOutcome
  rw [h1]
  dsimp only
  rw [h5]
  dsimp only
  have hk : y ∈ ks := (h6.2.1 y).2 ((hm y).2 (.inl hy))
  have : kget (ks.map (fun v => (v, val v))) y = some (val y) := by
    have := get_of_mem (d := ks.map (fun v => (v, val v))) (by simpa [List.map_map, Function.comp_def] using h6.1)
      (e := (y, val y)) (List.mem_map.2 ⟨y, hk, rfl⟩)
    exact this
  rw [this]

/-- C76. A draw of `estimate` under `do(kv)` is the value of the outcome in the world where the treatments have the values
`kv`, provided each fixed node is absent from the data, or is an outcome or a direct cause of an outcome. -/
theorem C76_draw_is_world (data cond kv : List (α × V)) (gen : α → List V → V) (outcomes : List α)
    (hout : ∀ y ∈ outcomes, y ∈ g.nodes) (y : α) (hy : y ∈ outcomes)
    (hfix : ∀ t, t ∈ kv.map (·.1) ∨ t ∈ cond.map (·.1) → t ∈ data.map (·.1) →
      t ∈ outcomes ∨ ∃ y ∈ outcomes, g.E t y)
    (val : α → V) (hw : World g.E {v | v ∈ g.nodes} (orElse3 (kget kv) (kget cond) (kget data)) gen val) :
    drawOutcome g data cond kv gen outcomes y = .ok (val y) := by
  obtain ⟨ns, val', hm, h1, h2, h3⟩ := drawOutcome_spec hg hv data cond kv gen outcomes hout y hy
  rw [h1]
  congr 1
  have hns : ∀ v ∈ ({v | v ∈ ns} : Set α), v ∈ g.nodes := by
    intro v hvn
    rcases (hm v).1 hvn with h | ⟨y, _, h⟩
    · exact hout v h
    · exact hg.left h
  refine (h3 val (fun v hvS => ?_) y ((hm y).2 (.inl hy))).symm
  have hvN := needed_nodes hg hns hvS
  obtain ⟨w1, w2⟩ := hw v hvN
  -- the inputs
  have hps : ∀ (l : List α), (∀ u ∈ l, g.E u v) → List.Forall₂ (fun p x =>
      (p ∈ {v | Needed g.E {k | k ∈ data.map (·.1)} {v | v ∈ ns} v} ∧ x = val p) ∨
      (p ∉ {v | Needed g.E {k | k ∈ data.map (·.1)} {v | v ∈ ns} v} ∧ kget data p = some x)) l (l.map val) := by
    intro l hl
    rw [List.forall₂_map_right_iff]
    refine List.forall₂_same.2 (fun p hp => ?_)
    by_cases hpS : Needed g.E {k | k ∈ data.map (·.1)} {v | v ∈ ns} p
    · exact .inl ⟨hpS, rfl⟩
    · right
      refine ⟨hpS, ?_⟩
      have hpk : p ∈ data.map (·.1) := by
        by_contra hk
        exact hpS (.up hvS (hl p hp) hk)
      have hno : p ∉ kv.map (·.1) ∧ p ∉ cond.map (·.1) := by
        constructor <;> intro hh
        · exact hpS (.req ((hm p).2 (hfix p (.inl hh) hpk)))
        · exact hpS (.req ((hm p).2 (hfix p (.inr hh) hpk)))
      obtain ⟨x, hx⟩ := Option.ne_none_iff_exists'.1 (mt get_eq_none.1 (not_not.2 hpk))
      rw [hx]
      congr 1
      refine ((hw p (hg.left (hl p hp))).1 x ?_).symm
      unfold orElse3
      rw [get_eq_none.2 hno.1, get_eq_none.2 hno.2, hx]
      rfl
  have hpar := insertionSort_lt (MDG.nodup_preds g v)
  have hparm : ∀ u, u ∈ par g v ↔ g.E u v := fun u => by simp [mem_insertionSort']
  refine ⟨par g v, (par g v).map val, hpar, hparm, hps _ (fun u hu => (hparm u).1 hu), ?_⟩
  rw [condFn_eq, kget_upd]
  cases hf : orElse3 (kget kv) (kget cond) (kget data) v with
  | some x =>
    rw [w1 x hf]
    unfold orElse3 at hf
    revert hf
    cases kget kv v <;> cases kget cond v <;> cases kget data v <;> simp <;> exact fun h => h.symm
  | none =>
    obtain ⟨ps, b1, b2, b3⟩ := w2 hf
    have : ps = par g v := by
      have hp : ps.Perm (par g v) := (List.perm_ext_iff_of_nodup (b1.imp ne_of_lt) (hpar.imp ne_of_lt)).2
        (fun u => (b2 u).trans (hparm u).symm)
      exact hp.eq_of_pairwise' (b1.imp le_of_lt) (hpar.imp le_of_lt)
    rw [b3, this]
    unfold orElse3 at hf
    revert hf
    cases kget kv v <;> cases kget cond v <;> cases kget data v <;> simp

end draw

theorem collect_ok {Ω K : Type} [AddMonoid K] (f : Ω → Except Err V) (val : Ω → V) (proj : V → K) : ∀ (l : List Ω),
    (∀ w ∈ l, f w = .ok (val w)) → collect f proj l = .ok ((l.map (fun w => proj (val w))).sum)
  | [], _ => by simp [collect]
  | w :: l, h => by
    rw [collect, h w (by simp), collect_ok f val proj l (fun u hu => h u (List.mem_cons_of_mem _ hu))]
    simp

/-- C76. `estimate` is the mean of the outcome over worlds under `do(treat)` minus its mean over worlds under `do(control)`;
the given columns are held at their values. Condition: a treatment that is a column of the data is a direct cause of an
outcome (or an outcome), and likewise any conditioned node. -/
theorem C76_estimate_worlds {g : MDG α} (hg : g.WF) (hv : ValidStructure {v | v ∈ g.nodes} g.E) {Ω K : Type} [DivisionRing K]
    (data cond treat control : List (α × V)) (gen : Ω → α → List V → V) (outcomes : List α)
    (hout : ∀ y ∈ outcomes, y ∈ g.nodes) (y : α) (hy : y ∈ outcomes)
    (hfix : ∀ t, t ∈ treat.map (·.1) ∨ t ∈ control.map (·.1) ∨ t ∈ cond.map (·.1) → t ∈ data.map (·.1) →
      t ∈ outcomes ∨ ∃ y ∈ outcomes, g.E t y)
    (proj : V → K) (drawsT drawsC : List Ω) (valT valC : Ω → α → V)
    (hT : ∀ w, World g.E {v | v ∈ g.nodes} (orElse3 (kget treat) (kget cond) (kget data)) (gen w) (valT w))
    (hC : ∀ w, World g.E {v | v ∈ g.nodes} (orElse3 (kget control) (kget cond) (kget data)) (gen w) (valC w)) :
    estimate g data cond treat control gen outcomes y proj drawsT drawsC =
      .ok ((drawsT.map (fun w => proj (valT w y))).sum / (drawsT.length : K) -
        (drawsC.map (fun w => proj (valC w y))).sum / (drawsC.length : K)) := by
  unfold estimate
  rw [collect_ok _ (fun w => valT w y) proj drawsT (fun w _ => C76_draw_is_world hg hv data cond treat (gen w) outcomes hout y hy
    (fun t ht => hfix t (by tauto)) (valT w) (hT w))]
  dsimp only
  rw [collect_ok _ (fun w => valC w y) proj drawsC (fun w _ => C76_draw_is_world hg hv data cond control (gen w) outcomes hout y hy
    (fun t ht => hfix t (by tauto)) (valC w) (hC w))]

/-- C76. Nodes that no treatment can influence have the same value under `do(treat)` and under `do(control)` (with the same
noise): the contrast only involves descendants of the treatments. -/
theorem C76_nondescendants_unchanged {g : MDG α} (hg : g.WF) (hac : Acyclic g.E) (treat control cond data : List (α × V))
    (gen : α → List V → V) (val val' : α → V)
    (hT : World g.E {v | v ∈ g.nodes} (orElse3 (kget treat) (kget cond) (kget data)) gen val)
    (hC : World g.E {v | v ∈ g.nodes} (orElse3 (kget control) (kget cond) (kget data)) gen val') :
    ∀ v ∈ g.nodes, (∀ t, t ∈ treat.map (·.1) ∨ t ∈ control.map (·.1) → ¬ Reach g.E t v) → val v = val' v := by
  intro v
  induction v using (hg.parentsWF hac).induction with
  | _ v ih =>
    intro hvn hnd
    have h1 : kget treat v = none := get_eq_none.2 (fun h => hnd v (.inl h) .refl)
    have h2 : kget control v = none := get_eq_none.2 (fun h => hnd v (.inr h) .refl)
    have e1 : orElse3 (kget treat) (kget cond) (kget data) v = orElse3 (kget control) (kget cond) (kget data) v := by
      unfold orElse3; rw [h1, h2]
    cases hf : orElse3 (kget treat) (kget cond) (kget data) v with
    | some x => rw [(hT v hvn).1 x hf, (hC v hvn).1 x (e1 ▸ hf)]
    | none =>
      obtain ⟨ps, b1, b2, b3⟩ := (hT v hvn).2 hf
      obtain ⟨ps', b1', b2', b3'⟩ := (hC v hvn).2 (e1 ▸ hf)
      have : ps = ps' := by
        have hp : ps.Perm ps' := (List.perm_ext_iff_of_nodup (b1.imp ne_of_lt) (b1'.imp ne_of_lt)).2
          (fun u => (b2 u).trans (b2' u).symm)
        exact hp.eq_of_pairwise' (b1.imp le_of_lt) (b1'.imp le_of_lt)
      subst this
      rw [b3, b3']
      congr 1
      apply List.map_congr_left
      intro p hp
      have hpv := (b2 p).1 hp
      exact ih p hpv (hg.left hpv) (fun t ht hr => hnd t ht (hr.tail hpv))

/-- C76, violation: if the data contains the outcome column, the estimate is 0, whatever the network, the treatments and the
draws. -/
theorem C76_outcome_given_zero {g : MDG α} (hg : g.WF) (hv : ValidStructure {v | v ∈ g.nodes} g.E) {Ω K : Type} [Field K] [CharZero K]
    (data cond treat control : List (α × V)) (gen : Ω → α → List V → V) (outcomes : List α)
    (hout : ∀ y ∈ outcomes, y ∈ g.nodes) (y : α) (hy : y ∈ outcomes) (hgiven : y ∈ data.map (·.1))
    (hyt : y ∉ treat.map (·.1)) (hyc : y ∉ control.map (·.1)) (hyk : y ∉ cond.map (·.1))
    (proj : V → K) (drawsT drawsC : List Ω) (hdT : drawsT ≠ []) (hdC : drawsC ≠ []) :
    estimate g data cond treat control gen outcomes y proj drawsT drawsC = .ok 0 := by
  obtain ⟨o, ho⟩ := Option.ne_none_iff_exists'.1 (mt get_eq_none.1 (not_not.2 hgiven))
  have key : ∀ (kv : List (α × V)), y ∉ kv.map (·.1) → ∀ w, drawOutcome g data cond kv (gen w) outcomes y = .ok o := by
    intro kv hkv w
    obtain ⟨ns, val, hm, h1, h2, h3⟩ := drawOutcome_spec hg hv data cond kv (gen w) outcomes hout y hy
    rw [h1]
    obtain ⟨ps, inp, _, _, _, h4⟩ := h2 y (.req ((hm y).2 (.inl hy)))
    rw [condFn_eq, kget_upd, get_eq_none.2 hkv, get_eq_none.2 hyk, ho] at h4
    rw [h4]; rfl
  unfold estimate
  rw [collect_ok _ (fun _ => o) proj drawsT (fun w _ => key treat hyt w)]
  dsimp only
  rw [collect_ok _ (fun _ => o) proj drawsC (fun w _ => key control hyc w)]
  simp only [List.map_const', List.sum_replicate, nsmul_eq_mul]
  have h1 : (drawsT.length : K) ≠ 0 := by
    rw [Nat.cast_ne_zero]; exact fun h => hdT (List.length_eq_zero_iff.1 h)
  have h2 : (drawsC.length : K) ≠ 0 := by
    rw [Nat.cast_ne_zero]; exact fun h => hdC (List.length_eq_zero_iff.1 h)
  rw [mul_comm, mul_div_assoc, div_self h1, mul_comm (drawsC.length : K), mul_div_assoc, div_self h2, sub_self]

/-- C76, violation: if the data contains the treatment columns and no treatment is an outcome or a direct cause of an
outcome, then the treatments are not sampled and a draw does not depend on their values: the estimate compares like with
like although the treatments may act through other nodes. -/
theorem C76_given_indirect_treatment_ignored {g : MDG α} (hg : g.WF) (hv : ValidStructure {v | v ∈ g.nodes} g.E)
    (data cond treat control : List (α × V)) (gen : α → List V → V) (outcomes : List α)
    (hout : ∀ y ∈ outcomes, y ∈ g.nodes) (y : α) (hy : y ∈ outcomes)
    (hind : ∀ t, t ∈ treat.map (·.1) ∨ t ∈ control.map (·.1) → t ∈ data.map (·.1) ∧ t ∉ outcomes ∧
      ∀ y ∈ outcomes, ¬ g.E t y) :
    drawOutcome g data cond treat gen outcomes y = drawOutcome g data cond control gen outcomes y := by
  obtain ⟨ns, val, hm, h1, h2, h3⟩ := drawOutcome_spec hg hv data cond treat gen outcomes hout y hy
  obtain ⟨ns', val', hm', h1', h2', h3'⟩ := drawOutcome_spec hg hv data cond control gen outcomes hout y hy
  have hS : {v | v ∈ ns} = {v | v ∈ ns'} := by ext u; rw [Set.mem_setOf_eq, Set.mem_setOf_eq, hm, hm']
  rw [h1, h1']
  congr 1
  rw [← hS] at h2' h3'
  refine (h3 val' (fun v hvS => ?_) y ((hm y).2 (.inl hy))).symm
  have hnone : ∀ t, t ∈ treat.map (·.1) ∨ t ∈ control.map (·.1) →
      ¬ Needed g.E {k | k ∈ data.map (·.1)} {v | v ∈ ns} t := by
    intro t ht hN
    obtain ⟨a, b, c⟩ := hind t ht
    cases hN with
    | req h =>
      rcases (hm t).1 h with h | ⟨y, hy', h⟩
      · exact b h
      · exact c y hy' h
    | up _ _ h => exact h a
  obtain ⟨ps, inp, a1, a2, a3, a4⟩ := h2' v hvS
  refine ⟨ps, inp, a1, a2, a3, ?_⟩
  rw [a4, condFn_eq, condFn_eq, kget_upd, kget_upd, get_eq_none.2 (fun h => hnone v (.inl h) hvS),
    get_eq_none.2 (fun h => hnone v (.inr h) hvS)]

/-- the chain `t → m → y`, and with a direct edge `t → y` as well -/
def chainTMY (direct : Bool) : MDG String :=
  ⟨["t", "m", "y"], [("t", "m", .num 0), ("m", "y", .num 0)] ++ if direct then [("t", "y", .num 0)] else []⟩

/-- each node is the sum of its direct causes -/
def sumGen : Unit → String → List ℚ → ℚ := fun _ _ l => l.sum

/-- C76, violation with numbers: in `t → m → y` with `m = t` and `y = m` the effect of `t = 1` against `t = 0` on `y` is 1. `estimate`
finds it when `t` is not in the data, and returns 0 when it is. -/
theorem C76_indirect_refuted :
    estimate (chainTMY false) [] [] [("t", 1)] [("t", 0)] sumGen ["y"] "y" id [()] [()] = .ok 1 ∧
    estimate (chainTMY false) [("t", 0)] [] [("t", 1)] [("t", 0)] sumGen ["y"] "y" id [()] [()] = .ok 0 := by
  decide +kernel

/-- C76, violation with numbers: with the direct edge the total effect is 2; when the data contains the mediator `m` the
estimate is the direct effect 1. -/
theorem C76_mediator_refuted :
    estimate (chainTMY true) [("t", 0)] [] [("t", 1)] [("t", 0)] sumGen ["y"] "y" id [()] [()] = .ok 2 ∧
    estimate (chainTMY true) [("t", 0), ("m", 0)] [] [("t", 1)] [("t", 0)] sumGen ["y"] "y" id [()] [()] = .ok 1 := by
  decide +kernel

/-- non-vacuity of `C76_estimate_worlds`: the hypotheses hold for the graph with the direct edge and `t` given -/
example : (mkDag (.other (chainTMY true))).isOk = true ∧
    World (chainTMY true).E {v | v ∈ (chainTMY true).nodes} (orElse3 (kget [("t", 1)]) (kget []) (kget [("t", 0)]))
      (sumGen ()) (fun v => if v = "y" then 2 else 1) := by
  refine ⟨by decide +kernel, fun v hv => ?_⟩
  simp [chainTMY] at hv
  rcases hv with rfl | rfl | rfl
  · refine ⟨fun x hx => ?_, fun h => by simp [orElse3, kget] at h⟩
    simp [orElse3, kget] at hx ⊢; exact hx
  · refine ⟨fun x hx => by simp [orElse3, kget] at hx, fun _ => ⟨["t"], by simp, fun u => ?_, by simp [sumGen]⟩⟩
    simp [MDG.E, chainTMY]
  · refine ⟨fun x hx => by simp [orElse3, kget] at hx, fun _ => ⟨["m", "t"], by decide, fun u => ?_, ?_⟩⟩
    · simp only [MDG.E, chainTMY]
      constructor
      · intro h
        exact ⟨.num 0, by simpa using h⟩
      · rintro ⟨k, h⟩
        simp at h ⊢
        exact h.imp And.left And.left
    · simp [sumGen]; norm_num

end YL.Props
