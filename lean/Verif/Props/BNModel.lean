import Verif.Props.BN
import Mathlib.Data.Finset.Card
import Mathlib.Data.List.Forall2
import Mathlib.Tactic.Linarith
import Mathlib.Algebra.BigOperators.Group.List.Basic

set_option linter.unusedSectionVars false

/-! C72, C76: sampling from the model, and the estimation of effects. -/

namespace YL.Props

open YL Spec BN

variable {α : Type} [LinearOrder α] {V : Type}

/-! ### specification -/

/-- The nodes whose values have to be generated for the requested nodes `ns` when the columns `keys` are given: the requested
ones and, going upwards, every parent that is not given. -/
inductive Needed (E : α → α → Prop) (keys ns : Set α) : α → Prop
  | req {v : α} : v ∈ ns → Needed E keys ns v
  | up {c p : α} : Needed E keys ns c → E p c → p ∉ keys → Needed E keys ns p

/-- `val` solves the structural equations on `S`: each node of `S` is computed by its function from the values of its direct
causes, in increasing order of their names; causes outside `S` are read from the data. -/
def Solves (E : α → α → Prop) (S : Set α) (data : α → Option V) (fn : α → List V → Option V → V) (val : α → V) : Prop :=
  ∀ v ∈ S, ∃ (ps : List α) (inputs : List V), ps.Pairwise (· < ·) ∧ (∀ u, u ∈ ps ↔ E u v) ∧
    List.Forall₂ (fun p x => (p ∈ S ∧ x = val p) ∨ (p ∉ S ∧ data p = some x)) ps inputs ∧ val v = fn v inputs (data v)

/-! ### dicts -/

theorem get_nil (v : α) : kget ([] : List (α × V)) v = none := rfl

theorem get_cons (e : α × V) (d : List (α × V)) (v : α) : kget (e :: d) v = if e.1 = v then some e.2 else kget d v := by
  unfold kget
  rw [List.find?_cons]
  by_cases h : e.1 = v <;> simp [h]

theorem get_eq_none {d : List (α × V)} {v : α} : kget d v = none ↔ v ∉ d.map (·.1) := by
  induction d with
  | nil => simp [get_nil]
  | cons e d ih =>
    rw [get_cons]
    by_cases h : e.1 = v
    · simp [h]
    · simp only [h, if_false, ih, List.map_cons, List.mem_cons, not_or]
      exact ⟨fun h' => ⟨fun hh => h hh.symm, h'⟩, fun h' => h'.2⟩

theorem get_append (d e : List (α × V)) (v : α) : kget (d ++ e) v = (kget d v).orElse (fun _ => kget e v) := by
  induction d with
  | nil => simp [get_nil]
  | cons x d ih =>
    rw [List.cons_append, get_cons, get_cons, ih]
    by_cases h : x.1 = v <;> simp [h]

theorem get_of_mem {d : List (α × V)} (hnd : (d.map (·.1)).Nodup) {e : α × V} (he : e ∈ d) : kget d e.1 = some e.2 := by
  induction d with
  | nil => simp at he
  | cons x d ih =>
    rw [get_cons]
    simp only [List.map_cons, List.nodup_cons] at hnd
    rcases List.mem_cons.1 he with rfl | he
    · simp
    · rw [if_neg, ih hnd.2 he]
      intro h
      exact hnd.1 (h ▸ List.mem_map_of_mem he)

theorem mem_of_get {d : List (α × V)} {v : α} {x : V} (h : kget d v = some x) : (v, x) ∈ d := by
  induction d with
  | nil => simp [get_nil] at h
  | cons e d ih =>
    rw [get_cons] at h
    split_ifs at h with h'
    · cases h; rw [← h']; exact List.mem_cons_self
    · exact List.mem_cons_of_mem _ (ih h)

/-! ### the missing inputs -/

theorem gather_mem {β γ : Type} (f : α → Except Err (List β)) : ∀ (l : List α),
    (∀ v ∈ l, ∃ r, f v = .ok r) → ∃ r, gather f l = .ok r ∧ ∀ u, u ∈ r ↔ ∃ v ∈ l, ∃ s, f v = .ok s ∧ u ∈ s
  | [], _ => ⟨[], rfl, by simp⟩
  | v :: vs, h => by
    obtain ⟨r, hr⟩ := h v (by simp)
    obtain ⟨s, hs, hs'⟩ := gather_mem (γ := γ) f vs (fun w hw => h w (List.mem_cons_of_mem _ hw))
    refine ⟨r ++ s, by simp [gather, hr, hs], fun u => ?_⟩
    rw [List.mem_append, hs']
    constructor
    · rintro (h1 | ⟨w, hw, h1⟩)
      · exact ⟨v, by simp, r, hr, h1⟩
      · exact ⟨w, List.mem_cons_of_mem _ hw, h1⟩
    · rintro ⟨w, hw, t, ht, hu⟩
      rcases List.mem_cons.1 hw with rfl | hw
      · rw [hr] at ht; cases ht; exact .inl hu
      · exact .inr ⟨w, hw, t, ht, hu⟩

open Classical in
/-- number of proper ancestors -/
noncomputable def ancCount (g : MDG α) (v : α) : Nat := (g.nodes.toFinset.filter (fun u => Reach1 g.E u v)).card

theorem ancCount_lt {g : MDG α} (hg : g.WF) (hac : Acyclic g.E) {p v : α} (h : g.E p v) : ancCount g p < ancCount g v := by
  classical
  unfold ancCount
  apply Finset.card_lt_card
  rw [Finset.ssubset_iff_of_subset]
  · refine ⟨p, ?_, ?_⟩
    · simp only [Finset.mem_filter, List.mem_toFinset]
      exact ⟨hg.left h, .single h⟩
    · simp only [Finset.mem_filter, not_and]
      exact fun _ h' => hac p h'
  · intro u hu
    simp only [Finset.mem_filter] at hu ⊢
    exact ⟨hu.1, hu.2.tail h⟩

theorem ancCount_lt_fuel {g : MDG α} (v : α) : ancCount g v < fuel g := by
  classical
  unfold ancCount fuel
  refine Nat.lt_succ_of_le ((Finset.card_filter_le _ _).trans (List.toFinset_card_le _))

theorem Needed.trans {E : α → α → Prop} {keys ns : Set α} {p u : α} (h : Needed E keys {p} u) (hp : Needed E keys ns p) :
    Needed E keys ns u := by
  induction h with
  | req h => rw [Set.mem_singleton_iff] at h; rw [h]; exact hp
  | up _ h1 h2 ih => exact .up ih h1 h2

theorem findMissing_spec {g : MDG α} (hg : g.WF) (hac : Acyclic g.E) (keys : List α) : ∀ (f : Nat) (ns : List α),
    (∀ n ∈ ns, n ∈ g.nodes ∧ ancCount g n < f) → 0 < f →
    ∃ l, findMissing g keys f ns = .ok l ∧
      ∀ u, (u ∈ ns ∨ u ∈ l) ↔ Needed g.E {k | k ∈ keys} {v | v ∈ ns} u := by
  intro f
  induction f with
  | zero => intro ns _ h; omega
  | succ f ih =>
    intro ns hns _
    -- the inner function, on a parent
    let inner : α → Except Err (List α) := fun p =>
      if p ∉ ns ∧ p ∉ keys then andThen (findMissing g keys f [p]) (fun l => .ok (p :: l)) else .ok []
    have hinner : ∀ n ∈ ns, ∀ p, g.E p n → ∃ r, inner p = .ok r ∧
        ∀ u, u ∈ r ↔ (p ∉ ns ∧ p ∉ keys ∧ Needed g.E {k | k ∈ keys} {p} u) := by
      intro n hn p hp
      by_cases hc : p ∉ ns ∧ p ∉ keys
      · have hlt : ancCount g p < f := by
          have h1 := ancCount_lt hg hac hp
          have h2 := (hns n hn).2
          omega
        obtain ⟨l, h1, h2⟩ := ih [p] (by simpa using ⟨hg.left hp, hlt⟩) (by omega)
        refine ⟨p :: l, ?_, fun u => ?_⟩
        · simp only [inner]
          rw [if_pos hc, h1]; rfl
        · have h3 := h2 u
          simp only [List.mem_singleton, Set.setOf_eq_eq_singleton] at h3
          rw [List.mem_cons, h3]
          exact ⟨fun h => ⟨hc.1, hc.2, h⟩, fun h => h.2.2⟩
      · refine ⟨[], ?_, fun u => ?_⟩
        · simp only [inner]; rw [if_neg hc]
        · simp only [List.not_mem_nil, false_iff]
          exact fun h => hc ⟨h.1, h.2.1⟩
    have houter : ∀ n ∈ ns, ∃ r, andThen (getParents g n false) (fun ps => gather inner ps) = .ok r ∧
        ∀ u, u ∈ r ↔ ∃ p, g.E p n ∧ p ∉ ns ∧ p ∉ keys ∧ Needed g.E {k | k ∈ keys} {p} u := by
      intro n hn
      rw [getParents_false (hns n hn).1]
      simp only [andThen]
      obtain ⟨r, h1, h2⟩ := gather_mem (γ := Unit) inner ((g.preds n).insertionSort (· ≤ ·)) (fun p hp => by
        rw [mem_insertionSort', MDG.mem_preds] at hp
        obtain ⟨r, hr, _⟩ := hinner n hn p hp
        exact ⟨r, hr⟩)
      refine ⟨r, h1, fun u => (h2 u).trans ?_⟩
      simp only [mem_insertionSort', MDG.mem_preds]
      constructor
      · rintro ⟨p, hp, s, hs, hu⟩
        obtain ⟨r', hr', h3⟩ := hinner n hn p hp
        rw [hr'] at hs; cases hs
        exact ⟨p, hp, (h3 u).1 hu⟩
      · rintro ⟨p, hp, h4⟩
        obtain ⟨r', hr', h3⟩ := hinner n hn p hp
        exact ⟨p, hp, r', hr', (h3 u).2 h4⟩
    obtain ⟨l, h1, h2⟩ := gather_mem (γ := Unit) (fun n => andThen (getParents g n false) (fun ps => gather inner ps)) ns (fun n hn => by obtain ⟨r, hr, _⟩ := houter n hn; exact ⟨r, hr⟩)
    have hmem : ∀ u, u ∈ l ↔ ∃ n ∈ ns, ∃ p, g.E p n ∧ p ∉ ns ∧ p ∉ keys ∧ Needed g.E {k | k ∈ keys} {p} u := by
      intro u
      rw [h2 u]
      constructor
      · rintro ⟨n, hn, s, hs, hu⟩
        obtain ⟨r', hr', h3⟩ := houter n hn
        rw [hr'] at hs; cases hs
        exact ⟨n, hn, (h3 u).1 hu⟩
      · rintro ⟨n, hn, h4⟩
        obtain ⟨r', hr', h3⟩ := houter n hn
        exact ⟨n, hn, r', hr', (h3 u).2 h4⟩
    refine ⟨l, by rw [findMissing]; exact h1, fun u => ⟨?_, fun h => ?_⟩⟩
    · rintro (h | h)
      · exact .req h
      · obtain ⟨n, hn, p, hp, _, hk, hN⟩ := (hmem u).1 h
        exact hN.trans (.up (.req hn) hp hk)
    · induction h with
      | req h => exact .inl h
      | @up c p _ hpc hpk ihc =>
        by_cases hp : p ∈ ns
        · exact .inl hp
        right
        rw [hmem]
        rcases ihc with hc | hc
        · exact ⟨c, hc, p, hpc, hp, hpk, .req rfl⟩
        · obtain ⟨n, hn, q, hq, hq1, hq2, hN⟩ := (hmem c).1 hc
          exact ⟨n, hn, q, hq, hq1, hq2, .up hN hpc hpk⟩

/-! ### the loop -/

theorem inputsOf_ok (ps data : List (α × V)) : ∀ (l : List α),
    (∀ p ∈ l, (kget ps p).isSome ∨ (kget data p).isSome) →
    ∃ inputs, inputsOf ps data l = .ok inputs ∧
      List.Forall₂ (fun p x => (kget ps p).orElse (fun _ => kget data p) = some x) l inputs
  | [], _ => ⟨[], rfl, .nil⟩
  | p :: l, h => by
    obtain ⟨r, h1, h2⟩ := inputsOf_ok ps data l (fun q hq => h q (List.mem_cons_of_mem _ hq))
    have : ∃ x, (kget ps p).orElse (fun _ => kget data p) = some x := by
      rcases h p (by simp) with h | h
      · obtain ⟨x, hx⟩ := Option.isSome_iff_exists.1 h
        exact ⟨x, by simp [hx]⟩
      · obtain ⟨x, hx⟩ := Option.isSome_iff_exists.1 h
        cases hg : kget ps p with
        | none => exact ⟨x, by simp [hx]⟩
        | some y => exact ⟨y, by simp⟩
    obtain ⟨x, hx⟩ := this
    exact ⟨x :: r, by rw [inputsOf, hx, h1], .cons hx h2⟩

/-- the sorted list of parents -/
abbrev par (g : MDG α) (v : α) : List α := (g.preds v).insertionSort (· ≤ ·)

theorem sampleLoop_spec {g : MDG α} (data : List (α × V)) (fn : α → List V → Option V → V) :
    ∀ (order : List α) (ps : List (α × V)), (ps.map (·.1) ++ order).Nodup →
    (∀ l₁ v l₂, order = l₁ ++ v :: l₂ → v ∈ g.nodes ∧ ∀ p, g.E p v → p ∈ ps.map (·.1) ∨ p ∈ l₁ ∨
      (kget data p).isSome) →
    ∃ r, sampleLoop g data fn order ps = .ok (ps ++ r) ∧ r.map (·.1) = order ∧
      ∀ l₁ v x l₂, r = l₁ ++ (v, x) :: l₂ → ∃ inputs,
        List.Forall₂ (fun p y => (kget (ps ++ l₁) p).orElse (fun _ => kget data p) = some y) (par g v) inputs ∧
        x = fn v inputs (kget data v) := by
  intro order
  induction order with
  | nil => intro ps _ _; exact ⟨[], by simp [sampleLoop], rfl, by simp⟩
  | cons v order ih =>
    intro ps hnd hav
    obtain ⟨hv, hpar⟩ := hav [] v order rfl
    obtain ⟨inputs, h1, h2⟩ := inputsOf_ok ps data (par g v) (fun p hp => by
      rw [mem_insertionSort', MDG.mem_preds] at hp
      rcases hpar p hp with h | h | h
      · left
        rw [Option.isSome_iff_ne_none]
        exact fun hn => (get_eq_none.1 hn) h
      · simp at h
      · exact .inr h)
    set x := fn v inputs (kget data v) with hx
    obtain ⟨r, h3, h4, h5⟩ := ih (ps ++ [(v, x)]) (by simpa using hnd) (by
      intro l₁ w l₂ hw
      obtain ⟨hwn, hwp⟩ := hav (v :: l₁) w l₂ (by rw [hw]; rfl)
      refine ⟨hwn, fun p hp => ?_⟩
      rcases hwp p hp with h | h | h
      · left; simp at h ⊢; exact .inl h
      · rcases List.mem_cons.1 h with rfl | h
        · left; simp
        · exact .inr (.inl h)
      · exact .inr (.inr h))
    refine ⟨(v, x) :: r, ?_, by simp [h4], ?_⟩
    · rw [sampleLoop, getParents_false hv]
      dsimp only
      rw [h1]
      dsimp only
      rw [h3]; simp
    · intro l₁ w y l₂ hw
      cases l₁ with
      | nil =>
        simp only [List.nil_append, List.cons.injEq, Prod.mk.injEq] at hw
        obtain ⟨⟨rfl, rfl⟩, rfl⟩ := hw
        exact ⟨inputs, by simpa using h2, hx⟩
      | cons e l₁ =>
        simp only [List.cons_append, List.cons.injEq] at hw
        obtain ⟨rfl, hw⟩ := hw
        obtain ⟨inp, h6, h7⟩ := h5 l₁ w y l₂ hw
        exact ⟨inp, by simpa using h6, h7⟩

theorem Solves.unique {E : α → α → Prop} {S : Set α} {data : α → Option V} {fn : α → List V → Option V → V}
    {val val' : α → V} (hwf : WellFounded E) (h : Solves E S data fn val) (h' : Solves E S data fn val') :
    ∀ v ∈ S, val v = val' v := by
  intro v
  induction v using hwf.induction with
  | _ v ih =>
    intro hv
    obtain ⟨ps, inp, hs, hm, hf, he⟩ := h v hv
    obtain ⟨ps', inp', hs', hm', hf', he'⟩ := h' v hv
    have hps : ps = ps' := by
      have hp : ps.Perm ps' := (List.perm_ext_iff_of_nodup (hs.imp ne_of_lt) (hs'.imp ne_of_lt)).2
        (fun u => (hm u).trans (hm' u).symm)
      exact hp.eq_of_pairwise' (hs.imp le_of_lt) (hs'.imp le_of_lt)
    subst hps
    have hinp : inp = inp' := by
      have aux : ∀ (l : List α) (a b : List V), (∀ p ∈ l, p ∈ ps) →
          List.Forall₂ (fun p x => (p ∈ S ∧ x = val p) ∨ (p ∉ S ∧ data p = some x)) l a →
          List.Forall₂ (fun p x => (p ∈ S ∧ x = val' p) ∨ (p ∉ S ∧ data p = some x)) l b → a = b := by
        intro l
        induction l with
        | nil => intro a b _ ha hb; cases ha; cases hb; rfl
        | cons p l ihl =>
          intro a b hsub ha hb
          cases ha with
          | cons h1 h2 =>
          cases hb with
          | cons h3 h4 =>
          rw [ihl _ _ (fun q hq => hsub q (List.mem_cons_of_mem _ hq)) h2 h4]
          congr 1
          rcases h1 with ⟨hS, e⟩ | ⟨hS, e⟩ <;> rcases h3 with ⟨hS', e'⟩ | ⟨hS', e'⟩
          · rw [e, e']; exact ih p ((hm p).1 (hsub p (by simp))) hS
          · exact absurd hS hS'
          · exact absurd hS' hS
          · rw [e] at e'; cases e'; rfl
      exact aux ps inp inp' (fun _ h => h) hf hf'
    rw [he, he', hinp]

/-- the run of the loop over the nodes of `order` yields the solution of the structural equations -/
theorem sampleLoop_solves {g : MDG α} (hg : g.WF) (data : List (α × V)) (fn : α → List V → Option V → V)
    (order : List α) (hnd : order.Nodup) (hsub : ∀ v ∈ order, v ∈ g.nodes)
    (htop : ∀ l₁ v l₂, order = l₁ ++ v :: l₂ → ∀ p, g.E p v → p ∈ order → p ∈ l₁)
    (hav : ∀ v ∈ order, ∀ p, g.E p v → p ∈ order ∨ (kget data p).isSome) (d : V) :
    ∃ val : α → V, Solves g.E {v | v ∈ order} (kget data) fn val ∧
      sampleLoop g data fn order [] = .ok (order.map (fun v => (v, val v))) := by
  obtain ⟨r, h1, h2, h3⟩ := sampleLoop_spec (g := g) data fn order [] (by simpa using hnd) (by
    intro l₁ v l₂ hl
    have hvo : v ∈ order := by rw [hl]; simp
    refine ⟨hsub v hvo, fun p hp => ?_⟩
    rcases hav v hvo p hp with h | h
    · exact .inr (.inl (htop l₁ v l₂ hl p hp h))
    · exact .inr (.inr h))
  have hndr : (r.map (·.1)).Nodup := by rw [h2]; exact hnd
  set val : α → V := fun v => (kget r v).getD d with hval
  have hvr : ∀ e ∈ r, e.2 = val e.1 := fun e he => by simp [hval, get_of_mem hndr he]
  have hr : r = order.map (fun v => (v, val v)) := by
    rw [← h2, List.map_map]
    conv_lhs => rw [← List.map_id r]
    apply List.map_congr_left
    intro e he
    simp only [id, Function.comp]
    rw [← hvr e he]
  refine ⟨val, fun v hv => ?_, by rw [h1, List.nil_append, hr]⟩
  have hv' : v ∈ r.map (·.1) := by rw [h2]; exact hv
  obtain ⟨⟨v', x⟩, hx, rfl⟩ := List.mem_map.1 hv'
  obtain ⟨l₁, l₂, hl⟩ := List.append_of_mem hx
  obtain ⟨inputs, h4, h5⟩ := h3 l₁ v' x l₂ hl
  refine ⟨par g v', inputs, insertionSort_lt (MDG.nodup_preds g v'), fun u => by simp [mem_insertionSort'], ?_, ?_⟩
  · have hpre : order = l₁.map (·.1) ++ v' :: l₂.map (·.1) := by rw [← h2, hl]; simp
    have hmem : ∀ p ∈ par g v', g.E p v' := fun p hp => MDG.mem_preds.1 (mem_insertionSort'.1 hp)
    refine (List.forall₂_iff_zip.2 ⟨h4.length_eq, fun {p y} hpy => ?_⟩)
    have h6 := (List.forall₂_iff_zip.1 h4).2 hpy
    have hp := hmem p (List.of_mem_zip hpy).1
    simp only [List.nil_append] at h6
    by_cases hpo : p ∈ order
    · left
      refine ⟨hpo, ?_⟩
      have hp1 := htop _ _ _ hpre p hp hpo
      obtain ⟨⟨p', z⟩, hz, hz'⟩ := List.mem_map.1 hp1
      have hz'' : p' = p := hz'
      subst hz''
      have hndl : (l₁.map (·.1)).Nodup := by
        rw [hpre, List.nodup_append] at hnd; exact hnd.1
      rw [get_of_mem hndl hz] at h6
      simp at h6
      rw [← h6]
      exact hvr (p', z) (by rw [hl]; simp [hz])
    · right
      refine ⟨hpo, ?_⟩
      have : kget l₁ p = none := get_eq_none.2 (fun h => hpo (by rw [hpre]; exact List.mem_append_left _ h))
      rw [this] at h6
      simpa using h6
  · have := hvr _ hx
    simp only at this
    rw [← this, h5]

/-! ### C72 -/

theorem needed_nodes {g : MDG α} (hg : g.WF) {keys ns : Set α} (hns : ∀ v ∈ ns, v ∈ g.nodes) {u : α}
    (h : Needed g.E keys ns u) : u ∈ g.nodes := by
  induction h with
  | req h => exact hns _ h
  | up _ h _ _ => exact hg.left h

/-- C72. `model(data, nodes=ns)`: for every data and every list of nodes of the structure no KeyError occurs, each requested
node comes back exactly once, in topological order, and the values are the unique solution of the structural equations on
the needed nodes (the requested ones and their ancestors up to the given columns). -/
theorem C72_model_exact {g : MDG α} (hg : g.WF) (hv : ValidStructure {v | v ∈ g.nodes} g.E) (hne : g.nodes ≠ [])
    (data : List (α × V)) (fn : α → List V → Option V → V) (ns : List α) (hns : ∀ v ∈ ns, v ∈ g.nodes) :
    ∃ (val : α → V) (ks : List α),
      model g data fn (some ns) = .ok (ks.map (fun v => (v, val v))) ∧
      AnswersSet {v | v ∈ g.nodes} g.E {v | v ∈ ns} true ks ∧
      (let S := {v | Needed g.E {k | k ∈ data.map (·.1)} {v | v ∈ ns} v}
       Solves g.E S (kget data) fn val ∧
        ∀ val', Solves g.E S (kget data) fn val' → ∀ v ∈ ns, val' v = val v) := by
  obtain ⟨v0, hv0⟩ := List.exists_mem_of_ne_nil _ hne
  obtain ⟨miss, h1, h2⟩ := findMissing_spec hg hv.1 (data.map (·.1)) (fuel g) ns
    (fun n hn => ⟨hns n hn, ancCount_lt_fuel n⟩) (by simp [fuel])
  obtain ⟨order, h3, h4⟩ := topoNodes_ok hg hv hne
  set ord := order.filter (· ∈ ns ++ miss) with hord
  have hmo : ∀ u, u ∈ ord ↔ Needed g.E {k | k ∈ data.map (·.1)} {v | v ∈ ns} u := by
    intro u
    rw [hord, List.mem_filter, ← h2 u]
    simp only [decide_eq_true_eq, List.mem_append]
    refine ⟨fun h => h.2, fun h => ⟨(h4.2.1 u).2 ?_, h⟩⟩
    exact needed_nodes hg (ns := {v | v ∈ ns}) hns ((h2 u).1 h)
  have hsubl : ord.Sublist order := List.filter_sublist
  obtain ⟨val, h5, h6⟩ := sampleLoop_solves hg data fn ord (h4.1.filter _) (fun v h => (h4.2.1 v).1 (hsubl.subset h))
    (by
      intro l₁ v l₂ hl p hp hpo
      -- split the full order at v
      have hvo : v ∈ order := hsubl.subset (by rw [hl]; simp)
      obtain ⟨m₁, m₂, hm⟩ := List.append_of_mem hvo
      have hpm := h4.2.2 m₁ v m₂ hm p hp
      have hndo := h4.1
      rw [hm] at hndo
      rw [hord, hm, List.filter_append, List.filter_cons] at hl
      have hvk : decide (v ∈ ns ++ miss) = true := by
        have : v ∈ ord := by rw [hord, hm, List.filter_append, List.filter_cons, hl]; simp
        exact (List.mem_filter.1 this).2
      rw [if_pos hvk] at hl
      have hv1 : v ∉ m₁ := fun h => (List.nodup_append.1 hndo).2.2 v h v (by simp) rfl
      have hv2 : v ∉ l₁ := by
        intro h
        have hndl : (l₁ ++ v :: l₂).Nodup := by
          rw [← hl]
          have := hndo.filter (fun a => decide (a ∈ ns ++ miss))
          rw [List.filter_append, List.filter_cons, if_pos hvk] at this
          exact this
        exact (List.nodup_append.1 hndl).2.2 v h v (by simp) rfl
      have hv1' : v ∉ m₁.filter (fun a => decide (a ∈ ns ++ miss)) := fun h => hv1 (List.mem_filter.1 h).1
      have heq : m₁.filter (fun a => decide (a ∈ ns ++ miss)) = l₁ := by
        have := List.append_eq_append_iff.1 hl
        rcases this with ⟨t, ht1, ht2⟩ | ⟨t, ht1, ht2⟩
        · cases t with
          | nil => simpa using ht1.symm
          | cons a t =>
            simp only [List.cons_append, List.cons.injEq] at ht2
            exact absurd (by rw [ht1, ht2.1]; simp) hv2
        · cases t with
          | nil => simpa using ht1
          | cons a t =>
            simp only [List.cons_append, List.cons.injEq] at ht2
            exact absurd (by rw [ht1, ht2.1]; simp) hv1'
      rw [← heq]
      exact List.mem_filter.2 ⟨hpm, (List.mem_filter.1 hpo).2⟩)
    (by
      intro v hvo p hp
      by_cases hk : p ∈ data.map (·.1)
      · right
        rw [Option.isSome_iff_ne_none]
        exact fun h => get_eq_none.1 h hk
      · exact .inl ((hmo p).2 (.up ((hmo v).1 hvo) hp hk)))
    (fn v0 [] none)
  have hS : {v | v ∈ ord} = {v | Needed g.E {k | k ∈ data.map (·.1)} {v | v ∈ ns} v} := by
    ext u; exact hmo u
  rw [hS] at h5
  refine ⟨val, ord.filter (· ∈ ns), ?_, ⟨?_, ?_, order, h4, List.filter_sublist.trans hsubl⟩, h5, ?_⟩
  · simp only [model, h1, sortNodes, h3, if_true]
    rw [h6]
    dsimp only
    rw [List.filter_map]
    rfl
  · exact (h4.1.filter _).filter _
  · intro v
    simp only [List.mem_filter, decide_eq_true_eq, Set.mem_setOf_eq, hmo]
    exact ⟨fun h => h.2, fun h => ⟨.req h, h⟩⟩
  · intro val' h' v hvn
    exact (Solves.unique (hg.parentsWF hv.1) h5 h' v (.req hvn)).symm

/-- C72. `model(data)` without a node list: every node of the structure exactly once, in topological order, and the values
are the unique solution of all structural equations. -/
theorem C72_model_all {g : MDG α} (hg : g.WF) (hv : ValidStructure {v | v ∈ g.nodes} g.E) (hne : g.nodes ≠ [])
    (data : List (α × V)) (fn : α → List V → Option V → V) :
    ∃ (val : α → V) (ks : List α), model g data fn none = .ok (ks.map (fun v => (v, val v))) ∧
      IsTopoOrder {v | v ∈ g.nodes} g.E ks ∧ Solves g.E {v | v ∈ g.nodes} (kget data) fn val ∧
      ∀ val', Solves g.E {v | v ∈ g.nodes} (kget data) fn val' → ∀ v ∈ g.nodes, val' v = val v := by
  obtain ⟨v0, hv0⟩ := List.exists_mem_of_ne_nil _ hne
  obtain ⟨order, h3, h4⟩ := topoNodes_ok hg hv hne
  obtain ⟨val, h5, h6⟩ := sampleLoop_solves hg data fn order h4.1 (fun v h => (h4.2.1 v).1 h)
    (fun l₁ v l₂ hl p hp _ => h4.2.2 l₁ v l₂ hl p hp)
    (fun v _ p hp => .inl ((h4.2.1 p).2 (hg.left hp))) (fn v0 [] none)
  have hS : {v | v ∈ order} = {v | v ∈ g.nodes} := by ext u; exact h4.2.1 u
  rw [hS] at h5
  exact ⟨val, order, by simp only [model, h3]; exact h6, h4, h5,
    fun val' h' v hvn => (Solves.unique (hg.parentsWF hv.1) h5 h' v hvn).symm⟩

/-- C72. A requested node that is not in the structure is refused. -/
theorem C72_unknown_node_refused {g : MDG α} (hg : g.WF) (hv : ValidStructure {v | v ∈ g.nodes} g.E)
    (data : List (α × V)) (fn : α → List V → Option V → V) (ns : List α) (v : α) (hvn : v ∈ ns) (hn : v ∉ g.nodes) :
    model g data fn (some ns) = .error .networkx := by
  have : findMissing g (data.map (·.1)) (fuel g) ns = .error .networkx := by
    show findMissing g (data.map (·.1)) (g.nodes.length + 1) ns = .error .networkx
    rw [findMissing]
    refine gather_error _ _ _ (fun w hw => ?_) ⟨v, hvn, by rw [getParents, if_neg hn]; rfl⟩
    by_cases hwN : w ∈ g.nodes
    · right
      rw [getParents_false hwN]
      simp only [andThen]
      have hsub := findMissing_spec hg hv.1 (data.map (·.1)) g.nodes.length
      obtain ⟨r, hr, _⟩ := gather_mem (γ := Unit) (fun p => if p ∉ ns ∧ p ∉ data.map (·.1) then
          andThen (findMissing g (data.map (·.1)) g.nodes.length [p]) (fun l => .ok (p :: l)) else .ok []) ((g.preds w).insertionSort (· ≤ ·)) (fun p hp => by
          rw [mem_insertionSort', MDG.mem_preds] at hp
          split_ifs
          · have hlt : ancCount g p < g.nodes.length := by
              have h1 := ancCount_lt hg hv.1 hp
              have h2 := ancCount_lt_fuel (g := g) w
              unfold fuel at h2
              omega
            obtain ⟨l, hl, _⟩ := hsub [p] (by simpa using ⟨hg.left hp, hlt⟩) (by omega)
            rw [hl]
            exact ⟨_, rfl⟩
          · exact ⟨_, rfl⟩)
      exact ⟨r, hr⟩
    · left; rw [getParents, if_neg hwN]; rfl
  simp only [model, this]

/-- If node functions return an observation unchanged, a value generated for a node does not depend on which other nodes
were requested. -/
theorem C72_restriction {g : MDG α} (hg : g.WF) (hv : ValidStructure {v | v ∈ g.nodes} g.E) (hne : g.nodes ≠ [])
    (data : List (α × V)) (fn : α → List V → Option V → V) (hobs : ∀ v inputs o, fn v inputs (some o) = o)
    (ns : List α) (hns : ∀ v ∈ ns, v ∈ g.nodes) :
    ∃ full part, model g data fn none = .ok full ∧ model g data fn (some ns) = .ok part ∧
      ∀ e, e ∈ part ↔ e ∈ full ∧ e.1 ∈ ns := by
  obtain ⟨val, ks, h1, h2, h3, h4⟩ := C72_model_all hg hv hne data fn
  obtain ⟨val', ks', h1', h2', h3', h4'⟩ := C72_model_exact hg hv hne data fn ns hns
  refine ⟨_, _, h1, h1', fun e => ?_⟩
  have hsol : Solves g.E {v | Needed g.E {k | k ∈ data.map (·.1)} {v | v ∈ ns} v} (kget data) fn val := by
    intro v hv'
    obtain ⟨ps, inp, a1, a2, a3, a4⟩ := h3 v (needed_nodes hg (ns := {v | v ∈ ns}) hns hv')
    refine ⟨ps, inp, a1, a2, List.forall₂_iff_zip.2 ⟨a3.length_eq, fun {p x} hpx => ?_⟩, a4⟩
    have hp := (a2 p).1 (List.of_mem_zip hpx).1
    rcases (List.forall₂_iff_zip.1 a3).2 hpx with ⟨hpn, hx⟩ | ⟨hpn, _⟩
    · by_cases hk : p ∈ data.map (·.1)
      · by_cases hN : Needed g.E {k | k ∈ data.map (·.1)} {v | v ∈ ns} p
        · exact .inl ⟨hN, hx⟩
        · right
          refine ⟨hN, ?_⟩
          obtain ⟨o, ho⟩ := Option.ne_none_iff_exists'.1 (mt get_eq_none.1 (not_not.2 hk))
          obtain ⟨ps', inp', _, _, _, b4⟩ := h3 p hpn
          rw [ho, hobs] at b4
          rw [ho, hx, b4]
      · exact .inl ⟨.up hv' hp hk, hx⟩
    · exact absurd (hg.left hp) hpn
  have hval : ∀ v ∈ ns, val v = val' v := h4' val hsol
  constructor
  · intro he
    obtain ⟨v, hvk, rfl⟩ := List.mem_map.1 he
    have hvn : v ∈ ns := (h2'.2.1 v).1 hvk
    refine ⟨List.mem_map.2 ⟨v, (h2.2.1 v).2 (hns v hvn), by rw [hval v hvn]⟩, hvn⟩
  · rintro ⟨he, hen⟩
    obtain ⟨v, hvk, rfl⟩ := List.mem_map.1 he
    exact List.mem_map.2 ⟨v, (h2'.2.1 v).2 hen, by rw [hval v hen]⟩

end YL.Props
