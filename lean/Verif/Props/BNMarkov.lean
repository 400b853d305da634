import Verif.Props.BN
import Verif.Props.DSep

set_option linter.unusedSectionVars false

/-! C71: the blanket returned by `get_markov_blanket` shields the given nodes from all others, and it is minimal. -/

namespace YL.Props

open YL Spec BN

section generic

variable {α : Type} [LinearOrder α] {E : α → α → Prop}

theorem markov_blocks (hac : Acyclic E) (X : Set α) : ∀ (l : List α) (a : α), a ∈ X →
    ActivePath E (MarkovBlanket E X) (a :: l) → ∀ y, (a :: l).getLast? = some y → y ∈ X ∨ y ∈ MarkovBlanket E X
  | [], a, ha, _, y, hy => by simp at hy; exact .inl (hy ▸ ha)
  | [b], a, ha, hp, y, hy => by
    simp at hy; subst hy
    by_cases hb : b ∈ X
    · exact .inl hb
    · right
      rcases hp with h | h
      · exact ⟨hb, .inr (.inl ⟨a, ha, h⟩)⟩
      · exact ⟨hb, .inl ⟨a, ha, h⟩⟩
  | b :: c :: l, a, ha, hp, y, hy => by
    have hy' : (b :: c :: l).getLast? = some y := by simpa using hy
    obtain ⟨hab, ho, hp'⟩ := hp
    by_cases hb : b ∈ X
    · exact markov_blocks hac X (c :: l) b hb hp' y hy'
    have hbM : b ∈ MarkovBlanket E X := by
      rcases hab with h | h
      · exact ⟨hb, .inr (.inl ⟨a, ha, h⟩)⟩
      · exact ⟨hb, .inl ⟨a, ha, h⟩⟩
    rcases ho with ⟨hab', hcb, _⟩ | ⟨_, hn⟩
    · by_cases hc : c ∈ X
      · have hy'' : (c :: l).getLast? = some y := by simpa using hy'
        exact markov_blocks hac X l c hc hp'.tail y hy''
      have hcM : c ∈ MarkovBlanket E X := ⟨hc, .inr (.inr ⟨a, ha, b, hab', hcb⟩)⟩
      cases l with
      | nil => simp at hy'; exact .inr (hy' ▸ hcM)
      | cons d l =>
        obtain ⟨_, ho', _⟩ := hp'
        rcases ho' with ⟨hbc, _, _⟩ | ⟨_, hn⟩
        · exact absurd hbc (hac.asymm hcb)
        · exact absurd hcM hn
    · exact absurd hbM hn

theorem markov_dsep (hac : Acyclic E) (X Y : Set α) (hY : ∀ y ∈ Y, y ∉ X ∧ y ∉ MarkovBlanket E X) :
    DSep E X Y (MarkovBlanket E X) := by
  intro p _ hp x hx y hy hxX hyY
  cases p with
  | nil => simp at hx
  | cons a l =>
    simp at hx; subst hx
    rcases markov_blocks hac X l a hxX hp y hy with h | h
    · exact (hY y hyY).1 h
    · exact (hY y hyY).2 h

theorem markov_minimal (hac : Acyclic E) (X : Set α) (u : α) (hu : u ∈ MarkovBlanket E X) :
    ¬ DSep E X {u} (MarkovBlanket E X \ {u}) := by
  intro hd
  obtain ⟨hux, h⟩ := hu
  have hedge : ∀ x ∈ X, ¬ Adj E x u := by
    intro x hx hadj
    have hne : x ≠ u := fun h => hux (h ▸ hx)
    exact hd [x, u] (by simp [hne]) hadj x (by simp) u (by simp) hx rfl
  rcases h with ⟨x, hx, h⟩ | ⟨x, hx, h⟩ | ⟨x, hx, c, hxc, huc⟩
  · exact hedge x hx (.inr h)
  · exact hedge x hx (.inl h)
  · by_cases hc : c ∈ X
    · exact hedge c hc (.inr huc)
    · have hcu : c ≠ u := fun h => hac.irrefl u (h ▸ huc)
      have hxu : x ≠ u := fun h => hux (h ▸ hx)
      have hxc' : x ≠ c := fun h => hac.irrefl c (h ▸ hxc)
      have hcM : c ∈ MarkovBlanket E X := ⟨hc, .inr (.inl ⟨x, hx, hxc⟩)⟩
      refine hd [x, c, u] (by simp [hxc', hxu, hcu]) ⟨.inl hxc, .inl ⟨hxc, huc, c, ⟨hcM, hcu⟩, .refl⟩, .inr huc⟩ x (by simp) u
        (by simp) hx rfl

end generic

variable {α : Type} [LinearOrder α]

/-- C71. `get_markov_blanket(nodes, return_self=False)`: in every discrete Bayesian network on the structure, the nodes are
independent of all remaining nodes given the blanket; they are d-separated from them by it. -/
theorem C71_markov_shields {g : MDG α} (hg : g.WF) (hv : ValidStructure {v | v ∈ g.nodes} g.E) (ns : List α)
    (hns : ∀ v ∈ ns, v ∈ g.nodes) (hne : g.nodes ≠ []) (topo : Bool) :
    ∃ l, markov g ns false topo = .ok l ∧
      ∀ rest : List α, (∀ v ∈ rest, v ∈ g.nodes ∧ v ∉ ns ∧ v ∉ l) →
        DSep g.E {v | v ∈ ns} {v | v ∈ rest} {v | v ∈ l} ∧
        ∀ (Ω : α → Type) [∀ i, Fintype (Ω i)] (K : Type) [Field K] [LinearOrder K]
          (M : BayesNet (K := K) g.nodes.toFinset g.E Ω), M.CondIndep ns.toFinset rest.toFinset l.toFinset := by
  obtain ⟨l, h1, h2, h3, _⟩ := C70_markov_exact hg hv ns hns hne false topo
  have hl : {v | v ∈ l} = MarkovBlanket g.E {v | v ∈ ns} := by
    ext v; rw [Set.mem_setOf_eq, h3]; simp
  refine ⟨l, h1, fun rest hr => ?_⟩
  have hd : DSep g.E {v | v ∈ ns} {v | v ∈ rest} {v | v ∈ l} := by
    rw [hl]
    exact markov_dsep hv.1 _ _ (fun y hy => ⟨(hr y hy).2.1, fun h => (hr y hy).2.2 ((Set.ext_iff.1 hl y).2 h)⟩)
  refine ⟨hd, fun Ω _ K _ _ M v => ?_⟩
  have hlN : ∀ v ∈ l, v ∈ g.nodes := by
    intro v hvl
    obtain ⟨_, h⟩ := (Set.ext_iff.1 hl v).1 hvl
    rcases h with ⟨x, _, h⟩ | ⟨x, _, h⟩ | ⟨x, _, c, _, h⟩
    · exact hg.left h
    · exact hg.right h
    · exact hg.left h
  have hsep := (dsep_iff_not_connected hv.1 _ _ _
    (fun x hx hx' => ((Set.ext_iff.1 hl x).1 hx').1 hx) (fun y hy hy' => (hr y hy).2.2 hy')).1 hd
  refine indep_of_disconnected hv.1 M.kernels (fun i j _ hij => ?_) ?_ ?_ ?_ ?_ v
  · exact List.mem_toFinset.2 (hg.left hij)
  · intro i hi; exact List.mem_toFinset.2 (hns i (List.mem_toFinset.1 hi))
  · intro i hi; exact List.mem_toFinset.2 (hr i (List.mem_toFinset.1 hi)).1
  · intro i hi; exact List.mem_toFinset.2 (hlN i (List.mem_toFinset.1 hi))
  · intro a ha b hb
    have := hsep a (List.mem_toFinset.1 ha) b (List.mem_toFinset.1 hb)
    have e1 : ({t | t ∈ ns.toFinset ∪ rest.toFinset ∪ l.toFinset} : Set α) =
        {t | t ∈ ns} ∪ {t | t ∈ rest} ∪ {t | t ∈ l} := by
      ext t; simp [or_assoc]
    have e2 : ({t | t ∈ l.toFinset} : Set α) = {t | t ∈ l} := by ext t; simp
    rw [e1, e2]; exact this

/-- C71. The blanket is minimal: without any one of its members the nodes are no longer d-separated from that member. -/
theorem C71_markov_minimal {g : MDG α} (hg : g.WF) (hv : ValidStructure {v | v ∈ g.nodes} g.E) (ns : List α)
    (hns : ∀ v ∈ ns, v ∈ g.nodes) (hne : g.nodes ≠ []) (topo : Bool) :
    ∃ l, markov g ns false topo = .ok l ∧ ∀ u ∈ l, ¬ DSep g.E {v | v ∈ ns} {u} {v | v ∈ l ∧ v ≠ u} := by
  obtain ⟨l, h1, h2, h3, _⟩ := C70_markov_exact hg hv ns hns hne false topo
  have hl : {v | v ∈ l} = MarkovBlanket g.E {v | v ∈ ns} := by
    ext v; rw [Set.mem_setOf_eq, h3]; simp
  refine ⟨l, h1, fun u hu => ?_⟩
  have := markov_minimal hv.1 {v | v ∈ ns} u ((Set.ext_iff.1 hl u).1 hu)
  rw [← hl] at this
  exact this

/-- non-vacuity: in `a → c ← b, c → d, d → e` the blanket of `a` is `{b, c}` and `d`, `e` remain -/
example : markov (⟨["a", "c", "b", "d", "e"], [("a", "c", .num 0), ("b", "c", .num 0), ("c", "d", .num 0),
    ("d", "e", .num 0)]⟩ : MDG String) ["a"] false false = .ok ["b", "c"] ∧
    (mkDag (.other (⟨["a", "c", "b", "d", "e"], [("a", "c", .num 0), ("b", "c", .num 0), ("c", "d", .num 0),
    ("d", "e", .num 0)]⟩ : MDG String))).isOk = true := by decide +kernel

end YL.Props
