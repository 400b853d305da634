import Verif.Lib.Paths
import Verif.Lib.Backdoor

/-!
# C17, C18: back-door paths and colliders
-/

set_option linter.unusedSectionVars false

namespace YL.Props

open YL Spec LatentNames

variable {α : Type} [DecidableEq α] [LatentNames α] [CharNames α]

theorem mem_nbrs (d : MDG α) (a b : α) : b ∈ d.nbrs a ↔ Adj d.E a b := by
  simp only [MDG.nbrs, List.mem_append, MDG.mem_preds, MDG.mem_succs, Adj]
  tauto

theorem nodup_nbrs {d : MDG α} (hac : Acyclic d.E) (a : α) : (d.nbrs a).Nodup := by
  unfold MDG.nbrs
  rw [List.nodup_append']
  refine ⟨MDG.nodup_preds _ _, MDG.nodup_succs _ _, ?_⟩
  intro b h1 h2
  rw [MDG.mem_preds] at h1
  rw [MDG.mem_succs] at h2
  exact hac.asymm h1 h2

theorem backdoorPath_exact (c : Causation α) (A : List (α × α)) (h : IsDiagram c A U) {t y : α} {ps : List (List α)}
    (hok : getBackdoorPath (CG.init c A) t y = .ok ps) (hy : ∃ u, Adj (CG.init c A).explicitDag.E u y) :
    ps.Nodup ∧ ∀ p, p ∈ ps ↔ IsBackDoorPath (CG.init c A).explicitDag.E t y p ∧ 2 < p.length := by
  have hE := C08_explicit_faithful_partial c A h
  have hwf := CG.wf_explicit (CG.init c A)
  unfold getBackdoorPath at hok
  dsimp only at hok
  split at hok
  · cases hok
  · split at hok
    · cases hok
    · rename_i ps' hps
      cases hok
      have hyN : y ∈ (CG.init c A).explicitDag.nodes := by
        obtain ⟨u, hu⟩ := hy
        exact CG.mem_nodes_explicit.2 ⟨u, hu⟩
      have hmem := mem_allSimplePaths (fun a b hb => by
        rw [mem_nbrs] at hb
        rcases hb with hb | hb
        · exact hwf.right hb
        · exact hwf.left hb) hyN hps
      refine ⟨(nodup_allSimplePaths (nodup_nbrs hE.acyclic) hps).filter _, fun p => ?_⟩
      rw [List.mem_filter, hmem, Bool.and_eq_true, decide_eq_true_eq]
      have hch : (fun a b => b ∈ (CG.init c A).explicitDag.nbrs a) = Adj (CG.init c A).explicitDag.E := by
        funext a b; rw [mem_nbrs]
      rw [hch]
      constructor
      · rintro ⟨⟨hne, h1, h2, h3, h4⟩, h5, h6⟩
        refine ⟨⟨⟨h1, h2, h3, h4⟩, ?_⟩, h5⟩
        match p, h3, h5, h6 with
        | s :: a :: l, h3, _, h6 =>
          simp only [List.head?_cons, Option.some.injEq] at h3
          subst h3
          refine ⟨a, l, rfl, ?_⟩
          simpa [MDG.mem_preds] using h6
      · rintro ⟨⟨⟨h1, h2, h3, h4⟩, a, l, rfl, h5⟩, h6⟩
        refine ⟨⟨?_, h1, h2, h3, h4⟩, h6, by simpa [MDG.mem_preds] using h5⟩
        rintro rfl
        have hm : t ∈ a :: l := by
          rw [List.getLast?_cons_cons] at h4
          exact List.mem_of_getLast? h4
        exact (List.nodup_cons.1 h1).1 hm

/-- C17. `get_backdoor_path(t, y)` on a causal diagram, for an outcome with an edge or an arc: every back-door
path of more than two nodes between `t` and `y` in the diagram with explicit latent variables is listed exactly
once, and nothing else. Missing: an outcome without edge and arc, whose name networkx splits into characters
(`C17_isolated_outcome`). -/
theorem C17_backdoor_paths_partial (c : Causation α) (A : List (α × α)) (h : IsDiagram c A U) :
    ∃ G, IsExplicit c A U G ∧ ∀ t y ps, getBackdoorPath (CG.init c A) t y = .ok ps → (∃ u, Adj G u y) →
      ps.Nodup ∧ ∀ p, p ∈ ps ↔ IsBackDoorPath G t y p ∧ 2 < p.length := by
  exact ⟨_, C08_explicit_faithful_partial c A h, fun t y ps hok hy => backdoorPath_exact c A h hok hy⟩

/-- non-vacuity: two paths, one of them through a latent variable -/
example : getBackdoorPath (CG.init [("z", []), ("x", ["z"]), ("y", ["x", "z"])] [("x", "y")]) "x" "y" =
    .ok [["x", "z", "y"], ["x", "U0", "y"]] := by decide +kernel

/-- C17, violation: `ab` is a node without edges; the call lists a path to the node `a`. -/
theorem C17_isolated_outcome :
    getBackdoorPath (CG.init [("ab", []), ("z", []), ("x", ["z"]), ("a", ["z"])] []) "x" "ab" =
      .ok [["x", "z", "a"]] := by decide +kernel

/-! ### C18 -/

theorem hasCollider_cons {E : α → α → Prop} {a b c : α} {l : List α} :
    HasCollider E (a :: b :: c :: l) ↔ (E a b ∧ E c b) ∨ HasCollider E (b :: c :: l) := by
  constructor
  · rintro ⟨l₁, x, y, z, l₂, h, h1, h2⟩
    cases l₁ with
    | nil =>
      simp only [List.nil_append, List.cons.injEq] at h
      obtain ⟨rfl, rfl, rfl, rfl⟩ := h
      exact .inl ⟨h1, h2⟩
    | cons w l₁ =>
      simp only [List.cons_append, List.cons.injEq] at h
      exact .inr ⟨l₁, x, y, z, l₂, h.2, h1, h2⟩
  · rintro (⟨h1, h2⟩ | ⟨l₁, x, y, z, l₂, h, h1, h2⟩)
    · exact ⟨[], a, b, c, l, rfl, h1, h2⟩
    · exact ⟨a :: l₁, x, y, z, l₂, by rw [h]; rfl, h1, h2⟩

theorem not_hasCollider_short {E : α → α → Prop} {p : List α} (h : p.length ≤ 2) : ¬ HasCollider E p := by
  rintro ⟨l₁, a, b, c, l₂, rfl, _⟩
  simp at h; omega

theorem anyBackward_iff (d : MDG α) (l : List (α × α)) : anyBackward d l = true ↔ ∃ e ∈ l, d.E e.2 e.1 := by
  simp [anyBackward, MDG.mem_preds]

theorem fwd_collider {d : MDG α} (hac : Acyclic d.E) : ∀ (l : List α) (a b : α), d.E a b →
    (a :: b :: l).IsChain (Adj d.E) →
    (HasCollider d.E (a :: b :: l) ↔ anyBackward d ((b :: l).zip l) = true) := by
  intro l
  induction l with
  | nil =>
    intro a b _ _
    simp [anyBackward, not_hasCollider_short]
  | cons c l ih =>
    intro a b hab hch
    rw [hasCollider_cons]
    rw [List.isChain_cons_cons] at hch
    have hbc := (List.isChain_cons_cons.1 hch.2).1
    rw [List.zip_cons_cons, anyBackward, List.any_cons, Bool.or_eq_true, decide_eq_true_eq, MDG.mem_preds]
    rcases hbc with h | h
    · have hn := hac.asymm h
      have := ih b c h hch.2
      rw [this]
      simp only [hn, and_false, false_or, anyBackward]
    · simp [hab, h]

theorem afterForward_spec {d : MDG α} (hac : Acyclic d.E) : ∀ (p : List α), p.IsChain (Adj d.E) →
    (afterForward d (p.zip p.tail) = none ∧ ¬ HasCollider d.E p ∧ p.IsChain (fun a b => d.E b a)) ∨
    (∃ l, afterForward d (p.zip p.tail) = some l ∧ (HasCollider d.E p ↔ anyBackward d l = true) ∧
      ¬ p.IsChain (fun a b => d.E b a)) := by
  intro p
  induction p with
  | nil => intro _; left; exact ⟨rfl, not_hasCollider_short (by simp), by simp⟩
  | cons a p ih =>
    intro hch
    cases p with
    | nil => left; exact ⟨rfl, not_hasCollider_short (by simp), by simp⟩
    | cons b p =>
      have hch' := List.isChain_cons_cons.1 hch
      by_cases hf : d.E a b
      · right
        refine ⟨(b :: p).zip p, ?_, fwd_collider hac p a b hf hch, ?_⟩
        · simp [afterForward, MDG.mem_succs, hf]
        · rw [List.isChain_cons_cons]; exact fun h => hac.asymm hf h.1
      · have hb : d.E b a := hch'.1.resolve_left hf
        have e : afterForward d ((a :: b :: p).zip (a :: b :: p).tail) =
            afterForward d ((b :: p).zip (b :: p).tail) := by
          simp [afterForward, MDG.mem_succs, hf]
        have hc : HasCollider d.E (a :: b :: p) ↔ HasCollider d.E (b :: p) := by
          cases p with
          | nil => simp [not_hasCollider_short]
          | cons c p => rw [hasCollider_cons]; simp [hf]
        rw [e, hc, List.isChain_cons_cons]
        simp only [hb, true_and]
        exact ih hch'.2

theorem pairs_chain (d : MDG α) : ∀ (p : List α),
    (p.zip p.tail).all (fun e => decide (e.2 ∈ d.nbrs e.1)) = true ↔ p.IsChain (Adj d.E) := by
  intro p
  induction p with
  | nil => simp
  | cons a p ih =>
    cases p with
    | nil => simp
    | cons b p =>
      rw [List.isChain_cons_cons, ← ih, List.tail_cons, List.zip_cons_cons, List.all_cons, Bool.and_eq_true,
        decide_eq_true_eq, mem_nbrs]
      simp

theorem hasCollider_exact (c : Causation α) (A : List (α × α)) (h : IsDiagram c A U) (p : List α) :
    (2 ≤ p.length → p.IsChain (Adj (CG.init c A).explicitDag.E) → ∃ b, hasCollider (CG.init c A) p = .ok b) ∧
      ∀ b, hasCollider (CG.init c A) p = .ok b →
        (b = true ↔ HasCollider (CG.init c A).explicitDag.E p ∨
          (4 ≤ p.length ∧ p.IsChain (fun a b => (CG.init c A).explicitDag.E b a))) := by
  have hE := C08_explicit_faithful_partial c A h
  have hac := hE.acyclic
  refine ⟨fun hl hch => ?_, fun b hok => ?_⟩
  · have hin : checkNodes (CG.init c A).explicitDag.nodes p = .ok () := by
      unfold checkNodes
      rw [if_pos]
      rw [List.all_eq_true]
      intro v hv
      rw [decide_eq_true_eq, CG.mem_nodes_explicit]
      match p, hl, hch with
      | a :: b :: l, _, hch =>
        have h1 := List.isChain_cons_cons.1 hch
        rcases List.mem_cons.1 hv with rfl | hv
        · exact ⟨b, h1.1.symm⟩
        · exact CG.mem_nodes_explicit.1 (chain_mem (R := Adj (CG.init c A).explicitDag.E)
            (fun x y hxy => CG.mem_nodes_explicit.2 ⟨x, hxy⟩) (b :: l) b rfl
            (CG.mem_nodes_explicit.2 ⟨a, h1.1⟩) h1.2 v hv)
    unfold hasCollider
    dsimp only
    rw [hin]
    match p, hl with
    | a :: b :: l, _ =>
      simp only [(pairs_chain _ _).2 hch, if_true]
      split
      · exact ⟨_, rfl⟩
      · split
        · split
          · exact ⟨_, rfl⟩
          · split <;> exact ⟨_, rfl⟩
        · exact ⟨_, rfl⟩
  · unfold hasCollider at hok
    dsimp only at hok
    split at hok
    · cases hok
    · split at hok
      · rename_i p0 p1 rest _
        split at hok
        · rename_i hr
          cases hok
          have : rest = [] := by simpa using hr
          subst this
          simp [not_hasCollider_short]
        · rename_i hr
          split at hok
          · rename_i hall
            rw [pairs_chain] at hall
            split at hok
            · rename_i hbp
              simp only [Bool.true_and, decide_eq_true_eq, MDG.mem_preds] at hbp
              split at hok
              · rename_i h3
                cases hok
                match rest, h3 with
                | [p2], _ =>
                  rw [hasCollider_cons]
                  simp [hac.asymm hbp, not_hasCollider_short]
              · rename_i h3
                have hlen : 4 ≤ (p0 :: p1 :: rest).length := by
                  cases rest with
                  | nil => simp at hr
                  | cons p2 rest => simp at h3 ⊢; cases rest <;> simp_all
                rcases afterForward_spec hac _ hall with ⟨k1, k2, k3⟩ | ⟨l, k1, k2, k3⟩
                · rw [k1] at hok; cases hok
                  have : anyBackward (CG.init c A).explicitDag ((p0 :: p1 :: rest).zip (p0 :: p1 :: rest).tail) = true := by
                    rw [anyBackward_iff]
                    exact ⟨(p0, p1), by simp, hbp⟩
                  rw [this]
                  exact ⟨fun _ => .inr ⟨hlen, k3⟩, fun _ => rfl⟩
                · rw [k1] at hok; cases hok
                  rw [k2]
                  simp [k3]
            · rename_i hbp
              simp only [Bool.true_and, decide_eq_true_eq, MDG.mem_preds] at hbp
              cases hok
              have hf := (List.isChain_cons_cons.1 hall).1.resolve_right hbp
              rw [fwd_collider hac rest p0 p1 hf hall]
              have hn : ¬ (p0 :: p1 :: rest).IsChain (fun a b => (CG.init c A).explicitDag.E b a) := by
                rw [List.isChain_cons_cons]; exact fun h => hbp h.1
              simp only [hn, and_false, or_false, List.tail_cons, List.zip_cons_cons, anyBackward, List.any_cons,
                Bool.or_eq_true, decide_eq_true_eq, MDG.mem_preds, hbp, false_or]
          · cases hok
      · cases hok

/-- C18. `has_collider(path)` on a causal diagram: it answers for every path (of two nodes or more) of the
diagram with explicit latent variables, and the answer is True exactly if the path has a collider, or is a
chain of at least four nodes all of whose edges point backwards. Missing: the latter case should be False
(`C18_backward_chain`). -/
theorem C18_has_collider_partial (c : Causation α) (A : List (α × α)) (h : IsDiagram c A U) :
    ∃ G, IsExplicit c A U G ∧ ∀ p,
      (2 ≤ p.length → p.IsChain (Adj G) → ∃ b, hasCollider (CG.init c A) p = .ok b) ∧
      ∀ b, hasCollider (CG.init c A) p = .ok b →
        (b = true ↔ HasCollider G p ∨ (4 ≤ p.length ∧ p.IsChain (fun a b => G b a))) := by
  exact ⟨_, C08_explicit_faithful_partial c A h, fun p => hasCollider_exact c A h p⟩

/-- non-vacuity: both answers -/
example : hasCollider (CG.init [("a", []), ("b", []), ("x", ["a"]), ("m", ["a", "b"]), ("y", ["b"])] [])
      ["x", "a", "m", "b", "y"] = .ok true ∧
    hasCollider (CG.init [("a", []), ("b", ["a"]), ("x", ["a"]), ("y", ["b"])] []) ["x", "a", "b", "y"] =
      .ok false := by decide +kernel

/-- C18, violation: on the chain `d → b → a → x` the path `x, a, b, d` is said to have a collider. -/
theorem C18_backward_chain :
    hasCollider (CG.init [("d", []), ("b", ["d"]), ("a", ["b"]), ("x", ["a"])] []) ["x", "a", "b", "d"] =
      .ok true := by decide +kernel

end YL.Props
