import Verif.Model.Discovery
import Verif.Lib.Paths
import Verif.Lib.Bfs
import Verif.Spec.Graph
import Mathlib.Algebra.Order.Ring.Rat
import Mathlib.Tactic.Linarith
import Mathlib.Data.Fintype.Prod
import Mathlib.Data.Fintype.Card
import Mathlib.Data.Fin.VecNotation
import Mathlib.Data.Sym.Sym2

/-!
# C26-C29: causal discovery post-processing
-/

set_option linter.unusedSectionVars false

namespace YL.Props

open YL Spec Discovery

variable {n : Nat} {K : Type} [AddCommGroup K] [LinearOrder K]

/-- The directed graph of a matrix: an edge for every non-zero entry. -/
def MatEdge (W : Mat n K) (i j : Fin n) : Prop := W i j ≠ 0

theorem stepIn_succs (W : Mat n K) (u v : Fin n) : MDG.StepIn (List.finRange n) (succs W) u v ↔ MatEdge W u v := by
  simp [MDG.StepIn, succs, MatEdge]

theorem hasPath_iff (W : Mat n K) (u v : Fin n) : hasPath W u v = true ↔ Reach (MatEdge W) u v := by
  unfold hasPath
  rw [decide_eq_true_eq, MDG.mem_reachList]
  have : MDG.StepIn (List.finRange n) (succs W) = MatEdge W := by
    funext u v; exact propext (stepIn_succs W u v)
  rw [this]

theorem mem_sortedEdges (W : Mat n K) (e : Fin n × Fin n) : e ∈ sortedEdges W ↔ MatEdge W e.1 e.2 := by
  unfold sortedEdges
  rw [List.mem_insertionSort]
  simp [MatEdge]

theorem minEdge_some (W : Mat n K) : ∀ (es : List (Fin n × Fin n)), es ≠ [] → ∃ e ∈ es, minEdge W es = some e ∧
    ∀ f ∈ es, W e.1 e.2 ≤ W f.1 f.2
  | [], h => absurd rfl h
  | [e], _ => ⟨e, by simp, by simp [minEdge], by simp⟩
  | e :: f :: es, _ => by
    obtain ⟨g, hg, hm, hle⟩ := minEdge_some W (f :: es) (by simp)
    rw [minEdge, hm]
    dsimp only
    split
    · rename_i h
      refine ⟨e, by simp, rfl, fun x hx => ?_⟩
      rcases List.mem_cons.1 hx with rfl | hx
      · exact le_rfl
      · exact h.trans (hle x hx)
    · rename_i h
      refine ⟨g, by simp [hg], rfl, fun x hx => ?_⟩
      rcases List.mem_cons.1 hx with rfl | hx
      · exact (not_le.1 h).le
      · exact hle x hx

/-- A directed path visits its edges, and each of them lies between the ends. -/
theorem chain_edges {E : Fin n → Fin n → Prop} : ∀ (p : List (Fin n)) (s t : Fin n), p.IsChain E →
    p.head? = some s → p.getLast? = some t →
    ∀ e ∈ pathEdges p, E e.1 e.2 ∧ Reach E s e.1 ∧ Reach E e.2 t := by
  intro p
  induction p with
  | nil => intro s t _ h; cases h
  | cons a p ih =>
    intro s t hc hs ht e he
    cases hs
    cases p with
    | nil => simp [pathEdges] at he
    | cons b p =>
      have hab := (List.isChain_cons_cons.1 hc).1
      have hc' := (List.isChain_cons_cons.1 hc).2
      have ht' : (b :: p).getLast? = some t := by simpa using ht
      simp only [pathEdges, List.tail_cons, List.zip_cons_cons, List.mem_cons] at he
      rcases he with rfl | he
      · refine ⟨hab, .refl, ?_⟩
        cases p with
        | nil => simp at ht'; subst ht'; exact .refl
        | cons c p =>
          obtain ⟨h1, h2, h3⟩ := ih b t hc' rfl ht' (b, c) (by simp [pathEdges])
          exact Relation.ReflTransGen.head h1 h3
      · obtain ⟨h1, h2, h3⟩ := ih b t hc' rfl ht' e (by simpa [pathEdges] using he)
        exact ⟨h1, .head hab h2, h3⟩

theorem mem_shortest {W : Mat n K} {s t : Fin n} {p : List (Fin n)} (h : p ∈ shortestPaths W s t) :
    IsDiPath (MatEdge W) s t p ∧ p.Nodup := by
  unfold shortestPaths at h
  obtain ⟨h1, h2, h3, h4, -, t', ht', h5⟩ := (mem_simplePaths _ _ _ _ _ _).1 (List.mem_filter.1 h).1
  simp at ht'; subst ht'
  refine ⟨⟨?_, h2, h5⟩, h4⟩
  refine List.IsChain.imp (fun a b hab => ?_) h3
  simpa [succs, MatEdge] using hab

theorem exists_min {β : Type} (f : β → K) : ∀ (l : List β), l ≠ [] → ∃ a ∈ l, ∀ b ∈ l, f a ≤ f b
  | [], h => absurd rfl h
  | [a], _ => ⟨a, by simp, by simp⟩
  | a :: b :: l, _ => by
    obtain ⟨c, hc, hle⟩ := exists_min f (b :: l) (by simp)
    rcases le_total (f a) (f c) with h | h
    · refine ⟨a, by simp, fun x hx => ?_⟩
      rcases List.mem_cons.1 hx with rfl | hx
      · exact le_rfl
      · exact h.trans (hle x hx)
    · refine ⟨c, by simp [hc], fun x hx => ?_⟩
      rcases List.mem_cons.1 hx with rfl | hx
      · exact h
      · exact hle x hx

/-- From a walk a simple path. -/
theorem simple_of_reach {E : Fin n → Fin n → Prop} {s t : Fin n} (h : Reach E s t) :
    ∃ p : List (Fin n), p.Nodup ∧ p.IsChain E ∧ p.head? = some s ∧ p.getLast? = some t := by
  induction h using Relation.ReflTransGen.head_induction_on with
  | refl => exact ⟨[t], by simp⟩
  | @head a b hab _ ih =>
    obtain ⟨p, h1, h2, h3, h4⟩ := ih
    by_cases ha : a ∈ p
    · obtain ⟨l₁, l₂, rfl⟩ := List.append_of_mem ha
      refine ⟨a :: l₂, (List.nodup_append.1 h1).2.1, h2.right_of_append, rfl, ?_⟩
      rw [List.getLast?_append_of_ne_nil _ (by simp)] at h4
      exact h4
    · refine ⟨a :: p, List.nodup_cons.2 ⟨ha, h1⟩, ?_, rfl, ?_⟩
      · cases p with
        | nil => cases h3
        | cons c p => cases h3; exact List.isChain_cons_cons.2 ⟨hab, h2⟩
      · cases p with
        | nil => cases h3
        | cons c p => simpa using h4

theorem shortest_ne_nil {W : Mat n K} {s t : Fin n} (h : Reach (MatEdge W) s t) : shortestPaths W s t ≠ [] := by
  obtain ⟨p, h1, h2, h3, h4⟩ := simple_of_reach h
  have hp : p ∈ simplePaths (succs W) [t] n [] s := by
    rw [mem_simplePaths]
    refine ⟨by simpa using List.Nodup.length_le_card h1, h3, ?_, h1, by simp, t, by simp, h4⟩
    refine List.IsChain.imp (fun a b hab => ?_) h2
    simpa [succs, MatEdge] using hab
  obtain ⟨q, hq, hle⟩ := exists_min (pathWeight W) (simplePaths (succs W) [t] n [] s) (List.ne_nil_of_mem hp)
  refine List.ne_nil_of_mem (a := q) (List.mem_filter.2 ⟨hq, ?_⟩)
  simpa using hle

/-- `W'` arises from `W` by clearing entries that lie on directed cycles of `W`. -/
def Trimmed (W W' : Mat n K) : Prop :=
  ∀ i j, W' i j = W i j ∨ (W' i j = 0 ∧ Reach1 (MatEdge W) j j ∧ Reach (MatEdge W) j i)

theorem trimPaths_ok {W₀ : Mat n K} {X Y : Fin n} (hXY : X ≠ Y) :
    ∀ (ps : List (List (Fin n))) (W : Mat n K), (∀ p ∈ ps, IsDiPath (MatEdge W₀) Y X p) →
    ∃ W', trimPaths W₀ W ps = .ok W' ∧
      (∀ i j, W' i j = W i j ∨ (W' i j = 0 ∧ MatEdge W₀ i j ∧ Reach (MatEdge W₀) Y i ∧ Reach (MatEdge W₀) j X)) ∧
      (ps ≠ [] → ∃ i j, MatEdge W₀ i j ∧ W' i j = 0) := by
  intro ps
  induction ps with
  | nil => intro W _; exact ⟨W, rfl, fun i j => .inl rfl, fun h => absurd rfl h⟩
  | cons p ps ih =>
    intro W hp
    have hpp := hp p (by simp)
    have hne : pathEdges p ≠ [] := by
      obtain ⟨_, h1, h2⟩ := hpp
      match p, h1, h2 with
      | [a], h1, h2 => simp at h1 h2; exact absurd (h2.symm.trans h1) hXY
      | a :: b :: p, _, _ => simp [pathEdges]
    obtain ⟨e, he, hm, _⟩ := minEdge_some W₀ _ hne
    obtain ⟨c1, c2, c3⟩ := chain_edges p Y X hpp.1 hpp.2.1 hpp.2.2 e he
    obtain ⟨W', h1, h2, _⟩ := ih (clear W e) (fun q hq => hp q (List.mem_cons_of_mem _ hq))
    have hall : ∀ i j, W' i j = W i j ∨
        (W' i j = 0 ∧ MatEdge W₀ i j ∧ Reach (MatEdge W₀) Y i ∧ Reach (MatEdge W₀) j X) := by
      intro i j
      rcases h2 i j with h | h
      · by_cases hij : (i, j) = e
        · subst hij
          exact .inr ⟨by rw [h]; simp [clear], c1, c2, c3⟩
        · left; rw [h]; simp [clear, hij]
      · exact .inr h
    refine ⟨W', ?_, hall, fun _ => ⟨e.1, e.2, c1, ?_⟩⟩
    · rw [trimPaths, hm]; exact h1
    · rcases h2 e.1 e.2 with h | h
      · rw [h]; simp [clear]
      · exact h.1

/-- the number of edges -/
def edgeCount (W : Mat n K) : Nat := (Finset.univ.filter (fun e : Fin n × Fin n => W e.1 e.2 ≠ 0)).card

theorem trimStep_spec {W : Mat n K} (hd : ∀ i, W i i = 0) :
    (trimStep W = .ok none ∧ Acyclic (MatEdge W)) ∨
    ∃ W', trimStep W = .ok (some W') ∧ Trimmed W W' ∧ edgeCount W' < edgeCount W := by
  unfold trimStep
  cases hf : (sortedEdges W).find? (fun e => hasPath W e.2 e.1) with
  | none =>
    left
    refine ⟨rfl, fun a ha => ?_⟩
    obtain ⟨b, hab, hba⟩ := Relation.TransGen.head'_iff.1 ha
    have := List.find?_eq_none.1 hf (a, b) ((mem_sortedEdges W (a, b)).2 hab)
    exact this ((hasPath_iff W b a).2 hba)
  | some e =>
    right
    obtain ⟨X, Y⟩ := e
    have hE : MatEdge W X Y := (mem_sortedEdges W (X, Y)).1 (List.mem_of_find?_eq_some hf)
    have hP : Reach (MatEdge W) Y X := (hasPath_iff W Y X).1 (by simpa using List.find?_some hf)
    have hXY : X ≠ Y := fun h => hE (h ▸ hd X)
    obtain ⟨W', h1, h2, h3⟩ := trimPaths_ok hXY (shortestPaths W Y X) W (fun p hp => (mem_shortest hp).1)
    obtain ⟨i, j, hij, hz⟩ := h3 (shortest_ne_nil hP)
    refine ⟨W', by dsimp only; rw [h1], ?_, ?_⟩
    · intro i j
      rcases h2 i j with h | ⟨h, e1, e2, e3⟩
      · exact .inl h
      · have hji : Reach (MatEdge W) j i := e3.trans (Relation.ReflTransGen.head hE e2)
        exact .inr ⟨h, Relation.TransGen.tail' hji e1, hji⟩
    · unfold edgeCount
      refine Finset.card_lt_card ⟨?_, ?_⟩
      · intro e he
        simp only [Finset.mem_filter, Finset.mem_univ, true_and] at he ⊢
        rcases h2 e.1 e.2 with h | ⟨h, _⟩
        · rw [← h]; exact he
        · exact absurd h he
      · intro hcon
        have := @hcon (i, j) (by simp only [Finset.mem_filter, Finset.mem_univ, true_and]; exact hij)
        simp [hz] at this

theorem trimmed_sub {W W' : Mat n K} (h : Trimmed W W') (i j : Fin n) (hij : MatEdge W' i j) : MatEdge W i j := by
  rcases h i j with e | e
  · unfold MatEdge at *; rwa [← e]
  · exact absurd e.1 hij

theorem trimmed_trans {W W' W'' : Mat n K} (h : Trimmed W W') (h' : Trimmed W' W'') : Trimmed W W'' := by
  intro i j
  rcases h' i j with e | ⟨e, e1, e2⟩
  · rcases h i j with e' | e'
    · exact .inl (e.trans e')
    · exact .inr ⟨e.trans e'.1, e'.2⟩
  · exact .inr ⟨e, Relation.TransGen.mono (fun _ _ h'' => trimmed_sub h _ _ h'') _ _ e1,
      Relation.ReflTransGen.mono (fun _ _ h'' => trimmed_sub h _ _ h'') _ _ e2⟩

theorem trimLoop_spec : ∀ (f : Nat) (W : Mat n K), (∀ i, W i i = 0) → edgeCount W < f →
    ∃ W', trimLoop f W = .ok W' ∧ Acyclic (MatEdge W') ∧ Trimmed W W' := by
  intro f
  induction f with
  | zero => intro W _ h; omega
  | succ f ih =>
    intro W hd hf
    rcases trimStep_spec hd with ⟨h1, h2⟩ | ⟨W', h1, h2, h3⟩
    · refine ⟨W, by rw [trimLoop, h1], h2, fun i j => .inl rfl⟩
    · have hd' : ∀ i, W' i i = 0 := by
        intro i
        rcases h2 i i with e | e
        · rw [e, hd]
        · exact e.1
      obtain ⟨W'', e1, e2, e3⟩ := ih W' hd' (by omega)
      exact ⟨W'', by rw [trimLoop, h1]; exact e1, e2, trimmed_trans h2 e3⟩

theorem isDag_of_acyclic {W : Mat n K} (h : Acyclic (MatEdge W)) : isDag W = true := by
  unfold isDag
  simp only [List.all_eq_true, Bool.or_eq_true, decide_eq_true_eq, Bool.not_eq_true']
  intro i _ j _
  by_cases hij : W i j = 0
  · exact .inl hij
  · right
    by_contra hp
    exact h i (Relation.TransGen.head' hij ((hasPath_iff W j i).1 (by simpa using hp)))

theorem edgeCount_le (W : Mat n K) : edgeCount W ≤ n * n := by
  unfold edgeCount
  refine (Finset.card_le_univ _).trans ?_
  simp

/-- C26. For every matrix of non-negative weights without self-loops, `trim_cycle` stops after at most `n² + 1` rounds,
no exception is raised (the final assertion holds) and the result has no directed cycle. (Non-negativity is what
makes `all_shortest_paths` as modelled; the proof does not use it.) -/
theorem C26_trim_cycle_acyclic (W : Mat n K) (_hW : ∀ i j, 0 ≤ W i j) (hd : ∀ i, W i i = 0) :
    ∃ W', (∀ f > n * n, trimCycle f W = .ok W') ∧ Acyclic (MatEdge W') := by
  obtain ⟨W', h1, h2, h3⟩ := trimLoop_spec (n * n + 1) W hd (by have := edgeCount_le W; omega)
  refine ⟨W', fun f hf => ?_, h2⟩
  have hmono : ∀ (f : Nat) (W : Mat n K) (r : Mat n K), trimLoop f W = .ok r → ∀ f' ≥ f, trimLoop f' W = .ok r := by
    intro f
    induction f with
    | zero => intro W r h; cases h
    | succ f ih =>
      intro W r h f' hf'
      obtain ⟨f'', rfl⟩ : ∃ f'', f' = f'' + 1 := ⟨f' - 1, by omega⟩
      rw [trimLoop] at h ⊢
      cases hs : trimStep W with
      | error e => rw [hs] at h; cases h
      | ok o => cases o with
        | none => rw [hs] at h; exact h
        | some W1 => rw [hs] at h; exact ih W1 r h f'' (by omega)
  unfold trimCycle
  rw [hmono _ _ _ h1 f hf]
  dsimp only
  rw [if_pos (isDag_of_acyclic h2)]

/-- C26: the bidirectional clean-up of the discovery classes makes the precondition true, so `_to_dag` yields an
acyclic matrix for every non-negative matrix. -/
theorem C26_to_dag_acyclic (W : Mat n K) (hW : ∀ i j, 0 ≤ W i j) :
    ∃ W', (∀ f > n * n, toDag f W = .ok W') ∧ Acyclic (MatEdge W') := by
  refine C26_trim_cycle_acyclic (dropReverse W) (fun i j => ?_) (fun i => by simp [dropReverse])
  unfold dropReverse
  split_ifs <;> first | exact le_rfl | exact hW _ _

/-- C27. `trim_cycle` only clears entries, and only entries on a directed cycle of the input; in particular an
acyclic input comes back unchanged. -/
theorem C27_trim_cycle_only_deletes (W : Mat n K) (_hW : ∀ i j, 0 ≤ W i j) (hd : ∀ i, W i i = 0) (f : Nat) (W' : Mat n K)
    (hf : n * n < f) (h : trimCycle f W = .ok W') :
    (∀ i j, W' i j = W i j ∨ (W' i j = 0 ∧ Reach (MatEdge W) j i)) ∧ (Acyclic (MatEdge W) → W' = W) := by
  obtain ⟨W'', h1, h2, h3⟩ := trimLoop_spec f W hd (by have := edgeCount_le W; omega)
  unfold trimCycle at h
  rw [h1] at h
  dsimp only at h
  rw [if_pos (isDag_of_acyclic h2)] at h
  cases h
  refine ⟨fun i j => ?_, fun hac => ?_⟩
  · rcases h3 i j with e | e
    · exact .inl e
    · exact .inr ⟨e.1, e.2.2⟩
  · funext i j
    rcases h3 i j with e | e
    · exact e
    · exact absurd e.2.1 (hac j)

/-- non-vacuity: a cycle of three variables with a chord; the weakest edge `2 → 0` goes -/
example : (trimCycle 10 (![![0, 3, 0], ![0, 0, 2], ![1, 0, 0]] : Mat 3 ℤ)).map (fun W => (List.finRange 3).map
    (fun i => (List.finRange 3).map (W i))) = .ok [[0, 3, 0], [0, 0, 2], [0, 0, 0]] := by decide +kernel

/-- C27, `_to_dag`: every edge of the result is an edge of the input with its weight unchanged, it is no self-loop, and
the input had no stronger edge in the opposite direction; an acyclic input comes back unchanged. -/
theorem C27_to_dag_keeps_stronger [IsOrderedAddMonoid K] (W : Mat n K) (hW : ∀ i j, 0 ≤ W i j) (f : Nat) (W' : Mat n K)
    (hf : n * n < f) (h : toDag f W = .ok W') :
    (∀ i j, W' i j ≠ 0 → i ≠ j ∧ W' i j = W i j ∧ |W j i| ≤ |W i j|) ∧ (Acyclic (MatEdge W) → W' = W) := by
  have hW0 : ∀ i j, 0 ≤ dropReverse W i j := by
    intro i j; unfold dropReverse
    split_ifs <;> first | exact le_rfl | exact hW _ _
  have hd0 : ∀ i, dropReverse W i i = 0 := fun i => by simp [dropReverse]
  obtain ⟨h1, h2⟩ := C27_trim_cycle_only_deletes (dropReverse W) hW0 hd0 f W' hf h
  have hdrop : ∀ i j, dropReverse W i j ≠ 0 → i ≠ j ∧ dropReverse W i j = W i j ∧ |W j i| ≤ |W i j| := by
    intro i j hne
    unfold dropReverse at hne ⊢
    split_ifs at hne ⊢ with a b c d
    · exact absurd rfl hne
    · exact absurd rfl hne
    · exact ⟨a, rfl, not_lt.1 c⟩
    · exact ⟨a, rfl, d.le⟩
    · exact absurd rfl hne
  refine ⟨fun i j hne => ?_, fun hac => ?_⟩
  · rcases h1 i j with e | e
    · rw [e] at hne ⊢; exact hdrop i j hne
    · exact absurd e.1 hne
  · have hopp : ∀ i j, W i j ≠ 0 → W j i = 0 := fun i j hij => by
      by_contra hji
      exact hac i (Relation.TransGen.head hij (Relation.TransGen.single hji))
    have heq : dropReverse W = W := by
      funext i j
      unfold dropReverse
      split_ifs with a b c d
      · subst a
        by_contra hne
        exact hac i (Relation.TransGen.single (fun h0 => hne h0.symm))
      · by_contra hne
        have := hopp i j (fun h0 => hne h0.symm)
        rw [this, abs_zero] at c
        exact absurd (abs_nonneg (W i j)) (not_le.2 c)
      · rfl
      · rfl
      · by_contra hne
        have := hopp i j (fun h0 => hne h0.symm)
        rw [this, abs_zero] at d
        exact hne (by simpa using (abs_nonpos_iff.1 (not_lt.1 d)).symm)
    rw [h2 (by rw [heq]; exact hac), heq]

/-- non-vacuity: of `0 → 1` (weight 3) and `1 → 0` (weight 2) the stronger one stays, in either position -/
example : (toDag 5 (![![7, 3], ![2, 0]] : Mat 2 ℤ)).map (fun W => (List.finRange 2).map
    (fun i => (List.finRange 2).map (W i))) = .ok [[0, 3], [0, 0]] ∧
    (toDag 5 (![![7, 2], ![3, 0]] : Mat 2 ℤ)).map (fun W => (List.finRange 2).map
    (fun i => (List.finRange 2).map (W i))) = .ok [[0, 0], [3, 0]] := by decide +kernel

/-- C26, violation: a self-loop makes `trim_cycle` fail with `IndexError`. -/
theorem C26_self_loop_crashes : (trimCycle 10 (![![1]] : Mat 1 ℤ)).map (fun _ => ()) = .error .index := by
  decide +kernel

/-! ### C28: matrix2dict -/

/-- What the stack of the depth first search holds: `us` are the nodes whose children are being looked at. -/
def StackOk (next : Fin n → List (Fin n)) (vis : List (Fin n)) : List (Nat × List (Fin n)) → List (Fin n) → Prop
  | [], [] => True
  | (d, cs) :: st, u :: us => d + st.length = n ∧ (∀ c ∈ cs, c ∈ next u) ∧ (∀ c ∈ next u, c ∈ vis ∨ c ∈ cs) ∧
    StackOk next vis st us
  | _, _ => False

theorem StackOk.mono {next : Fin n → List (Fin n)} {vis vis' : List (Fin n)} (h : ∀ v ∈ vis, v ∈ vis') :
    ∀ (st : List (Nat × List (Fin n))) (us : List (Fin n)), StackOk next vis st us → StackOk next vis' st us
  | [], [], _ => trivial
  | (d, cs) :: st, u :: us, ⟨h1, h0, h2, h3⟩ =>
    ⟨h1, h0, fun c hc => (h2 c hc).imp (h c) (fun h => h), StackOk.mono h st us h3⟩
  | [], _ :: _, h' => h'.elim
  | _ :: _, [], h' => h'.elim

theorem StackOk.length {next : Fin n → List (Fin n)} {vis : List (Fin n)} :
    ∀ (st : List (Nat × List (Fin n))) (us : List (Fin n)), StackOk next vis st us → st.length = us.length
  | [], [], _ => rfl
  | _ :: st, _ :: us, ⟨_, _, _, h3⟩ => by simp [StackOk.length st us h3]
  | [], _ :: _, h' => h'.elim
  | _ :: _, [], h' => h'.elim

/-- the work left -/
def dfsWork (st : List (Nat × List (Fin n))) (vis : List (Fin n)) : Nat :=
  (st.map (fun e => e.2.length + 1)).sum + (n + 1) * ((List.finRange n).filter (· ∉ vis)).length

theorem unvisited_lt {vis : List (Fin n)} {c : Fin n} (hc : c ∉ vis) :
    ((List.finRange n).filter (· ∉ vis ++ [c])).length + 1 ≤ ((List.finRange n).filter (· ∉ vis)).length := by
  have h1 : ((List.finRange n).filter (· ∉ vis ++ [c])) = ((List.finRange n).filter (· ∉ vis)).filter (· ≠ c) := by
    rw [List.filter_filter]
    congr 1
    funext v
    by_cases h1 : v ∈ vis <;> by_cases h2 : v = c <;> simp [h1, h2]
  rw [h1]
  have hm : c ∈ (List.finRange n).filter (· ∉ vis) := by simp [hc]
  have hn : ((List.finRange n).filter (· ∉ vis)).Nodup := (List.nodup_finRange n).filter _
  have := hn.erase_eq_filter c
  have h2 : ((List.finRange n).filter (· ∉ vis)).filter (· ≠ c) = ((List.finRange n).filter (· ∉ vis)).erase c := by
    rw [this]; congr 1; funext x; simp [bne, BEq.beq]
  rw [h2, List.length_erase_of_mem hm]
  have := List.length_pos_of_mem hm
  omega

theorem dfs_closed {next : Fin n → List (Fin n)} (hn : ∀ u, (next u).length ≤ n) :
    ∀ (f : Nat) (st : List (Nat × List (Fin n))) (vis us : List (Fin n)), dfsWork st vis ≤ f → StackOk next vis st us →
      us.Nodup → (∀ u ∈ us, u ∈ vis) → (∀ v ∈ vis, v ∉ us → ∀ c ∈ next v, c ∈ vis) →
      ∃ l, dfsLoop next f st vis = vis ++ l ∧ ∀ v ∈ vis ++ l, ∀ c ∈ next v, c ∈ vis ++ l := by
  intro f
  induction f with
  | zero =>
    intro st vis us hf hst hus huv hcl
    cases st with
    | cons e st => simp [dfsWork] at hf
    | nil =>
      cases us with
      | cons _ _ => exact hst.elim
      | nil => exact ⟨[], by simp [dfsLoop], by simpa using hcl⟩
  | succ f ih =>
    intro st vis us hf hst hus huv hcl
    match st, us, hst with
    | [], [], _ => exact ⟨[], by simp [dfsLoop], by simpa using hcl⟩
    | (d, []) :: st, u :: us, ⟨h1, _, h2, h3⟩ =>
      rw [dfsLoop]
      refine ih st vis us ?_ h3 (List.nodup_cons.1 hus).2 (fun v hv => huv v (List.mem_cons_of_mem _ hv)) ?_
      · simp only [dfsWork, List.map_cons, List.sum_cons] at hf ⊢; omega
      · intro v hv hvu c hc
        by_cases e : v = u
        · subst e; exact (h2 c hc).resolve_right (by simp)
        · exact hcl v hv (by simp [e, hvu]) c hc
    | (d, c :: cs) :: st, u :: us, ⟨h1, h0, h2, h3⟩ =>
      rw [dfsLoop]
      by_cases hc : c ∈ vis
      · rw [if_pos hc]
        refine ih _ vis (u :: us) ?_ ⟨h1, fun x hx => h0 x (List.mem_cons_of_mem _ hx), fun x hx => ?_, h3⟩ hus huv hcl
        · simp only [dfsWork, List.map_cons, List.sum_cons, List.length_cons] at hf ⊢; omega
        · rcases h2 x hx with h | h
          · exact .inl h
          · rcases List.mem_cons.1 h with rfl | h
            · exact .inl hc
            · exact .inr h
      · rw [if_neg hc]
        have hcus : c ∉ u :: us := fun h => hc (huv c h)
        have hd : 1 < d := by
          have hl : (c :: u :: us).length ≤ n := by
            simpa using List.Nodup.length_le_card (List.nodup_cons.2 ⟨hcus, hus⟩)
          have := StackOk.length st us h3
          simp at hl; omega
        rw [if_pos hd]
        have hsub : ∀ v ∈ vis, v ∈ vis ++ [c] := fun v hv => List.mem_append_left _ hv
        obtain ⟨l, e1, e2⟩ := ih ((d - 1, next c) :: (d, cs) :: st) (vis ++ [c]) (c :: u :: us) (by
            have := unvisited_lt hc
            have h5 := hn c
            simp only [dfsWork, List.map_cons, List.sum_cons, List.length_cons] at hf ⊢
            nlinarith) ⟨by simp; omega, fun x hx => hx, fun x hx => .inr hx, h1,
              fun x hx => h0 x (List.mem_cons_of_mem _ hx), fun x hx => by
              rcases h2 x hx with h | h
              · exact .inl (hsub x h)
              · rcases List.mem_cons.1 h with rfl | h
                · exact .inl (by simp)
                · exact .inr h, StackOk.mono hsub st us h3⟩
            (List.nodup_cons.2 ⟨hcus, hus⟩)
            (fun v hv => by
              rcases List.mem_cons.1 hv with rfl | hv
              · simp
              · exact hsub v (huv v hv))
            (fun v hv hvu x hx => by
              rcases List.mem_append.1 hv with hv | hv
              · exact hsub x (hcl v hv (fun h => hvu (List.mem_cons_of_mem _ h)) x hx)
              · simp at hv; subst hv; simp at hvu)
        exact ⟨c :: l, by rw [e1]; simp, by simpa using e2⟩

/-- All visited nodes have a short path to the source (edges are followed backwards). -/
theorem dfs_sound {W : Mat n K} (i : Fin n) (D : Nat) : ∀ (f : Nat) (st : List (Nat × List (Fin n))) (vis : List (Fin n)),
    (∀ e ∈ st, (e.1 ≤ D ∧ (e.1 = D ∨ 1 ≤ e.1)) ∧ ∀ c ∈ e.2, ∃ p, IsDiPath (MatEdge W) c i p ∧ p.length ≤ D - e.1 + 2) →
    (∀ v ∈ vis, ∃ p, IsDiPath (MatEdge W) v i p ∧ p.length ≤ max D 1 + 1) →
    ∀ v ∈ dfsLoop (preds W) f st vis, ∃ p, IsDiPath (MatEdge W) v i p ∧ p.length ≤ max D 1 + 1 := by
  intro f
  induction f with
  | zero => intro st vis _ h v hv; exact h v (by simpa [dfsLoop] using hv)
  | succ f ih =>
    intro st vis hst h v hv
    match st with
    | [] => exact h v (by simpa [dfsLoop] using hv)
    | (d, []) :: st =>
      rw [dfsLoop] at hv
      exact ih st vis (fun e he => hst e (List.mem_cons_of_mem _ he)) h v hv
    | (d, c :: cs) :: st =>
      rw [dfsLoop] at hv
      have h1 := hst (d, c :: cs) (by simp)
      have hst' : ∀ e ∈ (d, cs) :: st, (e.1 ≤ D ∧ (e.1 = D ∨ 1 ≤ e.1)) ∧ ∀ c ∈ e.2, ∃ p, IsDiPath (MatEdge W) c i p ∧ p.length ≤ D - e.1 + 2 := by
        intro e he
        rcases List.mem_cons.1 he with rfl | he
        · exact ⟨h1.1, fun x hx => h1.2 x (List.mem_cons_of_mem _ hx)⟩
        · exact hst e (List.mem_cons_of_mem _ he)
      obtain ⟨p, hp, hpl⟩ := h1.2 c (by simp)
      have hvis : ∀ v ∈ vis ++ [c], ∃ p, IsDiPath (MatEdge W) v i p ∧ p.length ≤ max D 1 + 1 := by
        intro v hv
        rcases List.mem_append.1 hv with hv | hv
        · exact h v hv
        · simp at hv; subst hv
          refine ⟨p, hp, ?_⟩
          have := h1.1
          simp only at hpl this
          omega
      by_cases hc : c ∈ vis
      · rw [if_pos hc] at hv
        exact ih _ _ hst' h v hv
      · rw [if_neg hc] at hv
        by_cases hd : 1 < d
        · rw [if_pos hd] at hv
          refine ih _ _ (fun e he => ?_) hvis v hv
          rcases List.mem_cons.1 he with rfl | he
          · refine ⟨by have := h1.1; simp only at this ⊢; omega, fun x hx => ?_⟩
            have hxc : MatEdge W x c := by simpa [preds, MatEdge] using hx
            obtain ⟨q1, q2, q3⟩ := hp
            refine ⟨x :: p, ⟨?_, rfl, ?_⟩, ?_⟩
            · cases p with
              | nil => cases q2
              | cons a p => cases q2; exact List.isChain_cons_cons.2 ⟨hxc, q1⟩
            · cases p with
              | nil => cases q2
              | cons a p => simpa using q3
            · have := h1.1
              simp only [List.length_cons] at hpl this ⊢
              omega
          · exact hst' e he
        · rw [if_neg hd] at hv
          exact ih _ _ hst' hvis v hv

theorem preds_length (W : Mat n K) (i : Fin n) : (preds W i).length ≤ n := by
  unfold preds
  exact (List.length_filter_le _ _).trans (by simp)

theorem reach_of_path {E : Fin n → Fin n → Prop} : ∀ (p : List (Fin n)) (s t : Fin n), IsDiPath E s t p → Reach E s t := by
  intro p
  induction p with
  | nil => rintro s t ⟨_, h, _⟩; cases h
  | cons a p ih =>
    rintro s t ⟨h1, h2, h3⟩
    cases h2
    cases p with
    | nil => simp at h3; subst h3; exact .refl
    | cons b p =>
      obtain ⟨hab, hc⟩ := List.isChain_cons_cons.1 h1
      exact .head hab (ih b t ⟨hc, rfl, by simpa using h3⟩)

/-- the first visited node is the source and visited nodes stay -/
theorem dfs_prefix {next : Fin n → List (Fin n)} : ∀ (f : Nat) (st : List (Nat × List (Fin n))) (vis : List (Fin n)),
    vis.Nodup → ∃ l, dfsLoop next f st vis = vis ++ l ∧ (vis ++ l).Nodup := by
  intro f
  induction f with
  | zero => intro st vis h; exact ⟨[], by simp [dfsLoop], by simpa using h⟩
  | succ f ih =>
    intro st vis h
    match st with
    | [] => exact ⟨[], by simp [dfsLoop], by simpa using h⟩
    | (d, []) :: st => rw [dfsLoop]; exact ih st vis h
    | (d, c :: cs) :: st =>
      rw [dfsLoop]
      by_cases hc : c ∈ vis
      · rw [if_pos hc]; exact ih _ vis h
      · rw [if_neg hc]
        have hn : (vis ++ [c]).Nodup := by
          rw [List.nodup_append]
          exact ⟨h, by simp, fun a ha b hb => by simp at hb; subst hb; exact fun e => hc (e ▸ ha)⟩
        split
        · obtain ⟨l, h1, h2⟩ := ih _ (vis ++ [c]) hn
          exact ⟨c :: l, by rw [h1]; simp, by simpa using h2⟩
        · obtain ⟨l, h1, h2⟩ := ih _ (vis ++ [c]) hn
          exact ⟨c :: l, by rw [h1]; simp, by simpa using h2⟩

theorem dfsTargets_ne {W : Mat n K} {depth : Option Nat} {i j : Fin n} (h : j ∈ dfsTargets W depth i) : j ≠ i := by
  unfold dfsTargets at h
  obtain ⟨l, h1, h2⟩ := dfs_prefix (next := preds W) ((n + 1) * (n + 1)) [(depth.getD n, preds W i)] [i] (by simp)
  rw [h1] at h
  rintro rfl
  exact (List.nodup_cons.1 h2).1 (by simpa using h)

theorem dfsTargets_sound {W : Mat n K} {depth : Option Nat} {i j : Fin n} (h : j ∈ dfsTargets W depth i) :
    ∃ p, IsDiPath (MatEdge W) j i p ∧ p.length ≤ max (depth.getD n) 1 + 1 := by
  unfold dfsTargets at h
  refine dfs_sound i (depth.getD n) _ _ _ ?_ ?_ j (List.mem_of_mem_tail h)
  · intro e he
    simp at he; subst he
    refine ⟨⟨le_rfl, .inl rfl⟩, fun c hc => ⟨[c, i], ⟨?_, rfl, by simp⟩, by simp⟩⟩
    simpa [preds, MatEdge] using hc
  · intro v hv
    simp at hv; subst hv
    exact ⟨[v], ⟨by simp, rfl, by simp⟩, by simp⟩

theorem mem_dfsTargets {W : Mat n K} {i j : Fin n} : j ∈ dfsTargets W none i ↔ j ≠ i ∧ Reach (MatEdge W) j i := by
  constructor
  · intro h
    obtain ⟨p, hp, _⟩ := dfsTargets_sound h
    exact ⟨dfsTargets_ne h, reach_of_path p j i hp⟩
  · rintro ⟨hne, hr⟩
    obtain ⟨l, h1, h2⟩ := dfs_closed (preds_length W) ((n + 1) * (n + 1)) [(n, preds W i)] [i] [i]
      (by
        have h3 := preds_length W i
        have h4 : ((List.finRange n).filter (· ∉ [i])).length + 1 ≤ n := by
          have := unvisited_lt (vis := []) (c := i) (by simp)
          simpa using this
        simp only [dfsWork, List.map_cons, List.map_nil, List.sum_cons, List.sum_nil]
        nlinarith)
      ⟨by simp, fun c hc => hc, fun c hc => .inr hc, trivial⟩ (by simp) (by simp) (by simp)
    unfold dfsTargets
    rw [Option.getD_none, h1]
    have : ∀ v, Reach (MatEdge W) v i → v ∈ [i] ++ l := by
      intro v hv
      induction hv using Relation.ReflTransGen.head_induction_on with
      | refl => simp
      | @head a b hab _ ih =>
        exact h2 b ih a (by simpa [preds, MatEdge] using hab)
    simpa [hne] using this j hr

/-- C28. With `depth=None`, `matrix2dict` lists for every variable, in the order of the indices and without
repetition, exactly the other variables from which a directed path of non-zero entries leads to it. -/
theorem C28_matrix2dict_exact {ν : Type} (W : Mat n K) (names : Fin n → ν) (i : Fin n) :
    ∃ L : List (Fin n), (matrix2dict W names)[i.val]? = some (names i, L.map names) ∧
      L.Sublist (List.finRange n) ∧ ∀ j, j ∈ L ↔ j ≠ i ∧ Reach (MatEdge W) j i := by
  refine ⟨(List.finRange n).filter (fun j => j ∈ dfsTargets W none i), by simp [matrix2dict], List.filter_sublist, fun j => ?_⟩
  simp only [List.mem_filter, List.mem_finRange, true_and, decide_eq_true_eq]
  exact mem_dfsTargets

/-- non-vacuity: a chain -/
example : matrix2dict (![![0, 3, 0], ![0, 0, 2], ![0, 0, 0]] : Mat 3 ℤ) (![ "a", "b", "c"]) =
    [("a", []), ("b", ["a"]), ("c", ["a", "b"])] := by decide +kernel

/-- C28 with a depth limit, the part that holds: every variable listed has a directed path of at most `depth` edges
(one, if the depth is zero). Missing: the converse, which is false (`C28_depth_misses_cause`). -/
theorem C28_depth_sound_partial {ν : Type} (W : Mat n K) (names : Fin n → ν) (d : Nat) (i : Fin n) :
    ∃ L : List (Fin n), (matrix2dict W names (some d))[i.val]? = some (names i, L.map names) ∧
      L.Sublist (List.finRange n) ∧
      ∀ j ∈ L, j ≠ i ∧ ∃ p, IsDiPath (MatEdge W) j i p ∧ p.length ≤ max d 1 + 1 := by
  refine ⟨(List.finRange n).filter (fun j => j ∈ dfsTargets W (some d) i), by simp [matrix2dict], List.filter_sublist,
    fun j hj => ?_⟩
  simp only [List.mem_filter, List.mem_finRange, true_and, decide_eq_true_eq] at hj
  exact ⟨dfsTargets_ne hj, dfsTargets_sound hj⟩

/-- C28, violation: in `3 → 2 → 1 → 0`, `2 → 0` the variable `3` has a path of two edges to `0`, but
`matrix2dict(depth=2)` does not list it: the depth first search reaches `2` over `1` first and does not go on. -/
theorem C28_depth_misses_cause :
    let W : Mat 4 ℤ := ![![0, 0, 0, 0], ![1, 0, 0, 0], ![1, 1, 0, 0], ![0, 0, 1, 0]]
    IsDiPath (MatEdge W) 3 0 [3, 2, 0] ∧ (matrix2dict W id (some 2))[0]? = some (0, [1, 2]) := by
  refine ⟨⟨?_, rfl, rfl⟩, by decide +kernel⟩
  simp [MatEdge]

/-! ### C29: matrix2array -/

/-- C29. For a DataFrame, `matrix2array` lists every pair of variables exactly once (also pairs without a link, with
weight zero), oriented along the entry of larger absolute value (ties go to the upper triangle), with that entry. -/
theorem C29_matrix2array_frame (W : Mat n K) :
    (∀ r ∈ matrix2array W true, r.2.2 = W r.1 r.2.1 ∧ |W r.2.1 r.1| ≤ |W r.1 r.2.1| ∧
      (|W r.2.1 r.1| = |W r.1 r.2.1| → r.1 < r.2.1)) ∧
    ((matrix2array W true).map (fun r => s(r.1, r.2.1))).Nodup ∧
    ∀ i j : Fin n, s(i, j) ∈ (matrix2array W true).map (fun r => s(r.1, r.2.1)) ↔ i ≠ j := by
  have hrow : ∀ i j, s((arrayRow W true i j).1, (arrayRow W true i j).2.1) = s(i, j) := by
    intro i j
    unfold arrayRow
    simp only [if_true]
    split
    · rfl
    · exact Sym2.eq_swap
  have hmap : (matrix2array W true).map (fun r => s(r.1, r.2.1)) =
      (List.finRange n).flatMap (fun i => ((List.finRange n).filter (fun j => i < j)).map (fun j => s(i, j))) := by
    unfold matrix2array
    rw [List.map_flatMap]
    congr 1
    funext i
    rw [List.map_map]
    exact List.map_congr_left (fun j _ => hrow i j)
  refine ⟨?_, ?_, ?_⟩
  · intro r hr
    simp only [matrix2array, List.mem_flatMap, List.mem_map, List.mem_filter, List.mem_finRange, true_and,
      decide_eq_true_eq] at hr
    obtain ⟨i, j, hij, rfl⟩ := hr
    unfold arrayRow
    simp only [if_true]
    split
    · rename_i h; exact ⟨rfl, h, fun _ => hij⟩
    · rename_i h
      have h' := not_le.1 h
      exact ⟨rfl, h'.le, fun e => absurd e (ne_of_lt h')⟩
  · rw [hmap, List.nodup_flatMap]
    constructor
    · intro i _
      refine List.Nodup.map_on ?_ ((List.nodup_finRange n).filter _)
      intro a ha b hb hab
      simp only [List.mem_filter, decide_eq_true_eq] at ha hb
      rcases Sym2.eq_iff.1 hab with ⟨_, h⟩ | ⟨h, h'⟩
      · exact h
      · exact h'.trans h
    · refine (List.nodup_finRange n).imp ?_
      intro i i' hne
      show List.Disjoint _ _
      rw [List.disjoint_left]
      intro e he he'
      simp only [List.mem_map, List.mem_filter, decide_eq_true_eq] at he he'
      obtain ⟨j, hj, rfl⟩ := he
      obtain ⟨j', hj', e⟩ := he'
      rcases Sym2.eq_iff.1 e with ⟨h, _⟩ | ⟨h, h'⟩
      · exact hne h.symm
      · subst h; subst h'
        exact absurd (hj.2.trans hj'.2) (lt_irrefl _)
  · intro i j
    rw [hmap]
    simp only [List.mem_flatMap, List.mem_map, List.mem_filter, List.mem_finRange, true_and, decide_eq_true_eq]
    constructor
    · rintro ⟨a, b, hab, e⟩
      rcases Sym2.eq_iff.1 e with ⟨rfl, rfl⟩ | ⟨rfl, rfl⟩
      · exact ne_of_lt hab
      · exact ne_of_gt hab
    · intro hne
      rcases lt_or_gt_of_ne hne with h | h
      · exact ⟨i, j, h, rfl⟩
      · exact ⟨j, i, h, Sym2.eq_swap⟩

/-- non-vacuity -/
example : matrix2array (![![0, 1], ![-3, 0]] : Mat 2 ℤ) true = [(1, 0, -3)] := by decide +kernel

/-- C29, violation: for an `np.ndarray` the lower triangle is never looked at, so a strong link `1 → 0` is reported as
a link `0 → 1` with the weight of the opposite entry. -/
theorem C29_ndarray_ignores_lower :
    matrix2array (![![0, 1], ![-3, 0]] : Mat 2 ℤ) false = [(0, 1, 1)] ∧
    ∀ W W' : Mat n K, (∀ i j, i < j → W i j = W' i j) → matrix2array W false = matrix2array W' false := by
  refine ⟨by decide +kernel, fun W W' h => ?_⟩
  unfold matrix2array
  congr 1
  funext i
  refine List.map_congr_left (fun j hj => ?_)
  simp only [List.mem_filter, decide_eq_true_eq] at hj
  simp [arrayRow, h i j hj.2]

end YL.Props
