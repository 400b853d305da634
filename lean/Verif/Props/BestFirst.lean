import Verif.Model.BestFirst
import Verif.Props.Tree

/-!
# C87, C88: trees grown best-first
-/

set_option linter.unusedSectionVars false

namespace YL.Spec
open YL.Crit YL.Tree

variable {A K V M : Type} [AddCommGroup M] [Field K] [LinearOrder K]

/-- What the C++ library promises of the heap: a record with the largest improvement is popped. -/
def SoundHeap (pick : List (Front A K) → Nat) : Prop :=
  ∀ front, front ≠ [] → ∃ f, front[pick front]? = some f ∧ ∀ f' ∈ front, f'.improvement ≤ f.improvement

/-- the training samples that pass through node `i` -/
def passing (nodes : List (Node K V)) (x : A → Nat → K) (train : List A) (i : Nat) : List A :=
  train.filter (fun a => reaches nodes (x a) i)

/-- the training samples in the same leaf as `q` -/
def mates (nodes : List (Node K V)) (x : A → Nat → K) (train : List A) (q : Nat → K) : List A :=
  train.filter (fun a => decide (apply nodes (x a) = apply nodes q))

end YL.Spec

namespace YL.Props
open YL.Crit YL.Tree YL.Spec

variable {A K V M : Type} [AddCommGroup M] [Field K] [LinearOrder K] [IsStrictOrderedRing K]

section
variable (P : Params A K) (C : List A → Criterion A M K V) (x : A → Nat → K) (draw : Nat → List Nat)

/-- the split of a record at a node -/
def cutOf (i : Nat) (r : Rec A K) : Option (Found A K) := splitOf P (C r.rows) x draw i r

/-- a node when it is added -/
def freshNode (i : Nat) (r : Rec A K) : Node K V :=
  match cutOf P C x draw i r with
  | none => ⟨none, none, 0, 0, r.impurity, r.rows.length, nodeVal (C r.rows) r.rows⟩
  | some s => ⟨none, none, s.split.feature, s.split.threshold, r.impurity, r.rows.length, nodeVal (C r.rows) r.rows⟩

theorem addSplitNode_eq (nodes : List (Node K V)) (r : Rec A K) :
    addSplitNode P C x draw nodes r =
      (link nodes r.parent r.isLeft nodes.length ++ [freshNode P C x draw nodes.length r],
        ⟨nodes.length, r, cutOf P C x draw nodes.length r⟩) := by
  unfold addSplitNode freshNode cutOf
  simp only
  cases splitOf P (C r.rows) x draw nodes.length r <;> rfl

/-- both children of a node are entered -/
def setBoth (l : Nat) (n : Node K V) : Node K V := { n with left := some l, right := some (l + 1) }

theorem expand_eq (nodes : List (Node K V)) (f : Front A K) (s : Found A K) (hf : f.id < nodes.length) :
    expand P C x draw nodes f s =
      (nodes.modify f.id (setBoth nodes.length) ++
        [freshNode P C x draw nodes.length (leftRec f.id f.seg s),
         freshNode P C x draw (nodes.length + 1) (rightRec f.id f.seg s)],
       ⟨nodes.length, leftRec f.id f.seg s, cutOf P C x draw nodes.length (leftRec f.id f.seg s)⟩,
       ⟨nodes.length + 1, rightRec f.id f.seg s, cutOf P C x draw (nodes.length + 1) (rightRec f.id f.seg s)⟩) := by
  unfold expand
  simp only [addSplitNode_eq]
  have e1 : (link nodes (some f.id) true nodes.length ++
      [freshNode P C x draw nodes.length (leftRec f.id f.seg s)]).length = nodes.length + 1 := by
    simp [link_length]
  have e2 : link (link nodes (some f.id) true nodes.length ++
      [freshNode P C x draw nodes.length (leftRec f.id f.seg s)]) (some f.id) false (nodes.length + 1) =
      nodes.modify f.id (setBoth nodes.length) ++
        [freshNode P C x draw nodes.length (leftRec f.id f.seg s)] := by
    rw [link_append _ _ _ _ _ (by rw [link_length]; exact hf)]
    congr 1
    unfold link
    simp only [if_true, Bool.false_eq_true, if_false, List.modify_modify_eq]
    rfl
  show _ = _
  simp only [show (⟨List.take s.split.pos s.rows, f.seg.depth + 1, some f.id, true, s.impurityLeft⟩ : Rec A K) =
      leftRec f.id f.seg s from rfl,
    show (⟨List.drop s.split.pos s.rows, f.seg.depth + 1, some f.id, false, s.impurityRight⟩ : Rec A K) =
      rightRec f.id f.seg s from rfl]
  rw [e1, e2]
  simp

/-- What holds between two rounds of the loop: `G` are the records and nodes. -/
structure Inv (root : Rec A K) (G : List (Rec A K × Node K V)) (front : List (Front A K)) (splits d : Nat) : Prop where
  first : ∃ n, G[0]? = some (root, n)
  basic : ∀ (i : Nat) (r : Rec A K) (n : Node K V), G[i]? = some (r, n) →
    n.impurity = r.impurity ∧ n.samples = r.rows.length ∧ n.value = nodeVal (C r.rows) r.rows
  shape : ∀ (i : Nat) (r : Rec A K) (n : Node K V), G[i]? = some (r, n) → (n.left = none ∧ n.right = none) ∨
    ∃ (s : Found A K) (l : Nat) (nl nr : Node K V), cutOf P C x draw i r = some s ∧ n.left = some l ∧ n.right = some (l + 1) ∧ i < l ∧
      G[l]? = some (leftRec i r s, nl) ∧ G[l + 1]? = some (rightRec i r s, nr) ∧
      n.feature = s.split.feature ∧ n.threshold = s.split.threshold
  par : ∀ (j : Nat) (r : Rec A K) (n : Node K V), 0 < j → G[j]? = some (r, n) → ∃ (p : Nat) (rp : Rec A K) (np : Node K V), r.parent = some p ∧ G[p]? = some (rp, np) ∧
    ((np.left = some j ∧ r.isLeft = true) ∨ (np.right = some j ∧ r.isLeft = false))
  fr : ∀ f ∈ front, ∃ n : Node K V, G[f.id]? = some (f.seg, n) ∧ f.split = cutOf P C x draw f.id f.seg ∧ n.left = none ∧
    n.right = none ∧ ∀ s, f.split = some s → n.feature = s.split.feature ∧ n.threshold = s.split.threshold
  nd : (front.map (fun f => f.id)).Nodup
  waiting : 0 < splits → ∀ (i : Nat) (r : Rec A K) (n : Node K V) (s : Found A K), G[i]? = some (r, n) → n.left = none → cutOf P C x draw i r = some s →
    ∃ f ∈ front, f.id = i
  greedy : ∀ (i : Nat) (r : Rec A K) (n : Node K V) (l : Nat) (s : Found A K), G[i]? = some (r, n) → n.left = some l → cutOf P C x draw i r = some s →
    ∀ (j : Nat) (rj : Rec A K) (nj : Node K V) (sj : Found A K), j < l → G[j]? = some (rj, nj) → nj.left = none → cutOf P C x draw j rj = some sj →
      sj.improvement ≤ s.improvement
  deep : ∀ (i : Nat) (r : Rec A K) (n : Node K V), G[i]? = some (r, n) → (∀ f ∈ front, f.id ≠ i) → r.depth ≤ d
  attained : d = 0 ∨ ∃ (i : Nat) (r : Rec A K) (n : Node K V), G[i]? = some (r, n) ∧ r.depth = d

end

theorem get_modify {B : Type} (g : B → B) (l : List B) (i j : Nat) :
    (l.modify i g)[j]? = if i = j then (l[j]?).map g else l[j]? := by
  rw [List.getElem?_modify]
  by_cases h : i = j <;> simp [h]

/-- lookup in the records and nodes after an expansion -/
theorem get_expanded {B : Type} (g : B → B) (G : List B) (i j : Nat) (a b : B) (hi : i < G.length) :
    (G.modify i g ++ [a, b])[j]? =
      if j < G.length then (if i = j then (G[j]?).map g else G[j]?)
      else if j = G.length then some a else if j = G.length + 1 then some b else none := by
  by_cases hj : j < G.length
  · rw [if_pos hj, List.getElem?_append_left (by simpa using hj), get_modify]
  · rw [if_neg hj, List.getElem?_append_right (by simpa using hj)]
    simp only [List.length_modify]
    by_cases h1 : j = G.length
    · subst h1; simp
    · rw [if_neg h1]
      by_cases h2 : j = G.length + 1
      · subst h2; simp
      · rw [if_neg h2]
        apply List.getElem?_eq_none
        simp; omega

variable {P : Params A K} {C : List A → Criterion A M K V} {x : A → Nat → K} {draw : Nat → List Nat}

theorem fresh_facts (i : Nat) (r : Rec A K) :
    let n := freshNode P C x draw i r
    n.impurity = r.impurity ∧ n.samples = r.rows.length ∧ n.value = nodeVal (C r.rows) r.rows ∧ n.left = none ∧
    n.right = none ∧ ∀ s, cutOf P C x draw i r = some s → n.feature = s.split.feature ∧ n.threshold = s.split.threshold := by
  intro n
  have hn : n = freshNode P C x draw i r := rfl
  clear_value n
  unfold freshNode at hn
  cases h : cutOf P C x draw i r with
  | none => rw [h] at hn; subst hn; simp
  | some s => rw [h] at hn; subst hn; simp

/-- only the leaf marks of one node change -/
def leafNode (p : Rec A K × Node K V) : Rec A K × Node K V :=
  (p.1, { p.2 with left := none, right := none, feature := 0, threshold := 0 })

theorem inv_leaf {root : Rec A K} {G : List (Rec A K × Node K V)} {front : List (Front A K)} {splits d : Nat}
    (h : Inv P C x draw root G front splits d) {k : Nat} {f : Front A K} (hf : front[k]? = some f)
    (hl : f.split = none ∨ splits = 0) :
    Inv P C x draw root (G.modify f.id leafNode) (front.eraseIdx k) splits (max d f.seg.depth) := by
  have hfm : f ∈ front := List.mem_of_getElem? hf
  obtain ⟨n0, g0, g1, g2, g3, _⟩ := h.fr f hfm
  have hmem : ∀ f' ∈ front.eraseIdx k, f' ∈ front ∧ f'.id ≠ f.id := by
    intro f' hf'
    obtain ⟨k', hk', hne, e⟩ := List.mem_eraseIdx_iff_getElem.mp hf'
    refine ⟨e ▸ List.getElem_mem _, ?_⟩
    intro he
    obtain ⟨hk, ek⟩ := List.getElem?_eq_some_iff.mp hf
    have hnd := h.nd
    rw [List.nodup_iff_injective_getElem] at hnd
    have := @hnd ⟨k', by simpa using hk'⟩ ⟨k, by simpa using hk⟩ (by simp [e, ek, he])
    simp at this
    exact hne this
  -- lookups
  have back : ∀ (i : Nat) (r : Rec A K) (n : Node K V), (G.modify f.id leafNode)[i]? = some (r, n) →
      ∃ n' : Node K V, G[i]? = some (r, n') ∧ n.left = n'.left ∧ n.right = n'.right ∧ n.impurity = n'.impurity ∧
        n.samples = n'.samples ∧ n.value = n'.value ∧ (i ≠ f.id → n = n') := by
    intro i r n hi
    rw [get_modify] at hi
    by_cases he : f.id = i
    · rw [if_pos he] at hi
      subst he
      rw [g0] at hi
      simp only [Option.map_some, Option.some.injEq, leafNode, Prod.mk.injEq] at hi
      obtain ⟨h1, h2⟩ := hi
      refine ⟨n0, by rw [g0, h1], ?_, ?_, ?_, ?_, ?_, fun hc => absurd rfl hc⟩ <;> rw [← h2] <;> simp [g2, g3]
    · rw [if_neg he] at hi
      exact ⟨n, hi, rfl, rfl, rfl, rfl, rfl, fun _ => rfl⟩
  have fwd : ∀ (i : Nat) (r : Rec A K) (n : Node K V), G[i]? = some (r, n) → ∃ n' : Node K V, (G.modify f.id leafNode)[i]? = some (r, n') ∧
      n'.left = n.left ∧ n'.right = n.right := by
    intro i r n hi
    rw [get_modify]
    by_cases he : f.id = i
    · rw [if_pos he, hi]
      subst he
      rw [g0] at hi
      cases hi
      exact ⟨_, rfl, by simp [g2], by simp [g3]⟩
    · rw [if_neg he]
      exact ⟨n, hi, rfl, rfl⟩
  refine ⟨?_, ?_, ?_, ?_, ?_, ?_, ?_, ?_, ?_, ?_⟩
  · obtain ⟨n, hn⟩ := h.first
    obtain ⟨n', hn', _⟩ := fwd 0 root n hn
    exact ⟨n', hn'⟩
  · intro i r n hi
    obtain ⟨n', hi', _, _, e1, e2, e3, _⟩ := back i r n hi
    rw [e1, e2, e3]
    exact h.basic i r n' hi'
  · intro i r n hi
    obtain ⟨n', hi', e1, e2, _, _, _, e6⟩ := back i r n hi
    rcases h.shape i r n' hi' with ⟨s1, s2⟩ | ⟨s, l, nl, nr, s1, s2, s3, s4, s5, s6, s7, s8⟩
    · left; exact ⟨e1.trans s1, e2.trans s2⟩
    · right
      have hne : i ≠ f.id := by
        intro he
        subst he
        rw [g0] at hi'
        cases hi'
        rw [g2] at s2
        cases s2
      obtain ⟨nl', hl', _⟩ := fwd _ _ _ s5
      obtain ⟨nr', hr', _⟩ := fwd _ _ _ s6
      have := e6 hne
      subst this
      exact ⟨s, l, nl', nr', s1, s2, s3, s4, hl', hr', s7, s8⟩
  · intro j r n hj hi
    obtain ⟨n', hi', _⟩ := back j r n hi
    obtain ⟨p, rp, np, p1, p2, p3⟩ := h.par j r n' hj hi'
    obtain ⟨np', q1, q2, q3⟩ := fwd p rp np p2
    exact ⟨p, rp, np', p1, q1, by rw [q2, q3]; exact p3⟩
  · intro f' hf'
    obtain ⟨hm, hne⟩ := hmem f' hf'
    obtain ⟨n, a1, a2, a3, a4, a5⟩ := h.fr f' hm
    refine ⟨n, ?_, a2, a3, a4, a5⟩
    rw [get_modify, if_neg (Ne.symm hne)]
    exact a1
  · exact h.nd.sublist ((List.eraseIdx_sublist ..).map _)
  · intro hs i r n s hi hnl hcut
    obtain ⟨n', hi', e1, _⟩ := back i r n hi
    obtain ⟨f', hf', he⟩ := h.waiting hs i r n' s hi' (e1 ▸ hnl) hcut
    have hnei : f' ≠ f := by
      intro hff
      subst hff
      rcases hl with hl | hl
      · rw [hl] at g1
        rw [he] at g1 g0
        rw [g0] at hi'
        cases hi'
        rw [hcut] at g1
        cases g1
      · omega
    refine ⟨f', ?_, he⟩
    rw [List.mem_eraseIdx_iff_getElem?]
    obtain ⟨k', hk'⟩ := List.mem_iff_getElem?.mp hf'
    refine ⟨k', ?_, hk'⟩
    intro hkk
    rw [hkk, hf] at hk'
    cases hk'
    exact hnei rfl
  · intro i r n l s hi hnl hcut j rj nj sj hjl hj hjn hjc
    obtain ⟨n', hi', e1, _⟩ := back i r n hi
    obtain ⟨nj', hj', e2, _⟩ := back j rj nj hj
    exact h.greedy i r n' l s hi' (e1 ▸ hnl) hcut j rj nj' sj hjl hj' (e2 ▸ hjn) hjc
  · intro i r n hi hall
    obtain ⟨n', hi', _⟩ := back i r n hi
    by_cases he : i = f.id
    · subst he
      rw [g0] at hi'
      cases hi'
      exact le_max_right _ _
    · refine le_trans (h.deep i r n' hi' ?_) (le_max_left _ _)
      intro f' hf' hc
      have hnei : f' ≠ f := by intro hff; subst hff; exact he hc.symm
      refine hall f' ?_ hc
      rw [List.mem_eraseIdx_iff_getElem?]
      obtain ⟨k', hk'⟩ := List.mem_iff_getElem?.mp hf'
      refine ⟨k', ?_, hk'⟩
      intro hkk
      rw [hkk, hf] at hk'
      cases hk'
      exact hnei rfl
  · rcases le_total d f.seg.depth with hd | hd
    · rw [max_eq_right hd]
      right
      obtain ⟨n', q, _⟩ := fwd _ _ _ g0
      exact ⟨f.id, f.seg, n', q, rfl⟩
    · rw [max_eq_left hd]
      rcases h.attained with ha | ⟨i, r, n, a1, a2⟩
      · left; exact ha
      · right
        obtain ⟨n', q, _⟩ := fwd _ _ _ a1
        exact ⟨i, r, n', q, a2⟩

theorem erase_mem {root : Rec A K} {G : List (Rec A K × Node K V)} {front : List (Front A K)} {splits d : Nat}
    (h : Inv P C x draw root G front splits d) {k : Nat} {f : Front A K} (hf : front[k]? = some f) :
    (∀ f' ∈ front.eraseIdx k, f' ∈ front ∧ f'.id ≠ f.id) ∧ (∀ f' ∈ front, f' ≠ f → f' ∈ front.eraseIdx k) := by
  constructor
  · intro f' hf'
    obtain ⟨k', hk', hne, e⟩ := List.mem_eraseIdx_iff_getElem.mp hf'
    refine ⟨e ▸ List.getElem_mem _, ?_⟩
    intro he
    obtain ⟨hk, ek⟩ := List.getElem?_eq_some_iff.mp hf
    have hnd := h.nd
    rw [List.nodup_iff_injective_getElem] at hnd
    have := @hnd ⟨k', by simpa using hk'⟩ ⟨k, by simpa using hk⟩ (by simp [e, ek, he])
    simp at this
    exact hne this
  · intro f' hf' hnei
    rw [List.mem_eraseIdx_iff_getElem?]
    obtain ⟨k', hk'⟩ := List.mem_iff_getElem?.mp hf'
    refine ⟨k', ?_, hk'⟩
    intro hkk
    rw [hkk, hf] at hk'
    cases hk'
    exact hnei rfl

/-- records and nodes after the expansion of `f` -/
def grown (P : Params A K) (C : List A → Criterion A M K V) (x : A → Nat → K) (draw : Nat → List Nat)
    (G : List (Rec A K × Node K V)) (f : Front A K) (s : Found A K) : List (Rec A K × Node K V) :=
  G.modify f.id (fun p => (p.1, setBoth G.length p.2)) ++
    [(leftRec f.id f.seg s, freshNode P C x draw G.length (leftRec f.id f.seg s)),
     (rightRec f.id f.seg s, freshNode P C x draw (G.length + 1) (rightRec f.id f.seg s))]

/-- the frontier after the expansion of `f` -/
def widened (P : Params A K) (C : List A → Criterion A M K V) (x : A → Nat → K) (draw : Nat → List Nat)
    (m : Nat) (f : Front A K) (s : Found A K) (rest : List (Front A K)) : List (Front A K) :=
  ⟨m, leftRec f.id f.seg s, cutOf P C x draw m (leftRec f.id f.seg s)⟩ ::
    ⟨m + 1, rightRec f.id f.seg s, cutOf P C x draw (m + 1) (rightRec f.id f.seg s)⟩ :: rest

theorem inv_expand {root : Rec A K} {G : List (Rec A K × Node K V)} {front : List (Front A K)} {splits d : Nat}
    (h : Inv P C x draw root G front (splits + 1) d) {k : Nat} {f : Front A K} (hf : front[k]? = some f)
    {s : Found A K} (hs : f.split = some s) (hmax : ∀ f' ∈ front, f'.improvement ≤ f.improvement) :
    Inv P C x draw root (grown P C x draw G f s) (widened P C x draw G.length f s (front.eraseIdx k)) splits
      (max d f.seg.depth) := by
  have hfm : f ∈ front := List.mem_of_getElem? hf
  obtain ⟨n0, g0, g1, g2, g3, g4⟩ := h.fr f hfm
  obtain ⟨g4, g5⟩ := g4 s hs
  obtain ⟨hmem, hmem'⟩ := erase_mem h hf
  have hlt : f.id < G.length := (List.getElem?_eq_some_iff.mp g0).1
  have hcut : cutOf P C x draw f.id f.seg = some s := g1 ▸ hs
  have get : ∀ j, (grown P C x draw G f s)[j]? =
      if j < G.length then (if f.id = j then (G[j]?).map (fun p => (p.1, setBoth G.length p.2)) else G[j]?)
      else if j = G.length then some (leftRec f.id f.seg s, freshNode P C x draw G.length (leftRec f.id f.seg s))
      else if j = G.length + 1 then
        some (rightRec f.id f.seg s, freshNode P C x draw (G.length + 1) (rightRec f.id f.seg s))
      else none := fun j => get_expanded _ G f.id j _ _ hlt
  have gL : (grown P C x draw G f s)[G.length]? =
      some (leftRec f.id f.seg s, freshNode P C x draw G.length (leftRec f.id f.seg s)) := by
    rw [get, if_neg (lt_irrefl _), if_pos rfl]
  have gR : (grown P C x draw G f s)[G.length + 1]? =
      some (rightRec f.id f.seg s, freshNode P C x draw (G.length + 1) (rightRec f.id f.seg s)) := by
    rw [get, if_neg (by omega), if_neg (by omega), if_pos rfl]
  have gF : (grown P C x draw G f s)[f.id]? = some (f.seg, setBoth G.length n0) := by
    rw [get, if_pos hlt, if_pos rfl, g0]; rfl
  have gO : ∀ j, j < G.length → j ≠ f.id → (grown P C x draw G f s)[j]? = G[j]? := by
    intro j hj hne
    rw [get, if_pos hj, if_neg (Ne.symm hne)]
  have back : ∀ (i : Nat) (r : Rec A K) (n : Node K V), (grown P C x draw G f s)[i]? = some (r, n) →
      (i = f.id ∧ r = f.seg ∧ n = setBoth G.length n0) ∨ (i < G.length ∧ i ≠ f.id ∧ G[i]? = some (r, n)) ∨
      (i = G.length ∧ r = leftRec f.id f.seg s ∧ n = freshNode P C x draw G.length (leftRec f.id f.seg s)) ∨
      (i = G.length + 1 ∧ r = rightRec f.id f.seg s ∧
        n = freshNode P C x draw (G.length + 1) (rightRec f.id f.seg s)) := by
    intro i r n hi
    by_cases h1 : i < G.length
    · by_cases h2 : i = f.id
      · subst h2
        rw [gF] at hi
        cases hi
        exact Or.inl ⟨rfl, rfl, rfl⟩
      · rw [gO i h1 h2] at hi
        exact Or.inr (Or.inl ⟨h1, h2, hi⟩)
    · by_cases h2 : i = G.length
      · subst h2
        rw [gL] at hi
        cases hi
        exact Or.inr (Or.inr (Or.inl ⟨rfl, rfl, rfl⟩))
      · by_cases h3 : i = G.length + 1
        · subst h3
          rw [gR] at hi
          cases hi
          exact Or.inr (Or.inr (Or.inr ⟨rfl, rfl, rfl⟩))
        · rw [get, if_neg h1, if_neg h2, if_neg h3] at hi
          cases hi
  have fwd : ∀ (i : Nat) (r : Rec A K) (n : Node K V), G[i]? = some (r, n) → ∃ n' : Node K V,
      (grown P C x draw G f s)[i]? = some (r, n') ∧ (i ≠ f.id → n' = n) := by
    intro i r n hi
    have hl : i < G.length := (List.getElem?_eq_some_iff.mp hi).1
    by_cases h2 : i = f.id
    · subst h2
      rw [g0] at hi
      cases hi
      exact ⟨_, gF, fun hc => absurd rfl hc⟩
    · exact ⟨n, by rw [gO i hl h2]; exact hi, fun _ => rfl⟩
  obtain ⟨fl1, fl2, fl3, fl4, fl5, fl6⟩ := fresh_facts (P := P) (C := C) (x := x) (draw := draw) G.length
    (leftRec f.id f.seg s)
  obtain ⟨fr1, fr2, fr3, fr4, fr5, fr6⟩ := fresh_facts (P := P) (C := C) (x := x) (draw := draw) (G.length + 1)
    (rightRec f.id f.seg s)
  have flt : ∀ f' ∈ front, f'.id < G.length := by
    intro f' hf'
    obtain ⟨n, a1, _⟩ := h.fr f' hf'
    exact (List.getElem?_eq_some_iff.mp a1).1
  refine ⟨?_, ?_, ?_, ?_, ?_, ?_, ?_, ?_, ?_, ?_⟩
  · obtain ⟨n, hn⟩ := h.first
    obtain ⟨n', hn', _⟩ := fwd 0 root n hn
    exact ⟨n', hn'⟩
  · intro i r n hi
    rcases back i r n hi with ⟨_, rfl, rfl⟩ | ⟨_, _, e⟩ | ⟨_, rfl, rfl⟩ | ⟨_, rfl, rfl⟩
    · exact h.basic f.id f.seg n0 g0
    · exact h.basic i r n e
    · exact ⟨fl1, fl2, fl3⟩
    · exact ⟨fr1, fr2, fr3⟩
  · intro i r n hi
    rcases back i r n hi with ⟨rfl, rfl, rfl⟩ | ⟨hl, hne, e⟩ | ⟨rfl, rfl, rfl⟩ | ⟨rfl, rfl, rfl⟩
    · right
      exact ⟨s, G.length, _, _, hcut, rfl, rfl, hlt, gL, gR, g4, g5⟩
    · rcases h.shape i r n e with hh | ⟨s', l, nl, nr, s1, s2, s3, s4, s5, s6, s7, s8⟩
      · exact Or.inl hh
      · right
        obtain ⟨nl', hl', _⟩ := fwd _ _ _ s5
        obtain ⟨nr', hr', _⟩ := fwd _ _ _ s6
        exact ⟨s', l, nl', nr', s1, s2, s3, s4, hl', hr', s7, s8⟩
    · exact Or.inl ⟨fl4, fl5⟩
    · exact Or.inl ⟨fr4, fr5⟩
  · intro j r n hj hi
    have old : ∀ (j : Nat) (r : Rec A K) (n : Node K V), 0 < j → G[j]? = some (r, n) →
        ∃ (p : Nat) (rp : Rec A K) (np : Node K V), r.parent = some p ∧
          (grown P C x draw G f s)[p]? = some (rp, np) ∧
          ((np.left = some j ∧ r.isLeft = true) ∨ (np.right = some j ∧ r.isLeft = false)) := by
      intro j r n hj e
      obtain ⟨p, rp, np, p1, p2, p3⟩ := h.par j r n hj e
      obtain ⟨np', q1, q2⟩ := fwd p rp np p2
      have hne : p ≠ f.id := by
        intro he
        subst he
        rw [g0] at p2
        cases p2
        rw [g2, g3] at p3
        rcases p3 with p3 | p3 <;> cases p3.1
      have := q2 hne
      subst this
      exact ⟨p, rp, np', p1, q1, p3⟩
    rcases back j r n hi with ⟨rfl, rfl, rfl⟩ | ⟨hl, hne, e⟩ | ⟨rfl, rfl, rfl⟩ | ⟨rfl, rfl, rfl⟩
    · exact old f.id f.seg n0 hj g0
    · exact old j r n hj e
    · exact ⟨f.id, f.seg, _, rfl, gF, Or.inl ⟨rfl, rfl⟩⟩
    · exact ⟨f.id, f.seg, _, rfl, gF, Or.inr ⟨rfl, rfl⟩⟩
  · intro f' hf'
    simp only [widened, List.mem_cons] at hf'
    rcases hf' with rfl | rfl | hf'
    · exact ⟨_, gL, rfl, fl4, fl5, fl6⟩
    · exact ⟨_, gR, rfl, fr4, fr5, fr6⟩
    · obtain ⟨hm, hne⟩ := hmem f' hf'
      obtain ⟨n, a1, a2⟩ := h.fr f' hm
      exact ⟨n, by rw [gO _ (flt f' hm) hne]; exact a1, a2⟩
  · simp only [widened, List.map_cons, List.nodup_cons, List.mem_cons, List.mem_map, not_or, not_exists, not_and]
    refine ⟨⟨by omega, ?_⟩, ?_, h.nd.sublist ((List.eraseIdx_sublist ..).map _)⟩
    · intro f' hf' he
      have := flt f' (hmem f' hf').1
      omega
    · intro f' hf' he
      have := flt f' (hmem f' hf').1
      omega
  · intro _ i r n s' hi hnl hc
    rcases back i r n hi with ⟨rfl, rfl, rfl⟩ | ⟨hl, hne, e⟩ | ⟨rfl, rfl, rfl⟩ | ⟨rfl, rfl, rfl⟩
    · cases hnl
    · obtain ⟨f', hf', he⟩ := h.waiting (by omega) i r n s' e hnl hc
      refine ⟨f', ?_, he⟩
      simp only [widened, List.mem_cons]
      right; right
      exact hmem' f' hf' (by intro hff; subst hff; exact hne he.symm)
    · exact ⟨_, by simp only [widened, List.mem_cons]; exact Or.inl rfl, rfl⟩
    · exact ⟨_, by simp only [widened, List.mem_cons]; exact Or.inr (Or.inl rfl), rfl⟩
  · intro i r n l s' hi hnl hc j rj nj sj hjl hj hjn hjc
    have jold : j < G.length → G[j]? = some (rj, nj) := by
      intro hjl'
      rcases back j rj nj hj with ⟨rfl, rfl, rfl⟩ | ⟨_, _, e⟩ | ⟨rfl, _, _⟩ | ⟨rfl, _, _⟩
      · cases hjn
      · exact e
      · omega
      · omega
    rcases back i r n hi with ⟨rfl, rfl, rfl⟩ | ⟨hl, hne, e⟩ | ⟨rfl, rfl, rfl⟩ | ⟨rfl, rfl, rfl⟩
    · cases hnl
      rw [hcut] at hc
      cases hc
      obtain ⟨f', hf', he⟩ := h.waiting (by omega) j rj nj sj (jold hjl) hjn hjc
      have hm := hmax f' hf'
      obtain ⟨n', b1, b2, _⟩ := h.fr f' hf'
      subst he
      rw [jold hjl] at b1
      cases b1
      rw [hjc] at b2
      unfold Front.improvement at hm
      rw [b2, hs] at hm
      exact hm
    · have hlG : l < G.length := by
        rcases h.shape i r n e with hh | ⟨s', l', nl, nr, s1, s2, s3, s4, s5, _⟩
        · rw [hh.1] at hnl; cases hnl
        · rw [hnl] at s2
          cases s2
          exact (List.getElem?_eq_some_iff.mp s5).1
      exact h.greedy i r n l s' e hnl hc j rj nj sj hjl (jold (by omega)) hjn hjc
    · rw [fl4] at hnl; cases hnl
    · rw [fr4] at hnl; cases hnl
  · intro i r n hi hall
    rcases back i r n hi with ⟨rfl, rfl, rfl⟩ | ⟨hl, hne, e⟩ | ⟨rfl, rfl, rfl⟩ | ⟨rfl, rfl, rfl⟩
    · exact le_max_right _ _
    · refine le_trans (h.deep i r n e ?_) (le_max_left _ _)
      intro f' hf' hc
      refine hall f' ?_ hc
      simp only [widened, List.mem_cons]
      right; right
      exact hmem' f' hf' (by intro hff; subst hff; exact hne hc.symm)
    · exact absurd rfl (hall _ (by simp only [widened, List.mem_cons]; exact Or.inl rfl))
    · exact absurd rfl (hall _ (by simp only [widened, List.mem_cons]; exact Or.inr (Or.inl rfl)))
  · rcases le_total d f.seg.depth with hd | hd
    · rw [max_eq_right hd]
      right
      exact ⟨f.id, f.seg, _, gF, rfl⟩
    · rw [max_eq_left hd]
      rcases h.attained with ha | ⟨i, r, n, a1, a2⟩
      · left; exact ha
      · right
        obtain ⟨n', q, _⟩ := fwd _ _ _ a1
        exact ⟨i, r, n', q, a2⟩

theorem countP_modify_same {B : Type} (p : B → Bool) (g : B → B) : ∀ (l : List B) (i : Nat),
    (∀ a, l[i]? = some a → p (g a) = p a) → (l.modify i g).countP p = l.countP p := by
  intro l
  induction l with
  | nil => intro i _; simp
  | cons a l ih =>
    intro i h
    cases i with
    | zero =>
      simp only [List.modify_zero_cons, List.countP_cons]
      rw [h a (by simp)]
    | succ i =>
      simp only [List.modify_succ_cons, List.countP_cons]
      rw [ih i (fun b hb => h b (by simpa using hb))]

theorem countP_modify_drop {B : Type} (p : B → Bool) (g : B → B) : ∀ (l : List B) (i : Nat) (a : B),
    l[i]? = some a → p a = true → p (g a) = false → (l.modify i g).countP p + 1 = l.countP p := by
  intro l
  induction l with
  | nil => intro i a h; simp at h
  | cons b l ih =>
    intro i a h h1 h2
    cases i with
    | zero =>
      simp only [List.getElem?_cons_zero, Option.some.injEq] at h
      subst h
      simp [List.countP_cons, h1, h2]
    | succ i =>
      simp only [List.modify_succ_cons, List.countP_cons]
      have := ih i a (by simpa using h) h1 h2
      omega

theorem map_modify {B D : Type} (f : B → D) (g : B → B) (g' : D → D) (h : ∀ b, f (g b) = g' (f b)) :
    ∀ (l : List B) (i : Nat), (l.modify i g).map f = (l.map f).modify i g' := by
  intro l
  induction l with
  | nil => intro i; simp
  | cons a l ih =>
    intro i
    cases i with
    | zero => simp [h]
    | succ i => simp [ih i]

/-- is it a leaf -/
def isLeafPair (p : Rec A K × Node K V) : Bool := p.2.left.isNone

theorem frontLoop_spec {pick : List (Front A K) → Nat} (hpick : SoundHeap pick) (root : Rec A K) :
    ∀ (fuel : Nat) (G : List (Rec A K × Node K V)) (front : List (Front A K)) (splits d : Nat),
    Inv P C x draw root G front splits d → front.length + 2 * splits ≤ fuel →
    2 * G.countP isLeafPair = G.length + 1 →
    ∃ (G' : List (Rec A K × Node K V)) (splits' d' : Nat),
      frontLoop P C x draw pick fuel (G.map (fun p => p.2)) front splits d = (G'.map (fun p => p.2), d') ∧
      Inv P C x draw root G' [] splits' d' ∧ G'.length + 2 * splits' = G.length + 2 * splits ∧
      2 * G'.countP isLeafPair = G'.length + 1 := by
  intro fuel
  induction fuel with
  | zero =>
    intro G front splits d h hm hc
    have hf : front = [] := List.length_eq_zero_iff.mp (by omega)
    subst hf
    exact ⟨G, splits, d, rfl, h, rfl, hc⟩
  | succ fuel ih =>
    intro G front splits d h hm hc
    by_cases hne : front = []
    · subst hne
      exact ⟨G, splits, d, by simp [frontLoop], h, rfl, hc⟩
    · obtain ⟨f, hf, hmax⟩ := hpick front hne
      have hfm : f ∈ front := List.mem_of_getElem? hf
      have hk : pick front < front.length := (List.getElem?_eq_some_iff.mp hf).1
      have hlen : (front.eraseIdx (pick front)).length + 1 = front.length := by
        rw [List.length_eraseIdx_of_lt hk]; omega
      obtain ⟨n0, g0, g1, g2, g3, _⟩ := h.fr f hfm
      have leafcase : (f.split = none ∨ splits = 0) →
          ∃ (G' : List (Rec A K × Node K V)) (splits' d' : Nat),
            frontLoop P C x draw pick fuel (setLeaf (G.map (fun p => p.2)) f.id) (front.eraseIdx (pick front)) splits
              (max d f.seg.depth) = (G'.map (fun p => p.2), d') ∧
            Inv P C x draw root G' [] splits' d' ∧ G'.length + 2 * splits' = G.length + 2 * splits ∧
            2 * G'.countP isLeafPair = G'.length + 1 := by
        intro hl
        have e : setLeaf (G.map (fun p => p.2)) f.id = (G.modify f.id leafNode).map (fun p => p.2) := by
          rw [map_modify (fun p : Rec A K × Node K V => p.2) leafNode
            (fun n => { n with left := none, right := none, feature := 0, threshold := 0 }) (fun b => rfl)]
          rfl
        have hcount : (G.modify f.id leafNode).countP isLeafPair = G.countP isLeafPair := by
          apply countP_modify_same
          intro a ha
          rw [g0] at ha
          cases ha
          simp [isLeafPair, leafNode, g2]
        obtain ⟨G', sp, d', q1, q2, q3, q4⟩ := ih _ _ splits _ (inv_leaf h hf hl) (by omega)
          (by rw [hcount]; simpa using hc)
        refine ⟨G', sp, d', ?_, q2, by simpa using q3, q4⟩
        rw [e]; exact q1
      unfold frontLoop
      rw [hf]
      simp only
      cases hsp : f.split with
      | none => exact leafcase (Or.inl hsp)
      | some s =>
        cases splits with
        | zero => exact leafcase (Or.inr rfl)
        | succ m =>
          have hlt : f.id < G.length := (List.getElem?_eq_some_iff.mp g0).1
          simp only
          rw [expand_eq P C x draw _ f s (by simpa using hlt)]
          have e : (G.map (fun p => p.2)).modify f.id (setBoth (G.map (fun p => p.2)).length) ++
              [freshNode P C x draw (G.map (fun p => p.2)).length (leftRec f.id f.seg s),
               freshNode P C x draw ((G.map (fun p => p.2)).length + 1) (rightRec f.id f.seg s)] =
              (grown P C x draw G f s).map (fun p => p.2) := by
            unfold grown
            rw [List.map_append, map_modify (fun p : Rec A K × Node K V => p.2)
              (fun p => (p.1, setBoth G.length p.2)) (setBoth G.length) (fun b => rfl)]
            simp
          have hcount : (grown P C x draw G f s).countP isLeafPair = G.countP isLeafPair + 1 := by
            unfold grown
            rw [List.countP_append]
            have := countP_modify_drop isLeafPair (fun p : Rec A K × Node K V => (p.1, setBoth G.length p.2)) G f.id
              _ g0 (by simp [isLeafPair, g2]) (by simp [isLeafPair, setBoth])
            have e1 := (fresh_facts (P := P) (C := C) (x := x) (draw := draw) G.length (leftRec f.id f.seg s)).2.2.2.1
            have e2 := (fresh_facts (P := P) (C := C) (x := x) (draw := draw) (G.length + 1)
              (rightRec f.id f.seg s)).2.2.2.1
            have c1 : ∀ (r : Rec A K) (n : Node K V), n.left = none → isLeafPair (r, n) = true := by
              intro r n hn; simp [isLeafPair, hn]
            simp only [List.countP_cons, c1 _ _ e1, c1 _ _ e2, List.countP_nil, if_true]
            omega
          have hGlen : (grown P C x draw G f s).length = G.length + 2 := by
            unfold grown; simp
          simp only [e]
          obtain ⟨G', sp, d', q1, q2, q3, q4⟩ := ih (grown P C x draw G f s)
            (widened P C x draw G.length f s (front.eraseIdx (pick front))) m (max d f.seg.depth)
            (inv_expand h hf hsp hmax) (by simp only [widened, List.length_cons]; omega) (by rw [hcount, hGlen]; omega)
          refine ⟨G', sp, d', ?_, q2, by omega, q4⟩
          rw [← q1]
          simp only [widened, List.length_map]

/-- the record of the root of a best-first tree -/
def bestRoot (C : List A → Criterion A M K V) (train : List A) : Rec A K :=
  ⟨train, 0, none, true, (C train).nodeImpurity (init (reads (C train).contrib train) 0 train.length).total⟩

/-- What is known of a finished tree: the records behind its nodes. -/
theorem buildBest_spec {pick : List (Front A K) → Nat} (hpick : SoundHeap pick) (maxLeaf : Nat) (train : List A) :
    ∃ (G : List (Rec A K × Node K V)) (splits d : Nat),
      buildBest P C x draw pick maxLeaf train = (G.map (fun p => p.2), d) ∧
      Inv P C x draw (bestRoot C train) G [] splits d ∧ G.length + 2 * splits = 2 * (maxLeaf - 1) + 1 ∧
      2 * G.countP isLeafPair = G.length + 1 := by
  have h0 : Inv P C x draw (bestRoot C train) [(bestRoot C train, freshNode P C x draw 0 (bestRoot C train))]
      [⟨0, bestRoot C train, cutOf P C x draw 0 (bestRoot C train)⟩] (maxLeaf - 1) 0 := by
    obtain ⟨f1, f2, f3, f4, f5, f6⟩ := fresh_facts (P := P) (C := C) (x := x) (draw := draw) 0 (bestRoot C train)
    have one : ∀ (i : Nat) (r : Rec A K) (n : Node K V),
        [(bestRoot C train, freshNode P C x draw 0 (bestRoot C train))][i]? = some (r, n) →
        i = 0 ∧ r = bestRoot C train ∧ n = freshNode P C x draw 0 (bestRoot C train) := by
      intro i r n hi
      cases i with
      | zero => simp at hi; exact ⟨rfl, hi.1.symm, hi.2.symm⟩
      | succ i => simp at hi
    refine ⟨⟨_, rfl⟩, ?_, ?_, ?_, ?_, by simp, ?_, ?_, ?_, Or.inl rfl⟩
    · intro i r n hi
      obtain ⟨rfl, rfl, rfl⟩ := one i r n hi
      exact ⟨f1, f2, f3⟩
    · intro i r n hi
      obtain ⟨rfl, rfl, rfl⟩ := one i r n hi
      exact Or.inl ⟨f4, f5⟩
    · intro j r n hj hi
      obtain ⟨rfl, _, _⟩ := one j r n hi
      omega
    · intro f hf
      simp only [List.mem_singleton] at hf
      subst hf
      exact ⟨_, rfl, rfl, f4, f5, f6⟩
    · intro _ i r n s hi _ _
      obtain ⟨rfl, rfl, rfl⟩ := one i r n hi
      exact ⟨_, List.mem_singleton.mpr rfl, rfl⟩
    · intro i r n l s hi hnl
      obtain ⟨rfl, rfl, rfl⟩ := one i r n hi
      rw [f4] at hnl
      cases hnl
    · intro i r n hi hall
      obtain ⟨rfl, rfl, rfl⟩ := one i r n hi
      exact absurd rfl (hall _ (List.mem_singleton.mpr rfl))
  have hcount : 2 * [(bestRoot C train, freshNode P C x draw 0 (bestRoot C train))].countP isLeafPair =
      [(bestRoot C train, freshNode P C x draw 0 (bestRoot C train))].length + 1 := by
    have := (fresh_facts (P := P) (C := C) (x := x) (draw := draw) 0 (bestRoot C train)).2.2.2.1
    simp [isLeafPair, this]
  obtain ⟨G, sp, d, q1, q2, q3, q4⟩ := frontLoop_spec hpick (bestRoot C train) (2 * maxLeaf + 1) _ _ _ _ h0
    (by simp; omega) hcount
  refine ⟨G, sp, d, ?_, q2, by simpa [Nat.add_comm] using q3, q4⟩
  unfold buildBest
  simp only [addSplitNode_eq]
  rw [← q1]
  rfl

/-! ### walks in a finished tree -/

/-- the node after `i` on the way of `q` -/
def nextNode (G : List (Rec A K × Node K V)) (q : Nat → K) (i : Nat) : Nat := walk (G.map (fun p => p.2)) q 1 i

theorem walk_at_leaf {nodes : List (Node K V)} {q : Nat → K} {i : Nat} {n : Node K V} (h : nodes[i]? = some n)
    (hl : n.left = none) : ∀ k, walk nodes q k i = i := by
  intro k
  cases k with
  | zero => rfl
  | succ k => unfold walk; rw [h]; simp only [hl]

theorem walk_at_inner {nodes : List (Node K V)} {q : Nat → K} {i l r : Nat} {n : Node K V} (h : nodes[i]? = some n)
    (hl : n.left = some l) (hr : n.right = some r) (k : Nat) :
    walk nodes q (k + 1) i = walk nodes q k (if q n.feature ≤ n.threshold then l else r) := by
  conv_lhs => unfold walk
  rw [h]
  simp only [hl, hr]
  split <;> rfl

section
variable {root : Rec A K} {G : List (Rec A K × Node K V)} {splits d : Nat}

theorem getNode {i : Nat} {r : Rec A K} {n : Node K V} (h : G[i]? = some (r, n)) :
    (G.map (fun p => p.2))[i]? = some n := by simp [h]

theorem pair_of_lt {i : Nat} (h : i < G.length) : ∃ r n, G[i]? = some (r, n) :=
  ⟨G[i].1, G[i].2, by simp [List.getElem?_eq_getElem h]⟩

/-- an inner node sends every sample to one of two existing nodes with larger numbers -/
theorem inner_step (h : Inv P C x draw root G [] splits d) {i : Nat} {r : Rec A K} {n : Node K V}
    (hi : G[i]? = some (r, n)) (hn : n.left ≠ none) : ∃ s l nl nr, cutOf P C x draw i r = some s ∧
      n.left = some l ∧ n.right = some (l + 1) ∧ i < l ∧ G[l]? = some (leftRec i r s, nl) ∧
      G[l + 1]? = some (rightRec i r s, nr) ∧ n.feature = s.split.feature ∧ n.threshold = s.split.threshold := by
  rcases h.shape i r n hi with hh | hh
  · exact absurd hh.1 hn
  · exact hh

theorem walk_lt (h : Inv P C x draw root G [] splits d) (q : Nat → K) : ∀ (k i : Nat), i < G.length →
    walk (G.map (fun p => p.2)) q k i < G.length ∧
    ((∃ r n, G[walk (G.map (fun p => p.2)) q k i]? = some (r, n) ∧ n.left = none) ∨
      i + k ≤ walk (G.map (fun p => p.2)) q k i) := by
  intro k
  induction k with
  | zero => intro i hi; exact ⟨hi, Or.inr (le_refl _)⟩
  | succ k ih =>
    intro i hi
    obtain ⟨r, n, hg⟩ := pair_of_lt hi
    by_cases hn : n.left = none
    · rw [walk_at_leaf (getNode hg) hn]
      exact ⟨hi, Or.inl ⟨r, n, hg, hn⟩⟩
    · obtain ⟨s, l, nl, nr, s1, s2, s3, s4, s5, s6, s7, s8⟩ := inner_step h hg hn
      rw [walk_at_inner (getNode hg) s2 s3]
      split
      · obtain ⟨a, b⟩ := ih l (List.getElem?_eq_some_iff.mp s5).1
        exact ⟨a, b.imp_right (fun hb => by omega)⟩
      · obtain ⟨a, b⟩ := ih (l + 1) (List.getElem?_eq_some_iff.mp s6).1
        exact ⟨a, b.imp_right (fun hb => by omega)⟩

theorem root_lt (h : Inv P C x draw root G [] splits d) : 0 < G.length := by
  obtain ⟨n, hn⟩ := h.first
  exact (List.getElem?_eq_some_iff.mp hn).1

/-- `apply` ends in a leaf -/
theorem best_apply_leaf (h : Inv P C x draw root G [] splits d) (q : Nat → K) :
    ∃ r n, G[apply (G.map (fun p => p.2)) q]? = some (r, n) ∧ n.left = none ∧ n.right = none := by
  have := walk_lt h q G.length 0 (root_lt h)
  have e : apply (G.map (fun p => p.2)) q = walk (G.map (fun p => p.2)) q G.length 0 := by
    unfold apply; rw [List.length_map]
  rw [e]
  rcases this.2 with ⟨r, n, h1, h2⟩ | h1
  · refine ⟨r, n, h1, h2, ?_⟩
    rcases h.shape _ r n h1 with hh | ⟨s, l, nl, nr, s1, s2, _⟩
    · exact hh.2
    · rw [h2] at s2; cases s2
  · have := this.1; omega

theorem walk_add {nodes : List (Node K V)} (q : Nat → K) : ∀ (k m i : Nat),
    walk nodes q (k + m) i = walk nodes q m (walk nodes q k i) := by
  intro k
  induction k with
  | zero => intro m i; simp [walk]
  | succ k ih =>
    intro m i
    have stuck : ∀ j, (∀ n, nodes[j]? = some n → n.left = none ∨ n.right = none) → ∀ k, walk nodes q k j = j := by
      intro j hj k
      cases k with
      | zero => rfl
      | succ k =>
        unfold walk
        cases hn : nodes[j]? with
        | none => rfl
        | some n =>
          simp only
          rcases hj n hn with h | h
          · rw [h]
          · cases n.left <;> simp [h]
    by_cases hs : ∀ n, nodes[i]? = some n → n.left = none ∨ n.right = none
    · simp [stuck i hs]
    · push Not at hs
      obtain ⟨n, h1, h2, h3⟩ := hs
      obtain ⟨l, hl⟩ := Option.ne_none_iff_exists'.mp h2
      obtain ⟨r, hr⟩ := Option.ne_none_iff_exists'.mp h3
      rw [show k + 1 + m = (k + m) + 1 by omega, walk_at_inner h1 hl hr, walk_at_inner h1 hl hr, ih]

theorem reaches_iff (h : Inv P C x draw root G [] splits d) (q : Nat → K) (i : Nat) :
    reaches (G.map (fun p => p.2)) q i = true ↔ ∃ k, walk (G.map (fun p => p.2)) q k 0 = i := by
  unfold reaches
  simp only [List.any_eq_true, List.mem_range, decide_eq_true_eq, List.length_map]
  constructor
  · rintro ⟨k, _, hk⟩; exact ⟨k, hk⟩
  · rintro ⟨k, hk⟩
    by_cases hlt : k < G.length
    · exact ⟨k, hlt, hk⟩
    · -- after `G.length - 1` steps the sample is in a leaf
      refine ⟨G.length - 1, by have := root_lt h; omega, ?_⟩
      have hp := root_lt h
      have hw := walk_lt h q (G.length - 1) 0 hp
      have key : ∃ r n, G[walk (G.map (fun p => p.2)) q (G.length - 1) 0]? = some (r, n) ∧ n.left = none := by
        rcases hw.2 with hh | hh
        · exact hh
        · obtain ⟨r, n, hg⟩ := pair_of_lt hw.1
          refine ⟨r, n, hg, ?_⟩
          by_contra hn
          obtain ⟨s, l, nl, nr, s1, s2, s3, s4, s5, _⟩ := inner_step h hg hn
          have := (List.getElem?_eq_some_iff.mp s5).1
          omega
      obtain ⟨r, n, k1, k2⟩ := key
      have e : k = (G.length - 1) + (k - (G.length - 1)) := by omega
      rw [e, walk_add, walk_at_leaf (getNode k1) k2] at hk
      exact hk

/-- a child is reached by the samples that reach its parent and go to its side -/
theorem reaches_child (h : Inv P C x draw root G [] splits d) (q : Nat → K) {j p : Nat} {r rp : Rec A K}
    {n np : Node K V} (hj : G[j]? = some (r, n)) (hpar : r.parent = some p) (hp : G[p]? = some (rp, np))
    (hc : (np.left = some j ∧ r.isLeft = true) ∨ (np.right = some j ∧ r.isLeft = false)) :
    reaches (G.map (fun p => p.2)) q j = true ↔
      (reaches (G.map (fun p => p.2)) q p = true ∧ (decide (q np.feature ≤ np.threshold) = r.isLeft)) := by
  have hnp : np.left ≠ none := by
    rcases h.shape p rp np hp with hh | ⟨s, l, nl, nr, s1, s2, s3, _⟩
    · rcases hc with hc | hc
      · rw [hh.1] at hc; cases hc.1
      · rw [hh.2] at hc; cases hc.1
    · rw [s2]; simp
  obtain ⟨s, l, nl, nr, s1, s2, s3, s4, s5, s6, s7, s8⟩ := inner_step h hp hnp
  have hstep : walk (G.map (fun p => p.2)) q 1 p = if q np.feature ≤ np.threshold then l else l + 1 := by
    rw [walk_at_inner (getNode hp) s2 s3]; rfl
  have hj' : (r.isLeft = true ∧ j = l) ∨ (r.isLeft = false ∧ j = l + 1) := by
    rcases hc with ⟨c1, c2⟩ | ⟨c1, c2⟩
    · rw [s2] at c1; cases c1; exact Or.inl ⟨c2, rfl⟩
    · rw [s3] at c1; cases c1; exact Or.inr ⟨c2, rfl⟩
  rw [reaches_iff h, reaches_iff h]
  constructor
  · rintro ⟨k, hk⟩
    induction k with
    | zero =>
      have : j = 0 := hk.symm
      rcases hj' with ⟨_, e⟩ | ⟨_, e⟩ <;> omega
    | succ k ih =>
      rw [walk_add] at hk
      obtain ⟨r', n', hg⟩ := pair_of_lt (walk_lt h q k 0 (root_lt h)).1
      by_cases hn : n'.left = none
      · rw [walk_at_leaf (getNode hg) hn] at hk
        exact ih hk
      · obtain ⟨s', l', nl', nr', t1, t2, t3, t4, t5, t6, t7, t8⟩ := inner_step h hg hn
        rw [walk_at_inner (getNode hg) t2 t3] at hk
        simp only [walk] at hk
        -- the parent of `j` is that node
        have hsame : walk (G.map (fun p => p.2)) q k 0 = p ∧
            decide (q n'.feature ≤ n'.threshold) = r.isLeft := by
          by_cases hq : q n'.feature ≤ n'.threshold
          · rw [if_pos hq] at hk
            subst hk
            rw [t5] at hj
            cases hj
            cases hpar
            exact ⟨rfl, by simp [hq, leftRec]⟩
          · rw [if_neg hq] at hk
            subst hk
            rw [t6] at hj
            cases hj
            cases hpar
            exact ⟨rfl, by simp [hq, rightRec]⟩
        rw [hsame.1, hp] at hg
        cases hg
        exact ⟨⟨k, hsame.1⟩, hsame.2⟩
  · rintro ⟨⟨k, hk⟩, hq⟩
    refine ⟨k + 1, ?_⟩
    rw [walk_add, hk, hstep]
    rcases hj' with ⟨e1, e2⟩ | ⟨e1, e2⟩
    · rw [e1, decide_eq_true_eq] at hq
      rw [if_pos hq, e2]
    · rw [e1, decide_eq_false_iff_not] at hq
      rw [if_neg hq, e2]

/-- The record behind a node holds exactly the training samples that pass through the node. -/
theorem best_rows (hP : SoundParams P) (hC : ∀ l, SoundCriterion (C l))
    (h : Inv P C x draw root G [] splits d) : ∀ (j : Nat) (r : Rec A K) (n : Node K V), G[j]? = some (r, n) →
    r.rows.Perm (root.rows.filter (fun a => reaches (G.map (fun p => p.2)) (x a) j)) := by
  intro j
  induction j using Nat.strong_induction_on with
  | _ j ih =>
    intro r n hj
    by_cases h0 : j = 0
    · subst h0
      obtain ⟨n0, g0⟩ := h.first
      rw [g0] at hj
      cases hj
      have : root.rows.filter (fun a => reaches (G.map (fun p => p.2)) (x a) 0) = root.rows := by
        apply List.filter_eq_self.mpr
        intro a _
        rw [reaches_iff h]
        exact ⟨0, rfl⟩
      rw [this]
    · obtain ⟨p, rp, np, p1, p2, p3⟩ := h.par j r n (by omega) hj
      have hnp : np.left ≠ none := by
        rcases h.shape p rp np p2 with hh | ⟨s, l, nl, nr, s1, s2, s3, _⟩
        · rcases p3 with hc | hc
          · rw [hh.1] at hc; cases hc.1
          · rw [hh.2] at hc; cases hc.1
        · rw [s2]; simp
      obtain ⟨s, l, nl, nr, s1, s2, s3, s4, s5, s6, s7, s8⟩ := inner_step h p2 hnp
      have hpj : p < j := by
        rcases p3 with ⟨c, _⟩ | ⟨c, _⟩
        · rw [s2] at c; cases c; exact s4
        · rw [s3] at c; cases c; omega
      have ihp := ih p hpj rp np p2
      obtain ⟨_, c2, c3, _⟩ := splitOf_spec hP (hC rp.rows) x draw p rp s s1
      have hrows : r.rows.Perm (rp.rows.filter
          (fun a => decide (decide (x a np.feature ≤ np.threshold) = r.isLeft))) := by
        rcases p3 with ⟨c, e⟩ | ⟨c, e⟩
        · rw [s2] at c
          cases c
          rw [s5] at hj
          cases hj
          refine c2.trans (List.Perm.of_eq (List.filter_congr ?_))
          intro a _
          simp [cut, leftRec, s7, s8]
        · rw [s3] at c
          cases c
          rw [s6] at hj
          cases hj
          refine c3.trans (List.Perm.of_eq (List.filter_congr ?_))
          intro a _
          simp only [cut, rightRec, s7, s8]
          cases hd : decide (x a s.split.feature ≤ s.split.threshold) <;> simp
      refine hrows.trans ((ihp.filter _).trans (List.Perm.of_eq ?_))
      rw [List.filter_filter]
      apply List.filter_congr
      intro a _
      have := reaches_child h (x a) hj p1 p2 p3
      rw [Bool.eq_iff_iff, Bool.and_eq_true, decide_eq_true_eq, this]
      tauto

/-- a leaf is passed by exactly the samples that end there -/
theorem leaf_reaches (h : Inv P C x draw root G [] splits d) (q : Nat → K) {i : Nat} {r : Rec A K} {n : Node K V}
    (hi : G[i]? = some (r, n)) (hl : n.left = none) :
    reaches (G.map (fun p => p.2)) q i = true ↔ apply (G.map (fun p => p.2)) q = i := by
  rw [reaches_iff h]
  constructor
  · rintro ⟨k, hk⟩
    obtain ⟨r', n', h1, h2, _⟩ := best_apply_leaf h q
    have e : apply (G.map (fun p => p.2)) q = walk (G.map (fun p => p.2)) q G.length 0 := by
      unfold apply; rw [List.length_map]
    rw [e] at h1 ⊢
    rcases le_total k G.length with hle | hle
    · rw [show G.length = k + (G.length - k) by omega, walk_add, hk, walk_at_leaf (getNode hi) hl]
    · rw [show k = G.length + (k - G.length) by omega, walk_add, walk_at_leaf (getNode h1) h2] at hk
      exact hk
  · intro hk
    exact ⟨_, hk⟩

end

/-- **C87.** Whatever is drawn, sorted, rounded and solved, the prediction of a tree grown best-first at `q` is the node
value of exactly the training samples in the leaf of `q`. -/
theorem C87_prediction (hP : SoundParams P) (hC : ∀ l, SoundCriterion (C l)) {pick : List (Front A K) → Nat}
    (hpick : SoundHeap pick) (maxLeaf : Nat) (train : List A) (q : Nat → K) :
    ∃ l, l.Perm (mates (buildBest P C x draw pick maxLeaf train).1 x train q) ∧
      predict (buildBest P C x draw pick maxLeaf train).1 q = some ((C l).value (l.map (C l).contrib).sum) := by
  obtain ⟨G, sp, d, e, h, _, _⟩ := buildBest_spec (P := P) (C := C) (x := x) (draw := draw) hpick maxLeaf train
  rw [e]
  simp only
  obtain ⟨r, n, h1, h2, _⟩ := best_apply_leaf h q
  refine ⟨r.rows, (best_rows hP hC h _ r n h1).trans (List.Perm.of_eq ?_), ?_⟩
  · unfold mates
    apply List.filter_congr
    intro a _
    rw [Bool.eq_iff_iff, decide_eq_true_eq]
    exact leaf_reaches h (x a) h1 h2
  · unfold predict
    rw [getNode h1, Option.map_some, (h.basic _ r n h1).2.2, nodeVal_eq]

/-- **C87.** Every query ends in a leaf, which stores how many training samples it holds; unless the tree is a single
node these are at least `min_samples_leaf` and at least one. -/
theorem C87_leaf_size (hP : SoundParams P) (hC : ∀ l, SoundCriterion (C l)) {pick : List (Front A K) → Nat}
    (hpick : SoundHeap pick) (maxLeaf : Nat) (train : List A) (q : Nat → K) :
    ∃ n, (buildBest P C x draw pick maxLeaf train).1[apply (buildBest P C x draw pick maxLeaf train).1 q]? = some n ∧
      n.left = none ∧ n.right = none ∧
      n.samples = (mates (buildBest P C x draw pick maxLeaf train).1 x train q).length ∧
      (1 < (buildBest P C x draw pick maxLeaf train).1.length → P.minSamplesLeaf ≤ n.samples ∧ 0 < n.samples) := by
  obtain ⟨G, sp, d, e, h, _, _⟩ := buildBest_spec (P := P) (C := C) (x := x) (draw := draw) hpick maxLeaf train
  rw [e]
  simp only
  obtain ⟨r, n, h1, h2, h3⟩ := best_apply_leaf h q
  have hperm : r.rows.Perm (mates (G.map (fun p => p.2)) x train q) := by
    refine (best_rows hP hC h _ r n h1).trans (List.Perm.of_eq ?_)
    unfold mates
    apply List.filter_congr
    intro a _
    rw [Bool.eq_iff_iff, decide_eq_true_eq]
    exact leaf_reaches h (x a) h1 h2
  refine ⟨n, getNode h1, h2, h3, ?_, ?_⟩
  · rw [(h.basic _ r n h1).2.1, hperm.length_eq]
  · intro hsz
    rw [(h.basic _ r n h1).2.1]
    by_cases h0 : apply (G.map (fun p => p.2)) q = 0
    · exfalso
      rw [h0] at h1
      obtain ⟨r1, n1, hg⟩ := pair_of_lt (G := G) (i := 1) (by simpa using hsz)
      -- the root is a leaf, so nobody is its child
      have key : ∀ j, 0 < j → j < G.length → False := by
        intro j
        induction j using Nat.strong_induction_on with
        | _ j ih =>
          intro hj hjl
          obtain ⟨rj, nj, hgj⟩ := pair_of_lt hjl
          obtain ⟨p, rp, np, p1, p2, p3⟩ := h.par j rj nj hj hgj
          have hnp : np.left ≠ none := by
            rcases h.shape p rp np p2 with hh | ⟨s, l, nl, nr, s1, s2, s3, _⟩
            · rcases p3 with hc | hc
              · rw [hh.1] at hc; cases hc.1
              · rw [hh.2] at hc; cases hc.1
            · rw [s2]; simp
          obtain ⟨s, l, nl, nr, s1, s2, s3, s4, s5, s6, s7, s8⟩ := inner_step h p2 hnp
          have hpj : p < j := by
            rcases p3 with ⟨c, _⟩ | ⟨c, _⟩
            · rw [s2] at c; cases c; exact s4
            · rw [s3] at c; cases c; omega
          by_cases hp0 : p = 0
          · subst hp0
            rw [h1] at p2
            cases p2
            exact hnp h2
          · exact ih p hpj (by omega) (List.getElem?_eq_some_iff.mp p2).1
      exact key 1 (by omega) (by simpa using hsz)
    · clear hperm
      generalize apply (G.map (fun p => p.2)) q = i at h1 h0
      obtain ⟨p, rp, np, p1, p2, p3⟩ := h.par i r n (by omega) h1
      have hnp : np.left ≠ none := by
        rcases h.shape p rp np p2 with hh | ⟨s, l, nl, nr, s1, s2, s3, _⟩
        · rcases p3 with hc | hc
          · rw [hh.1] at hc; cases hc.1
          · rw [hh.2] at hc; cases hc.1
        · rw [s2]; simp
      obtain ⟨s, l, nl, nr, s1, s2, s3, s4, s5, s6, s7, s8⟩ := inner_step h p2 hnp
      obtain ⟨l1, l2, _, l4, l5⟩ := split_lengths hP (hC rp.rows) x draw p rp s s1
      rcases p3 with ⟨c, _⟩ | ⟨c, _⟩
      · rw [s2] at c
        cases c
        rw [s5] at h1
        cases h1
        exact ⟨l4, l1⟩
      · rw [s3] at c
        cases c
        rw [s6] at h1
        cases h1
        exact ⟨l5, l2⟩

/-- the depth of the record of a node counts the steps to it -/
theorem best_depth_walk {root : Rec A K} {G : List (Rec A K × Node K V)} {splits d : Nat} (hr : root.depth = 0)
    (h : Inv P C x draw root G [] splits d) (q : Nat → K) : ∀ k : Nat, ∃ r n,
    G[walk (G.map (fun p => p.2)) q k 0]? = some (r, n) ∧ (n.left = none ∨ r.depth = k) := by
  intro k
  induction k with
  | zero =>
    obtain ⟨n, hn⟩ := h.first
    exact ⟨root, n, hn, Or.inr hr⟩
  | succ k ih =>
    obtain ⟨r, n, h1, h2⟩ := ih
    rw [walk_add]
    by_cases hl : n.left = none
    · rw [walk_at_leaf (getNode h1) hl]
      exact ⟨r, n, h1, Or.inl hl⟩
    · rcases h2 with h2 | h2
      · exact absurd h2 hl
      · obtain ⟨s, l, nl, nr, s1, s2, s3, s4, s5, s6, s7, s8⟩ := inner_step h h1 hl
        rw [walk_at_inner (getNode h1) s2 s3]
        simp only [walk]
        split
        · exact ⟨_, _, s5, Or.inr (by simp [leftRec, h2])⟩
        · exact ⟨_, _, s6, Or.inr (by simp [rightRec, h2])⟩

theorem best_depth_le {root : Rec A K} {G : List (Rec A K × Node K V)} {splits d : Nat} (hr : root.depth ≤ P.maxDepth)
    (h : Inv P C x draw root G [] splits d) : ∀ (j : Nat) (r : Rec A K) (n : Node K V), G[j]? = some (r, n) →
    r.depth ≤ P.maxDepth := by
  intro j r n hj
  by_cases h0 : j = 0
  · subst h0
    obtain ⟨n', hn'⟩ := h.first
    rw [hn'] at hj
    cases hj
    exact hr
  · obtain ⟨p, rp, np, p1, p2, p3⟩ := h.par j r n (by omega) hj
    have hnp : np.left ≠ none := by
      rcases h.shape p rp np p2 with hh | ⟨s, l, nl, nr, s1, s2, s3, _⟩
      · rcases p3 with hc | hc
        · rw [hh.1] at hc; cases hc.1
        · rw [hh.2] at hc; cases hc.1
      · rw [s2]; simp
    obtain ⟨s, l, nl, nr, s1, s2, s3, s4, s5, s6, s7, s8⟩ := inner_step h p2 hnp
    have hst : stops P (C rp.rows) rp = false := by
      unfold cutOf splitOf at s1
      by_cases hs : stops P (C rp.rows) rp = true
      · rw [if_pos hs] at s1; cases s1
      · simpa using hs
    have hd : rp.depth < P.maxDepth := by
      unfold stops at hst
      simp only [Bool.or_eq_false_iff, decide_eq_false_iff_not] at hst
      omega
    rcases p3 with ⟨c, _⟩ | ⟨c, _⟩
    · rw [s2] at c
      cases c
      rw [s5] at hj
      cases hj
      simp only [leftRec]; omega
    · rw [s3] at c
      cases c
      rw [s6] at hj
      cases hj
      simp only [rightRec]; omega

/-- **C87.** The reported depth is at most `max_depth`, and every query is in its leaf after that many steps. -/
theorem C87_depth {pick : List (Front A K) → Nat} (hpick : SoundHeap pick) (maxLeaf : Nat) (train : List A) :
    (buildBest P C x draw pick maxLeaf train).2 ≤ P.maxDepth ∧
    ∀ q, walk (buildBest P C x draw pick maxLeaf train).1 q (buildBest P C x draw pick maxLeaf train).2 0 =
      apply (buildBest P C x draw pick maxLeaf train).1 q := by
  obtain ⟨G, sp, d, e, h, _, _⟩ := buildBest_spec (P := P) (C := C) (x := x) (draw := draw) hpick maxLeaf train
  rw [e]
  simp only
  constructor
  · rcases h.attained with h0 | ⟨i, r, n, h1, h2⟩
    · omega
    · rw [← h2]; exact best_depth_le (Nat.zero_le _) h i r n h1
  · intro q
    obtain ⟨r, n, h1, h2⟩ := best_depth_walk rfl h q d
    have hl : n.left = none := by
      rcases h2 with h2 | h2
      · exact h2
      · by_contra hn
        obtain ⟨s, l, nl, nr, s1, s2, s3, s4, s5, s6, s7, s8⟩ := inner_step h h1 hn
        have := h.deep _ _ _ s5 (by simp)
        simp only [leftRec] at this
        omega
    have := (leaf_reaches h q h1 hl).mp ((reaches_iff h q _).mpr ⟨d, rfl⟩)
    exact this.symm

/-- **C88.** A tree grown best-first has at most `max_leaf_nodes` leaves (a single one for `max_leaf_nodes` 0), and one
leaf more than it has splits. -/
theorem C88_max_leaf_nodes {pick : List (Front A K) → Nat} (hpick : SoundHeap pick) (maxLeaf : Nat) (train : List A) :
    let nodes := (buildBest P C x draw pick maxLeaf train).1
    (nodes.filter (fun n => n.left.isNone)).length ≤ max 1 maxLeaf ∧
    (nodes.filter (fun n => n.left.isNone)).length = (nodes.filter (fun n => !n.left.isNone)).length + 1 := by
  obtain ⟨G, sp, d, e, h, h1, h2⟩ := buildBest_spec (P := P) (C := C) (x := x) (draw := draw) hpick maxLeaf train
  rw [e]
  simp only
  have hc : ((G.map (fun p => p.2)).filter (fun n => n.left.isNone)).length = G.countP isLeafPair := by
    rw [← List.countP_eq_length_filter, List.countP_map]; rfl
  have hs : ((G.map (fun p => p.2)).filter (fun n => n.left.isNone)).length +
      ((G.map (fun p => p.2)).filter (fun n => !n.left.isNone)).length = G.length := by
    rw [← List.length_eq_length_filter_add, List.length_map]
  omega

/-- what is known of an inner node -/
theorem best_inner (hP : SoundParams P) (hC : ∀ l, SoundCriterion (C l)) {pick : List (Front A K) → Nat}
    (hpick : SoundHeap pick) (maxLeaf : Nat) (train : List A) {i : Nat} {n : Node K V}
    (hi : (buildBest P C x draw pick maxLeaf train).1[i]? = some n) (hil : n.left ≠ none) :
    ∃ (r : Rec A K) (s : Found A K),
      r.rows.Perm (passing (buildBest P C x draw pick maxLeaf train).1 x train i) ∧ r.impurity = n.impurity ∧
      splitOf P (C r.rows) x draw i r = some s ∧ n.feature = s.split.feature ∧ n.threshold = s.split.threshold := by
  obtain ⟨G, sp, d, e, h, h1, h2⟩ := buildBest_spec (P := P) (C := C) (x := x) (draw := draw) hpick maxLeaf train
  rw [e] at hi ⊢
  simp only at hi ⊢
  rw [List.getElem?_map] at hi
  cases hgi : G[i]? with
  | none => rw [hgi] at hi; cases hi
  | some rn =>
    obtain ⟨ri, n'⟩ := rn
    rw [hgi] at hi
    cases hi
    obtain ⟨s, l', nl, nr, s1, s2, s3, s4, s5, s6, s7, s8⟩ := inner_step h hgi hil
    exact ⟨ri, s, best_rows hP hC h i ri n' hgi, (h.basic i ri n' hgi).1.symm, s1, s7, s8⟩

/-- **C88.** Growth stops below `max_leaf_nodes` leaves only when no leaf can be split any more: `l` are the samples of
the leaf and `splitOf` is the builder's decision at it. -/
theorem C88_stops_early (hP : SoundParams P) (hC : ∀ l, SoundCriterion (C l)) {pick : List (Front A K) → Nat}
    (hpick : SoundHeap pick) (maxLeaf : Nat) (train : List A)
    (hfew : ((buildBest P C x draw pick maxLeaf train).1.filter (fun n => n.left.isNone)).length < maxLeaf)
    {j : Nat} {n : Node K V} (hj : (buildBest P C x draw pick maxLeaf train).1[j]? = some n) (hl : n.left = none) :
    ∃ r : Rec A K, r.rows.Perm (passing (buildBest P C x draw pick maxLeaf train).1 x train j) ∧
      r.impurity = n.impurity ∧ r.depth ≤ (buildBest P C x draw pick maxLeaf train).2 ∧
      splitOf P (C r.rows) x draw j r = none := by
  obtain ⟨G, sp, d, e, h, h1, h2⟩ := buildBest_spec (P := P) (C := C) (x := x) (draw := draw) hpick maxLeaf train
  rw [e] at hfew hj ⊢
  simp only at hfew hj ⊢
  have hc : ((G.map (fun p => p.2)).filter (fun n => n.left.isNone)).length = G.countP isLeafPair := by
    rw [← List.countP_eq_length_filter, List.countP_map]; rfl
  have hsp : 0 < sp := by omega
  rw [List.getElem?_map] at hj
  cases hg : G[j]? with
  | none => rw [hg] at hj; cases hj
  | some rn =>
    obtain ⟨r, n'⟩ := rn
    rw [hg] at hj
    cases hj
    refine ⟨r, best_rows hP hC h j r n' hg, (h.basic j r n' hg).1.symm, h.deep j r n' hg (by simp), ?_⟩
    cases hcut : cutOf P C x draw j r with
    | none => exact hcut
    | some s =>
      obtain ⟨f, hf, _⟩ := h.waiting hsp j r n' s hg hl hcut
      cases hf

/-- **C88.** Best first: when node `i` was expanded (its children were added at `l`), the node `j` was already there, and
it stayed a leaf, then the improvement at `j` is at most that at `i`. -/
theorem C88_best_first (hP : SoundParams P) (hC : ∀ l, SoundCriterion (C l)) {pick : List (Front A K) → Nat}
    (hpick : SoundHeap pick) (maxLeaf : Nat) (train : List A) {i j l : Nat} {ni nj : Node K V}
    (hi : (buildBest P C x draw pick maxLeaf train).1[i]? = some ni) (hil : ni.left = some l)
    (hj : (buildBest P C x draw pick maxLeaf train).1[j]? = some nj) (hjl : nj.left = none) (hlt : j < l) :
    ∃ (ri rj : Rec A K) (si : Found A K),
      ri.rows.Perm (passing (buildBest P C x draw pick maxLeaf train).1 x train i) ∧ ri.impurity = ni.impurity ∧
      rj.rows.Perm (passing (buildBest P C x draw pick maxLeaf train).1 x train j) ∧ rj.impurity = nj.impurity ∧
      rj.depth ≤ (buildBest P C x draw pick maxLeaf train).2 ∧
      splitOf P (C ri.rows) x draw i ri = some si ∧ ni.feature = si.split.feature ∧
      ni.threshold = si.split.threshold ∧
      ∀ sj, splitOf P (C rj.rows) x draw j rj = some sj → sj.improvement ≤ si.improvement := by
  obtain ⟨G, sp, d, e, h, h1, h2⟩ := buildBest_spec (P := P) (C := C) (x := x) (draw := draw) hpick maxLeaf train
  rw [e] at hi hj ⊢
  simp only at hi hj ⊢
  rw [List.getElem?_map] at hi hj
  cases hgi : G[i]? with
  | none => rw [hgi] at hi; cases hi
  | some rn =>
    obtain ⟨ri, n'⟩ := rn
    rw [hgi] at hi
    cases hi
    cases hgj : G[j]? with
    | none => rw [hgj] at hj; cases hj
    | some rn =>
      obtain ⟨rj, n''⟩ := rn
      rw [hgj] at hj
      cases hj
      obtain ⟨s, l', nl, nr, s1, s2, s3, s4, s5, s6, s7, s8⟩ := inner_step h hgi (by rw [hil]; simp)
      exact ⟨ri, rj, s, best_rows hP hC h i ri n' hgi, (h.basic i ri n' hgi).1.symm, best_rows hP hC h j rj n'' hgj,
        (h.basic j rj n'' hgj).1.symm, h.deep j rj n'' hgj (by simp), s1, s7, s8,
        fun sj hsj => h.greedy i ri n' l s hgi hil s1 j rj n'' sj hlt hgj hjl hsj⟩

end YL.Props
