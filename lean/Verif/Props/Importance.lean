import Verif.Model.Importance
import Verif.Props.Policy
import Verif.Props.GrfTree

/-!
# C115: feature importances
-/

set_option linter.unusedSectionVars false

namespace YL.Spec
open YL.Crit YL.Tree

variable {K V : Type} [Field K] [LinearOrder K]

/-- node `i` is split on feature `f` -/
def splitsOn (nodes : List (Node K V)) (f i : Nat) : Bool :=
  match nodes[i]? with
  | none => false
  | some n => n.left.isSome && n.right.isSome && decide (n.feature = f)

/-- node `i` is a leaf -/
def isLeafAt (nodes : List (Node K V)) (i : Nat) : Bool :=
  match nodes[i]? with
  | none => false
  | some n => n.left.isNone && n.right.isNone

/-- what remains of a quantity of node `i` after its two children took theirs -/
def excess (W : Nat → K) (nodes : List (Node K V)) (i : Nat) : K :=
  match nodes[i]? with
  | none => 0
  | some n => match n.left, n.right with
    | some l, some r => W i - W l - W r
    | _, _ => 0

/-- weight times impurity of node `i` -/
def load (wt : Nat → K) (nodes : List (Node K V)) (i : Nat) : K := wt i * ((nodes[i]?).map (fun n => n.impurity)).getD 0

/-- the total over the nodes split on `f` of the weighted impurity the split took away -/
def taken (wt : Nat → K) (nodes : List (Node K V)) (f : Nat) : K :=
  (((List.range nodes.length).filter (splitsOn nodes f)).map (excess (load wt nodes) nodes)).sum

/-- the ids named as children -/
def childIds (nodes : List (Node K V)) : List Nat := nodes.flatMap (fun n => n.left.toList ++ n.right.toList)

end YL.Spec

namespace YL.Props
open YL.Crit YL.Tree YL.Spec

section general
variable {A K V M : Type} [AddCommGroup M] [Field K] [LinearOrder K] [IsStrictOrderedRing K]

theorem weightedImpurity_eq (wt : Nat → K) (nodes : List (Node K V)) (i : Nat) : weightedImpurity wt nodes i = load wt nodes i := by
  unfold weightedImpurity load
  cases nodes[i]? <;> simp

theorem gain_fold (wt : Nat → K) (nodes : List (Node K V)) : ∀ (l : List (Node K V)) (k : Nat) (imp : List K) (f : Nat),
    (∀ (j : Nat) (n : Node K V), l[j]? = some n → nodes[k + j]? = some n) →
    ((l.zipIdx k).foldl (gainStep wt nodes) imp)[f]? =
      (imp[f]?).map (fun v => v + (((List.range' k l.length).filter (splitsOn nodes f)).map (excess (load wt nodes) nodes)).sum) := by
  intro l
  induction l with
  | nil => intro k imp f _; simp
  | cons n l ih =>
    intro k imp f hl
    have h0 : nodes[k]? = some n := by simpa using hl 0 n rfl
    rw [List.zipIdx_cons, List.foldl_cons, ih (k + 1) _ f (by
      intro j m hj
      have := hl (j + 1) m (by simpa using hj)
      rwa [show k + (j + 1) = k + 1 + j by omega] at this)]
    rw [List.length_cons, List.range'_succ]
    have hstep : (gainStep wt nodes imp (n, k))[f]? = (imp[f]?).map (fun v => v +
        if splitsOn nodes f k then excess (load wt nodes) nodes k else 0) := by
      unfold gainStep splitsOn excess
      rw [h0]
      cases hln : n.left with
      | none => simp [hln]
      | some a =>
        cases hrn : n.right with
        | none => simp [hln, hrn]
        | some b =>
          simp only [weightedImpurity_eq]
          rw [get_modify]
          by_cases hf : n.feature = f
          · simp [hf, load, h0, hln, hrn]
          · simp [hf]
    rw [hstep, Option.map_map]
    congr 1
    funext v
    simp only [Function.comp_apply, List.filter_cons]
    by_cases hs : splitsOn nodes f k = true
    · simp only [hs, if_true, List.map_cons, List.sum_cons]; ring
    · simp only [hs]; simp

/-- **C115.** Before normalisation the importance of a feature is the weighted impurity taken away by the splits on it, per
unit of weight at the root; in particular it is 0 for a feature that is never split on. -/
theorem C115_meaning (wt : Nat → K) (nodes : List (Node K V)) (nFeat : Nat) :
    importances wt nodes nFeat false = (List.range nFeat).map (fun f => taken wt nodes f / wt 0) := by
  have hraw : importances wt nodes nFeat false = rawImportances wt nodes nFeat := rfl
  rw [hraw]
  apply List.ext_getElem?
  intro f
  unfold rawImportances
  rw [List.getElem?_map, gain_fold wt nodes nodes 0 _ f (by intro j n h; simpa using h)]
  simp only [List.getElem?_map, List.getElem?_replicate, List.getElem?_range']
  by_cases hf : f < nFeat
  · simp [hf, taken, List.range_eq_range']
  · simp [hf]

/-- **C115.** Normalisation: if the importances have a positive total, they are divided by it, and then sum to 1; otherwise
they are returned as they are. -/
theorem C115_normalised (wt : Nat → K) (nodes : List (Node K V)) (nFeat : Nat) :
    (0 < (importances wt nodes nFeat false).sum →
      importances wt nodes nFeat true =
        (importances wt nodes nFeat false).map (fun v => v / (importances wt nodes nFeat false).sum) ∧
      (importances wt nodes nFeat true).sum = 1) ∧
    (¬ 0 < (importances wt nodes nFeat false).sum →
      importances wt nodes nFeat true = importances wt nodes nFeat false) := by
  have hraw : importances wt nodes nFeat false = rawImportances wt nodes nFeat := rfl
  rw [hraw]
  constructor
  · intro h
    have e : importances wt nodes nFeat true =
        (rawImportances wt nodes nFeat).map (fun v => v / (rawImportances wt nodes nFeat).sum) := by
      simp [importances, h]
    refine ⟨e, ?_⟩
    rw [e]
    have : ∀ (l : List K) (c : K), (l.map (fun v => v / c)).sum = l.sum / c := by
      intro l c
      induction l with
      | nil => simp
      | cons a l ih => simp [ih, add_div]
    rw [this, div_self (ne_of_gt h)]
  · intro h
    simp [importances, h]

/-! ### the shape of the trees -/

/-- children come after their parents, and every node but the root is a child exactly once -/
structure Proper (nodes : List (Node K V)) : Prop where
  fwd : Forward nodes
  once : (childIds nodes).Perm (List.range' 1 (nodes.length - 1))
  pos : 0 < nodes.length

theorem flat_childIds (C : Criterion A M K V) (t : T A K) : ∀ id,
    (childIds (t.flat C id)).Perm (List.range' (id + 1) (t.size - 1)) := by
  induction t with
  | leaf r => intro id; simp [T.flat, childIds, T.size]
  | node r s l r' ih1 ih2 =>
    intro id
    have h1 := ih1 (id + 1)
    have h2 := ih2 (id + 1 + l.size)
    have p1 := T.size_pos l
    have p2 := T.size_pos r'
    have e : childIds ((T.node r s l r').flat C id) =
        (id + 1) :: (id + 1 + l.size) :: (childIds (l.flat C (id + 1)) ++ childIds (r'.flat C (id + 1 + l.size))) := by
      simp [T.flat, childIds]
    rw [e]
    have e2 : List.range' (id + 1) ((T.node r s l r').size - 1) =
        ((id + 1) :: List.range' (id + 1 + 1) (l.size - 1)) ++
          ((id + 1 + l.size) :: List.range' (id + 1 + l.size + 1) (r'.size - 1)) := by
      rw [← List.range'_succ, ← List.range'_succ]
      have a1 : l.size - 1 + 1 = l.size := by omega
      have a2 : r'.size - 1 + 1 = r'.size := by omega
      rw [a1, a2]
      have := List.range'_append (s := id + 1) (m := l.size) (n := r'.size) (step := 1)
      simp only [Nat.one_mul] at this
      rw [this]
      congr 1
      simp only [T.size]; omega
    rw [e2, List.cons_append]
    refine List.Perm.cons _ ?_
    refine List.Perm.trans (List.Perm.cons _ (h1.append h2)) ?_
    exact List.perm_middle.symm

theorem build_proper {P : Params A K} {C : Criterion A M K V} (hP : SoundParams P) (hC : SoundCriterion C)
    (x : A → Nat → K) (w : A → K) (draw : Nat → List Nat) (train : List A) : Proper (build P C x w draw train).1 := by
  rw [build_eq hP hC]
  refine ⟨?_, ?_, ?_⟩
  · intro i n hi
    have := flat_forward _ _ 0 i n hi
    simpa [T.flat_length] using this
  · have := flat_childIds C (tree P C x w draw train) 0
    simpa [T.flat_length] using this
  · simp only [T.flat_length]; exact T.size_pos _

theorem best_proper {P : Params A K} {C : List A → Criterion A M K V} {x : A → Nat → K} {draw : Nat → List Nat}
    {pick : List (Front A K) → Nat} (hpick : SoundHeap pick) (maxLeaf : Nat) (train : List A) :
    Proper (buildBest P C x draw pick maxLeaf train).1 := by
  obtain ⟨G, sp, d, e, h, h1, h2⟩ := buildBest_spec (P := P) (C := C) (x := x) (draw := draw) hpick maxLeaf train
  rw [e]
  have hf : Forward (G.map (fun p => p.2)) := by
    intro i n hi
    rw [List.getElem?_map] at hi
    cases hg : G[i]? with
    | none => rw [hg] at hi; cases hi
    | some rn =>
      obtain ⟨r, n'⟩ := rn
      rw [hg] at hi
      cases hi
      rcases h.shape i r n' hg with hh | ⟨s, l, nl, nr, s1, s2, s3, s4, s5, s6, _⟩
      · exact Or.inl hh
      · right
        have l1 := (List.getElem?_eq_some_iff.mp s5).1
        have l2 := (List.getElem?_eq_some_iff.mp s6).1
        exact ⟨l, l + 1, s2, s3, s4, by omega, by simpa using l1, by simpa using l2⟩
  refine ⟨hf, ?_, by simpa using root_lt h⟩
  have hlen : (childIds (G.map (fun p => p.2))).length = G.length - 1 := by
    have key : ∀ L : List (Rec A K × Node K V), (∀ p ∈ L, (p.2.left = none ∧ p.2.right = none) ∨
        ∃ l r, p.2.left = some l ∧ p.2.right = some r) →
        (childIds (L.map (fun p => p.2))).length + 2 * L.countP isLeafPair = 2 * L.length := by
      intro L
      induction L with
      | nil => intro _; simp [childIds]
      | cons p L ih =>
        intro hL
        have := ih (fun q hq => hL q (by simp [hq]))
        have e1 : (childIds ((p :: L).map (fun p => p.2))).length =
            (p.2.left.toList ++ p.2.right.toList).length + (childIds (L.map (fun p => p.2))).length := by
          simp [childIds, Nat.add_assoc]
        rw [e1]
        rcases hL p (by simp) with ⟨a, b⟩ | ⟨l, r, a, b⟩
        · rw [List.countP_cons_of_pos (by simp [isLeafPair, a])]
          simp [a, b]; omega
        · rw [List.countP_cons_of_neg (by simp [isLeafPair, a])]
          simp [a, b]; omega
    have := key G (by
      intro p hp
      obtain ⟨i, hi⟩ := List.getElem?_of_mem hp
      rcases hf i p.2 (by simp [hi]) with hh | ⟨l, r, a, b, _⟩
      · exact Or.inl hh
      · exact Or.inr ⟨l, r, a, b⟩)
    omega
  have hsub : List.range' 1 (G.length - 1) ⊆ childIds (G.map (fun p => p.2)) := by
    intro j hj
    rw [List.mem_range'_1] at hj
    obtain ⟨r, n, hg⟩ := pair_of_lt (G := G) (i := j) (by omega)
    obtain ⟨p, rp, np, _, p2, p3⟩ := h.par j r n (by omega) hg
    refine List.mem_flatMap.mpr ⟨np, List.mem_map.mpr ⟨(rp, np), List.mem_of_getElem? p2, rfl⟩, ?_⟩
    rcases p3 with ⟨c, _⟩ | ⟨c, _⟩ <;> simp [c]
  have hnd : (List.range' 1 (G.length - 1)).Nodup := List.nodup_range'
  have := (hnd.subperm hsub).perm_of_length_le (by rw [hlen]; simp)
  simpa using this.symm

/-! ### telescoping -/

theorem range_nodes {B : Type} (nodes : List (Node K V)) (F : Node K V → B) (z : B) :
    (List.range nodes.length).map (fun i => ((nodes[i]?).map F).getD z) = nodes.map F := by
  apply List.ext_getElem?
  intro i
  simp only [List.getElem?_map, List.getElem?_range']
  by_cases h : i < nodes.length
  · simp [h]
  · simp [h]

/-- what the inner nodes lose to their children adds up to the root's part less that of the leaves -/
theorem telescope {nodes : List (Node K V)} (h : Proper nodes) (W : Nat → K) :
    ((List.range nodes.length).map (excess W nodes)).sum =
      W 0 - (((List.range nodes.length).filter (isLeafAt nodes)).map W).sum := by
  have e : ∀ i ∈ List.range nodes.length, excess W nodes i = W i - (if isLeafAt nodes i then W i else 0) -
      ((nodes[i]?).map (fun n => ((n.left.toList ++ n.right.toList).map W).sum)).getD 0 := by
    intro i hi
    obtain ⟨n, hn⟩ : ∃ n, nodes[i]? = some n := ⟨nodes[i]'(by simpa using hi), by simp⟩
    rcases h.fwd i n hn with ⟨a, b⟩ | ⟨l, r, a, b, _⟩
    · simp [excess, isLeafAt, hn, a, b]
    · simp [excess, isLeafAt, hn, a, b]; ring
  rw [List.map_congr_left e]
  have hsub : ∀ (l : List Nat) (f g k : Nat → K), (l.map (fun i => f i - g i - k i)).sum =
      (l.map f).sum - (l.map g).sum - (l.map k).sum := by
    intro l f g k
    induction l with
    | nil => simp
    | cons a l ih => simp only [List.map_cons, List.sum_cons, ih]; ring
  rw [hsub, range_nodes nodes (fun n => ((n.left.toList ++ n.right.toList).map W).sum) 0]
  have hfil : ∀ l : List Nat, (l.map (fun i => if isLeafAt nodes i then W i else 0)).sum =
      ((l.filter (isLeafAt nodes)).map W).sum := by
    intro l
    induction l with
    | nil => simp
    | cons a l ih =>
      by_cases ha : isLeafAt nodes a = true
      · simp [ha, ih]
      · simp [ha, ih]
  rw [hfil]
  have hch : (nodes.map (fun n => ((n.left.toList ++ n.right.toList).map W).sum)).sum = ((childIds nodes).map W).sum := by
    unfold childIds
    rw [List.map_flatMap, List.flatMap_def, List.sum_flatten, List.map_map]
    rfl
  rw [hch, (h.once.map W).sum_eq]
  have hr : List.range nodes.length = 0 :: List.range' 1 (nodes.length - 1) := by
    rw [List.range_eq_range']
    obtain ⟨m, hm⟩ : ∃ m, nodes.length = m + 1 := ⟨nodes.length - 1, by have := h.pos; omega⟩
    rw [hm, List.range'_succ]
    simp
  have hs : ((List.range nodes.length).map W).sum = W 0 + ((List.range' 1 (nodes.length - 1)).map W).sum := by
    rw [hr]; simp
  rw [hs]
  ring

theorem sum_taken {nodes : List (Node K V)} (wt : Nat → K) (nFeat : Nat)
    (hfeat : ∀ i f, splitsOn nodes f i = true → f < nFeat) :
    ((List.range nFeat).map (taken wt nodes)).sum = ((List.range nodes.length).map (excess (load wt nodes) nodes)).sum := by
  have key : ∀ l : List Nat, ((List.range nFeat).map (fun f =>
      ((l.filter (splitsOn nodes f)).map (excess (load wt nodes) nodes)).sum)).sum =
      (l.map (excess (load wt nodes) nodes)).sum := by
    intro l
    induction l with
    | nil => simp
    | cons i l ih =>
      have e : ∀ f, (((i :: l).filter (splitsOn nodes f)).map (excess (load wt nodes) nodes)).sum =
          (if splitsOn nodes f i then excess (load wt nodes) nodes i else 0) +
            ((l.filter (splitsOn nodes f)).map (excess (load wt nodes) nodes)).sum := by
        intro f
        by_cases hs : splitsOn nodes f i = true
        · simp [hs]
        · simp [hs]
      simp only [e]
      rw [List.sum_map_add, ih, List.map_cons, List.sum_cons]
      congr 1
      have hfin : ((List.range nFeat).map (fun f => if splitsOn nodes f i then excess (load wt nodes) nodes i else 0)).sum =
          ∑ f ∈ Finset.range nFeat, (if splitsOn nodes f i then excess (load wt nodes) nodes i else 0) := rfl
      rw [hfin]
      by_cases hi : ∃ f, splitsOn nodes f i = true
      · obtain ⟨f, hf⟩ := hi
        rw [Finset.sum_eq_single_of_mem f (Finset.mem_range.mpr (hfeat i f hf))]
        · simp [hf]
        · intro g _ hg
          rw [if_neg]
          intro hgs
          apply hg
          unfold splitsOn at hf hgs
          cases hn : nodes[i]? with
          | none => rw [hn] at hf; cases hf
          | some n =>
            rw [hn] at hf hgs
            simp only [Bool.and_eq_true, decide_eq_true_eq] at hf hgs
            rw [← hf.2, ← hgs.2]
      · rw [Finset.sum_eq_zero]
        · unfold excess
          cases hn : nodes[i]? with
          | none => rfl
          | some n =>
            simp only
            cases hl : n.left with
            | none => rfl
            | some a =>
              cases hr : n.right with
              | none => rfl
              | some b => exact absurd ⟨n.feature, by simp [splitsOn, hn, hl, hr]⟩ hi
        · intro f _
          rw [if_neg]
          intro hf; exact hi ⟨f, hf⟩
  exact key _

/-- **C115.** The importances before normalisation add up to the weighted impurity of the root less that of the leaves,
per unit of weight at the root - whatever the splits were: for a tree grown depth first, -/
theorem C115_total_depth_first {P : Params A K} {C : Criterion A M K V} (hP : SoundParams P) (hC : SoundCriterion C)
    (x : A → Nat → K) (w : A → K) (draw : Nat → List Nat) (train : List A) (wt : Nat → K) (nFeat : Nat)
    (hfeat : ∀ i f, splitsOn (build P C x w draw train).1 f i = true → f < nFeat) :
    (importances wt (build P C x w draw train).1 nFeat false).sum =
      (load wt (build P C x w draw train).1 0 -
        (((List.range (build P C x w draw train).1.length).filter (isLeafAt (build P C x w draw train).1)).map
          (load wt (build P C x w draw train).1)).sum) / wt 0 := by
  rw [C115_meaning, ← telescope (build_proper hP hC x w draw train), ← sum_taken wt nFeat hfeat]
  simp only [div_eq_mul_inv]
  rw [List.sum_map_mul_right]

/-- **C115.** ... and for one grown best first. -/
theorem C115_total_best_first {P : Params A K} {C : List A → Criterion A M K V} {x : A → Nat → K} {draw : Nat → List Nat}
    {pick : List (Front A K) → Nat} (hpick : SoundHeap pick) (maxLeaf : Nat) (train : List A) (wt : Nat → K) (nFeat : Nat)
    (hfeat : ∀ i f, splitsOn (buildBest P C x draw pick maxLeaf train).1 f i = true → f < nFeat) :
    (importances wt (buildBest P C x draw pick maxLeaf train).1 nFeat false).sum =
      (load wt (buildBest P C x draw pick maxLeaf train).1 0 -
        (((List.range (buildBest P C x draw pick maxLeaf train).1.length).filter
          (isLeafAt (buildBest P C x draw pick maxLeaf train).1)).map
            (load wt (buildBest P C x draw pick maxLeaf train).1)).sum) / wt 0 := by
  rw [C115_meaning, ← telescope (best_proper hpick maxLeaf train), ← sum_taken wt nFeat hfeat]
  simp only [div_eq_mul_inv]
  rw [List.sum_map_mul_right]

/-! ### who reaches a child -/

theorem proper_parent {nodes : List (Node K V)} (h : Proper nodes) {i j c : Nat} {n m : Node K V}
    (hi : nodes[i]? = some n) (hj : nodes[j]? = some m) (hc : c ∈ n.left.toList ++ n.right.toList)
    (hd : c ∈ m.left.toList ++ m.right.toList) : i = j := by
  have hnd : (childIds nodes).Nodup := h.once.nodup_iff.mpr List.nodup_range'
  unfold childIds at hnd
  rw [List.nodup_flatMap] at hnd
  have hp := List.pairwise_iff_getElem.mp hnd.2
  obtain ⟨li, ei⟩ := List.getElem?_eq_some_iff.mp hi
  obtain ⟨lj, ej⟩ := List.getElem?_eq_some_iff.mp hj
  rcases lt_trichotomy i j with hlt | he | hlt
  · have := hp i j li lj hlt
    rw [Function.onFun, ei, ej] at this
    exact absurd hd (this hc)
  · exact he
  · have := hp j i lj li hlt
    rw [Function.onFun, ei, ej] at this
    exact absurd hc (this hd)

theorem proper_sides {nodes : List (Node K V)} (h : Proper nodes) {i l r : Nat} {n : Node K V}
    (hi : nodes[i]? = some n) (hl : n.left = some l) (hr : n.right = some r) : l ≠ r := by
  have hnd : (childIds nodes).Nodup := h.once.nodup_iff.mpr List.nodup_range'
  unfold childIds at hnd
  rw [List.nodup_flatMap] at hnd
  have := hnd.1 n (List.mem_of_getElem? hi)
  rw [hl, hr] at this
  simpa using this

theorem proper_walk {nodes : List (Node K V)} (h : Proper nodes) (q : Nat → K) : ∀ k, walk nodes q k 0 < nodes.length ∧
    (isLeafAt nodes (walk nodes q k 0) = true ∨ k ≤ walk nodes q k 0) := by
  intro k
  induction k with
  | zero => exact ⟨h.pos, Or.inr (Nat.zero_le _)⟩
  | succ k ih =>
    obtain ⟨h1, h2⟩ := ih
    rw [walk_add q k 1 0]
    obtain ⟨n, hn⟩ : ∃ n, nodes[walk nodes q k 0]? = some n := ⟨nodes[walk nodes q k 0]'h1, by simp⟩
    rcases h.fwd _ n hn with ⟨a, b⟩ | ⟨l, r, a, b, c1, c2, c3, c4⟩
    · rw [walk_at_leaf hn a]
      exact ⟨h1, Or.inl (by simp [isLeafAt, hn, a, b])⟩
    · have h3 : k ≤ walk nodes q k 0 := by
        rcases h2 with h2 | h2
        · simp [isLeafAt, hn, a, b] at h2
        · exact h2
      rw [walk_at_inner hn a b]
      unfold walk
      by_cases hq : q n.feature ≤ n.threshold
      · rw [if_pos hq]; exact ⟨c3, Or.inr (by omega)⟩
      · rw [if_neg hq]; exact ⟨c4, Or.inr (by omega)⟩

theorem proper_reaches {nodes : List (Node K V)} (h : Proper nodes) {q : Nat → K} {i c : Nat} {n : Node K V}
    (hi : nodes[i]? = some n) (hc : c ∈ n.left.toList ++ n.right.toList) :
    reaches nodes q c = true ↔ reaches nodes q i = true ∧
      c ∈ (if q n.feature ≤ n.threshold then n.left.toList else n.right.toList) := by
  have hin : ∃ l r, n.left = some l ∧ n.right = some r ∧ i < l ∧ i < r ∧ l < nodes.length ∧ r < nodes.length := by
    rcases h.fwd i n hi with ⟨a, b⟩ | hh
    · rw [a, b] at hc; simp at hc
    · exact hh
  obtain ⟨l, r, hl, hr, c1, c2, c3, c4⟩ := hin
  have hci : i < c ∧ c < nodes.length := by
    rw [hl, hr] at hc
    simp only [Option.toList_some, List.cons_append, List.nil_append, List.mem_cons, List.not_mem_nil, or_false] at hc
    rcases hc with rfl | rfl <;> constructor <;> assumption
  constructor
  · intro hrc
    unfold reaches at hrc
    rw [List.any_eq_true] at hrc
    obtain ⟨k0, _, hk0⟩ := hrc
    simp only [decide_eq_true_eq] at hk0
    have hex : ∃ k, walk nodes q k 0 = c := ⟨k0, hk0⟩
    classical
    let k := Nat.find hex
    have hk : walk nodes q k 0 = c := Nat.find_spec hex
    have hmin : ∀ j, j < k → walk nodes q j 0 ≠ c := fun j hj => Nat.find_min hex hj
    cases hkk : k with
    | zero => rw [hkk] at hk; simp [walk] at hk; omega
    | succ k' =>
      rw [hkk] at hk hmin
      obtain ⟨p1, p2⟩ := proper_walk h q k'
      rw [walk_add q k' 1 0] at hk
      obtain ⟨m, hm⟩ : ∃ m, nodes[walk nodes q k' 0]? = some m := ⟨nodes[walk nodes q k' 0]'p1, by simp⟩
      rcases h.fwd _ m hm with ⟨a, b⟩ | ⟨l', r', a, b, d1, d2, d3, d4⟩
      · rw [walk_at_leaf hm a] at hk
        exact absurd hk (hmin k' (by omega))
      · rw [walk_at_inner hm a b] at hk
        unfold walk at hk
        have hmem : c ∈ m.left.toList ++ m.right.toList := by
          rw [a, b]
          by_cases hq : q m.feature ≤ m.threshold
          · rw [if_pos hq] at hk; simp [hk]
          · rw [if_neg hq] at hk; simp [hk]
        have hpi := proper_parent h hi hm hc hmem
        rw [← hpi, hi] at hm
        cases hm
        refine ⟨?_, ?_⟩
        · unfold reaches
          rw [List.any_eq_true]
          have : k' ≤ walk nodes q k' 0 := by
            rcases p2 with p2 | p2
            · rw [← hpi] at p2; simp [isLeafAt, hi, hl] at p2
            · exact p2
          exact ⟨k', by rw [List.mem_range]; omega, by simp [hpi]⟩
        · by_cases hq : q n.feature ≤ n.threshold
          · rw [if_pos hq] at hk ⊢; rw [a]; simp [hk]
          · rw [if_neg hq] at hk ⊢; rw [b]; simp [hk]
  · rintro ⟨hri, hcc⟩
    unfold reaches at hri ⊢
    rw [List.any_eq_true] at hri ⊢
    obtain ⟨k, _, hk⟩ := hri
    simp only [decide_eq_true_eq] at hk
    have : k ≤ i := by
      rcases (proper_walk h q k).2 with p2 | p2
      · rw [hk] at p2; simp [isLeafAt, hi, hl] at p2
      · omega
    refine ⟨k + 1, by rw [List.mem_range]; omega, ?_⟩
    rw [walk_add q k 1 0, hk, walk_at_inner hi hl hr]
    unfold walk
    by_cases hq : q n.feature ≤ n.threshold
    · rw [if_pos hq] at hcc ⊢; rw [hl] at hcc; simp at hcc; simp [hcc]
    · rw [if_neg hq] at hcc ⊢; rw [hr] at hcc; simp at hcc; simp [hcc]

end general
section policy
variable {K : Type} [Field K] [LinearOrder K] [IsStrictOrderedRing K] [FloorRing K] {d : Nat}
variable {E : PEnv K d} {g : PSettings K} {nFeat : Nat} {v : List (Nat → K)} {ce : List (Fin d → K)}
  {weights : Option (List K)} {t : PFitted K d} {leaf split depth nd : Nat}

theorem fit_proper (hE : SoundPEnv E) (h : FitFacts E g nFeat v ce weights t leaf split depth nd)
    (hc : g.criterion = "policy_reg") : Proper t.nodes := by
  rcases fit_cases h hc with ⟨_, h2, _⟩ | ⟨m, _, _, h2⟩
  · have en := congrArg Prod.fst h2
    simp only at en
    rw [en]; exact build_proper (pParams_sound hE _) (policyReg_sound _ _) _ _ _ _
  · have en := congrArg Prod.fst h2
    simp only at en
    rw [en]; exact best_proper hE.heap _ _

theorem bestTotal_nil [NeZero d] : bestTotal ([] : List (PSample K d)) = 0 := by
  unfold bestTotal
  have : effTotal ([] : List (PSample K d)) = fun _ => (0 : K) := by funext k; simp [effTotal]
  rw [this]
  simp

theorem policy_load [NeZero d] (hE : SoundPEnv E) (h : FitFacts E g nFeat v ce weights t leaf split depth nd)
    (hc : g.criterion = "policy_reg") (hw : ∀ ws, weights = some ws → ∀ x ∈ ws, 0 ≤ x) {i : Nat}
    {n : Node K (Fin d → K)} (hi : t.nodes[i]? = some n) :
    load (fun i => wTotal (atNode t (used g v ce weights) i)) t.nodes i =
      E.alpha * wTotal (atNode t (used g v ce weights) i) - bestTotal (atNode t (used g v ce weights) i) := by
  obtain ⟨r, f1, f2, f3, _⟩ := fit_node hE h hc hi
  unfold load
  rw [hi, Option.map_some, Option.getD_some, f3, f2, maxOf_eq, bestTotal_perm f1, wTotal_perm f1]
  by_cases hne : atNode t (used g v ce weights) i = []
  · rw [hne, bestTotal_nil]; simp [wTotal, hne]
  · have hp := wTotal_pos hne (by
      intro a ha
      exact used_pos hw (List.mem_filter.mp ha).1)
    field_simp

theorem atNode_root (h : Proper t.nodes) (l : List (PSample K d)) : atNode t l 0 = l := by
  unfold atNode
  apply List.filter_eq_self.mpr
  intro a _
  unfold reaches
  rw [List.any_eq_true]
  exact ⟨0, List.mem_range.mpr h.pos, by simp [walk]⟩

theorem atNode_left (h : Proper t.nodes) (S : List (PSample K d)) {i l r : Nat} {n : Node K (Fin d → K)}
    (hi : t.nodes[i]? = some n) (hl : n.left = some l) (hr : n.right = some r) :
    atNode t S l = (atNode t S i).filter (fun a => decide (a.v n.feature ≤ n.threshold)) := by
  unfold atNode
  rw [List.filter_filter]
  congr 1
  funext a
  have := proper_reaches h (q := a.v) (c := l) hi (by simp [hl])
  have hne := proper_sides h hi hl hr
  rw [Bool.eq_iff_iff, this]
  by_cases hq : a.v n.feature ≤ n.threshold
  · simp [hq, hl]
  · simp [hq, hr, hne]

theorem atNode_right (h : Proper t.nodes) (S : List (PSample K d)) {i l r : Nat} {n : Node K (Fin d → K)}
    (hi : t.nodes[i]? = some n) (hl : n.left = some l) (hr : n.right = some r) :
    atNode t S r = (atNode t S i).filter (fun a => decide (n.threshold < a.v n.feature)) := by
  unfold atNode
  rw [List.filter_filter]
  congr 1
  funext a
  have := proper_reaches h (q := a.v) (c := r) hi (by simp [hr])
  have hne := proper_sides h hi hl hr
  rw [Bool.eq_iff_iff, this]
  by_cases hq : a.v n.feature ≤ n.threshold
  · simp [hq, hl, Ne.symm hne]
  · simp [hq, hr, not_le.mp hq]

theorem policy_excess [NeZero d] (hE : SoundPEnv E) (h : FitFacts E g nFeat v ce weights t leaf split depth nd)
    (hc : g.criterion = "policy_reg") (hw : ∀ ws, weights = some ws → ∀ x ∈ ws, 0 ≤ x) {i : Nat}
    {n : Node K (Fin d → K)} (hi : t.nodes[i]? = some n) {l r : Nat} (hl : n.left = some l) (hr : n.right = some r) :
    excess (load (fun i => wTotal (atNode t (used g v ce weights) i)) t.nodes) t.nodes i =
      cutTotal (atNode t (used g v ce weights) i) n.feature n.threshold - bestTotal (atNode t (used g v ce weights) i) := by
  have hp := fit_proper hE h hc
  have hex : excess (load (fun i => wTotal (atNode t (used g v ce weights) i)) t.nodes) t.nodes i =
      load (fun i => wTotal (atNode t (used g v ce weights) i)) t.nodes i -
      load (fun i => wTotal (atNode t (used g v ce weights) i)) t.nodes l -
      load (fun i => wTotal (atNode t (used g v ce weights) i)) t.nodes r := by
    unfold excess; simp only [hi, hl, hr]
  have hlr : l < t.nodes.length ∧ r < t.nodes.length := by
    rcases hp.fwd i n hi with ⟨a, _⟩ | ⟨l', r', a, b, _, _, c3, c4⟩
    · rw [hl] at a; cases a
    · rw [hl] at a; rw [hr] at b; cases a; cases b; exact ⟨c3, c4⟩
  rw [hex, policy_load hE h hc hw hi, policy_load hE h hc hw (List.getElem?_eq_getElem hlr.1),
    policy_load hE h hc hw (List.getElem?_eq_getElem hlr.2), atNode_left hp _ hi hl hr, atNode_right hp _ hi hl hr]
  have hadd : wTotal (atNode t (used g v ce weights) i) =
      wTotal ((atNode t (used g v ce weights) i).filter (fun a => decide (a.v n.feature ≤ n.threshold))) +
      wTotal ((atNode t (used g v ce weights) i).filter (fun a => decide (n.threshold < a.v n.feature))) := by
    have := List.filter_append_perm (cut (fun a : PSample K d => a.v) n.feature n.threshold) (atNode t (used g v ce weights) i)
    rw [not_le_eq] at this
    rw [← wTotal_perm this]
    unfold wTotal
    rw [List.map_append, List.sum_append]
    rfl
  rw [hadd]
  unfold cutTotal
  ring

/-- **C115.** For a `PolicyTree` fitted with the criterion `"policy_reg"` and nonnegative weights the importances are
meaningful: none is negative; before normalisation that of a feature is what the splits on it add to the total effect of
the best treatments, per unit of weight; together they are what the whole tree adds over the best single treatment. -/
theorem C115_policy [NeZero d] (hE : SoundPEnv E) (hf : policyFit E g nFeat v ce weights = .ok t)
    (hc : g.criterion = "policy_reg") (hw : ∀ ws, weights = some ws → ∀ x ∈ ws, 0 ≤ x)
    (hne : used g v ce weights ≠ []) (normalize : Bool) :
    (∀ x ∈ importances (fun i => wTotal (atNode t (used g v ce weights) i)) t.nodes nFeat normalize, 0 ≤ x) ∧
    (∀ f < nFeat, (importances (fun i => wTotal (atNode t (used g v ce weights) i)) t.nodes nFeat false)[f]? =
      some ((((List.range t.nodes.length).filter (splitsOn t.nodes f)).map (fun i =>
        cutTotal (atNode t (used g v ce weights) i) f (((t.nodes[i]?).map (fun n => n.threshold)).getD 0) -
          bestTotal (atNode t (used g v ce weights) i))).sum / wTotal (used g v ce weights))) ∧
    ((∀ i f, splitsOn t.nodes f i = true → f < nFeat) →
      (importances (fun i => wTotal (atNode t (used g v ce weights) i)) t.nodes nFeat false).sum =
        ((((List.range t.nodes.length).filter (isLeafAt t.nodes)).map
          (fun i => bestTotal (atNode t (used g v ce weights) i))).sum - bestTotal (used g v ce weights)) /
        wTotal (used g v ce weights)) := by
  obtain ⟨leaf, split, depth, nd, h⟩ := policyFit_ok hf
  have hp := fit_proper hE h hc
  have hroot := atNode_root hp (used g v ce weights)
  have hpos : 0 < wTotal (used g v ce weights) := wTotal_pos hne (fun a ha => used_pos hw ha)
  have htaken : ∀ f, taken (fun i => wTotal (atNode t (used g v ce weights) i)) t.nodes f =
      (((List.range t.nodes.length).filter (splitsOn t.nodes f)).map (fun i =>
        cutTotal (atNode t (used g v ce weights) i) f (((t.nodes[i]?).map (fun n => n.threshold)).getD 0) -
          bestTotal (atNode t (used g v ce weights) i))).sum := by
    intro f
    unfold taken
    congr 1
    apply List.map_congr_left
    intro i hi
    have hs := (List.mem_filter.mp hi).2
    unfold splitsOn at hs
    cases hn : t.nodes[i]? with
    | none => rw [hn] at hs; cases hs
    | some n =>
      rw [hn] at hs
      simp only [Bool.and_eq_true, decide_eq_true_eq, Option.isSome_iff_exists] at hs
      obtain ⟨⟨⟨l, hl⟩, ⟨r, hr⟩⟩, hff⟩ := hs
      rw [policy_excess hE h hc hw hn hl hr, ← hff]
      rfl
  have hnn : ∀ x ∈ importances (fun i => wTotal (atNode t (used g v ce weights) i)) t.nodes nFeat false, 0 ≤ x := by
    intro x hx
    rw [C115_meaning] at hx
    obtain ⟨f, _, rfl⟩ := List.mem_map.mp hx
    apply div_nonneg
    · rw [htaken]
      apply List.sum_nonneg
      intro y hy
      obtain ⟨i, _, rfl⟩ := List.mem_map.mp hy
      exact sub_nonneg.mpr (C100_cut_gains _ _ _)
    · rw [hroot]; exact hpos.le
  refine ⟨?_, ?_, ?_⟩
  · cases normalize with
    | false => exact hnn
    | true =>
      obtain ⟨n1, n2⟩ := C115_normalised (fun i => wTotal (atNode t (used g v ce weights) i)) t.nodes nFeat
      by_cases hs : 0 < (importances (fun i => wTotal (atNode t (used g v ce weights) i)) t.nodes nFeat false).sum
      · intro x hx
        rw [(n1 hs).1] at hx
        obtain ⟨y, hy, rfl⟩ := List.mem_map.mp hx
        exact div_nonneg (hnn y hy) hs.le
      · rw [n2 hs]; exact hnn
  · intro f hff
    rw [C115_meaning]
    simp [hff, htaken, hroot]
  · intro hfeat
    rw [C115_meaning]
    have e : ((List.range nFeat).map (fun f => taken (fun i => wTotal (atNode t (used g v ce weights) i)) t.nodes f /
        wTotal (atNode t (used g v ce weights) 0))).sum =
        ((List.range nFeat).map (taken (fun i => wTotal (atNode t (used g v ce weights) i)) t.nodes)).sum /
          wTotal (used g v ce weights) := by
      simp only [div_eq_mul_inv]
      rw [List.sum_map_mul_right, hroot]
    have hex : ∀ i ∈ List.range t.nodes.length,
        excess (load (fun i => wTotal (atNode t (used g v ce weights) i)) t.nodes) t.nodes i =
        excess (fun i => E.alpha * wTotal (atNode t (used g v ce weights) i) - bestTotal (atNode t (used g v ce weights) i))
          t.nodes i := by
      intro i hi
      unfold excess
      have hn : t.nodes[i]? = some (t.nodes[i]'(by simpa using hi)) := by simp
      rcases hp.fwd i _ hn with ⟨a, b⟩ | ⟨l, r, a, b, _, _, c3, c4⟩
      · rw [hn]; simp only [a, b]
      · rw [hn]; simp only [a, b]
        rw [policy_load hE h hc hw hn, policy_load hE h hc hw (List.getElem?_eq_getElem c3),
          policy_load hE h hc hw (List.getElem?_eq_getElem c4)]
    have hwex : ((List.range t.nodes.length).map (excess (fun i => wTotal (atNode t (used g v ce weights) i)) t.nodes)).sum = 0 := by
      apply List.sum_eq_zero
      intro x hx
      obtain ⟨i, hi, rfl⟩ := List.mem_map.mp hx
      have hn : t.nodes[i]? = some (t.nodes[i]'(by simpa using hi)) := by simp
      unfold excess
      rcases hp.fwd i _ hn with ⟨a, b⟩ | ⟨l, r, a, b, _, _, c3, c4⟩
      · rw [hn]; simp only [a, b]
      · rw [hn]; simp only [a, b]
        rw [atNode_left hp _ hn a b, atNode_right hp _ hn a b]
        have := List.filter_append_perm (cut (fun a : PSample K d => a.v) (t.nodes[i]'(by simpa using hi)).feature
          (t.nodes[i]'(by simpa using hi)).threshold) (atNode t (used g v ce weights) i)
        rw [not_le_eq] at this
        rw [← wTotal_perm this]
        unfold wTotal
        rw [List.map_append, List.sum_append]
        unfold cut
        ring
    rw [e, sum_taken _ nFeat hfeat, List.map_congr_left hex, telescope hp]
    rw [telescope hp] at hwex
    congr 1
    rw [hroot]
    rw [hroot] at hwex
    have hsum : ∀ l : List Nat, (l.map (fun i => E.alpha * wTotal (atNode t (used g v ce weights) i) -
        bestTotal (atNode t (used g v ce weights) i))).sum =
        E.alpha * (l.map (fun i => wTotal (atNode t (used g v ce weights) i))).sum -
        (l.map (fun i => bestTotal (atNode t (used g v ce weights) i))).sum := by
      intro l
      induction l with
      | nil => simp
      | cons a l ih => simp only [List.map_cons, List.sum_cons, ih]; ring
    rw [hsum, ← sub_eq_zero.mp hwex]
    ring

end policy

/-! ### the forests -/

section forest
variable {K : Type} [Field K] [LinearOrder K] [IsStrictOrderedRing K]

theorem collect_cases (trees : List (Member K)) :
    ((∃ t ∈ trees, 1 < t.nodeCount ∧ t.imps = none) ∧
      collectImportances trees = .error "AttributeError: feature_importances_") ∨
    ((∀ t ∈ trees, 1 < t.nodeCount → t.imps ≠ none) ∧
      collectImportances trees =
        .ok ((trees.filter (fun t => decide (1 < t.nodeCount))).map (fun t => t.imps.getD []))) := by
  induction trees with
  | nil => right; exact ⟨by simp, rfl⟩
  | cons t ts ih =>
    unfold collectImportances
    by_cases hc : 1 < t.nodeCount
    · rw [if_pos hc]
      cases ht : t.imps with
      | none => left; exact ⟨⟨t, by simp, hc, ht⟩, rfl⟩
      | some l =>
        rcases ih with ⟨⟨u, hu, hu2⟩, e⟩ | ⟨h1, e⟩
        · left; rw [e]; exact ⟨⟨u, by simp [hu], hu2⟩, rfl⟩
        · right
          rw [e]
          refine ⟨?_, ?_⟩
          · intro u hu huc
            rcases List.mem_cons.mp hu with rfl | hu
            · rw [ht]; simp
            · exact h1 u hu huc
          · simp [hc, ht]
    · rw [if_neg hc]
      rcases ih with ⟨⟨u, hu, hu2⟩, e⟩ | ⟨h1, e⟩
      · left; exact ⟨⟨u, by simp [hu], hu2⟩, e⟩
      · right
        refine ⟨?_, ?_⟩
        · intro u hu huc
          rcases List.mem_cons.mp hu with rfl | hu
          · exact absurd huc hc
          · exact h1 u hu huc
        · rw [e]; simp [hc]

/-- **C115.** The importances of a forest: when it returns numbers, they are the mean over the trees that were split,
scaled to sum to 1. It fails if some split tree has no such attribute, and if no tree was split at all. -/
theorem C115_forest (nFeat : Nat) (trees : List (Member K)) :
    (∀ l, forestImportances nFeat trees = .ok (some l) →
      l.length = nFeat ∧ l.sum = 1 ∧ ∃ c : K, c ≠ 0 ∧ ∀ f < nFeat,
        l[f]? = some ((((trees.filter (fun t => decide (1 < t.nodeCount))).map
          (fun t => (t.imps.getD []).getD f 0)).sum / ((trees.filter (fun t => decide (1 < t.nodeCount))).length : K)) / c)) ∧
    ((∃ t ∈ trees, 1 < t.nodeCount ∧ t.imps = none) →
      forestImportances nFeat trees = .error "AttributeError: feature_importances_") ∧
    ((∀ t ∈ trees, t.nodeCount ≤ 1) → forestImportances nFeat trees = .error "AttributeError: n_features_in_") := by
  have hdiv : ∀ (l : List K) (c : K), (l.map (fun v => v / c)).sum = l.sum / c := by
    intro l c
    induction l with
    | nil => simp
    | cons a l ih => simp [ih, add_div]
  refine ⟨?_, ?_, ?_⟩
  · intro l hl
    unfold forestImportances at hl
    rcases collect_cases trees with ⟨_, e⟩ | ⟨_, e⟩
    · simp only [e] at hl; cases hl
    · simp only [e] at hl
      cases hq : (trees.filter (fun t => decide (1 < t.nodeCount))).map (fun t => t.imps.getD []) with
      | nil => rw [hq] at hl; cases hl
      | cons a as =>
        rw [hq] at hl
        simp only at hl
        by_cases hz : (meanLists nFeat (a :: as)).sum = 0
        · rw [if_pos hz] at hl; cases hl
        · rw [if_neg hz] at hl
          injection hl with hl
          injection hl with hl
          rw [← hl]
          refine ⟨by simp [meanLists], by rw [hdiv, div_self hz], (meanLists nFeat (a :: as)).sum, hz, ?_⟩
          intro f hf
          rw [List.getElem?_map]
          have hlen : (trees.filter (fun t => decide (1 < t.nodeCount))).length = (a :: as).length := by
            rw [← hq, List.length_map]
          have hm : (meanLists nFeat (a :: as))[f]? = some (((a :: as).map (fun l => l.getD f 0)).sum / ((a :: as).length : K)) := by
            unfold meanLists
            simp [hf]
          rw [hm, ← hq, List.map_map, List.length_map]
          rfl
  · rintro ⟨t, ht, hc, hn⟩
    unfold forestImportances
    rcases collect_cases trees with ⟨_, e⟩ | ⟨h1, _⟩
    · simp only [e]
    · exact absurd hn (h1 t ht hc)
  · intro h
    unfold forestImportances
    rcases collect_cases trees with ⟨⟨t, ht, hc, _⟩, _⟩ | ⟨_, e⟩
    · exact absurd hc (not_lt.mpr (h t ht))
    · have : (trees.filter (fun t => decide (1 < t.nodeCount))) = [] := by
        apply List.filter_eq_nil_iff.mpr
        intro t ht
        simpa using h t ht
      simp only [e, this, List.map_nil]

/-- **C115, refuted for `CTCausalForest`.** Its trees are `CausalTree`s, which have no attribute `feature_importances_`:
whatever the data, the forest's importances are an exception. -/
theorem C115_ct_forest_refuted (nFeat : Nat) (counts : List Nat) :
    ∃ e, forestImportances (K := K) nFeat (counts.map (fun c => ⟨c, none⟩)) = .error e := by
  obtain ⟨_, h2, h3⟩ := C115_forest (K := K) nFeat (counts.map (fun c => ⟨c, none⟩))
  by_cases h : ∃ c ∈ counts, 1 < c
  · obtain ⟨c, hc, h1⟩ := h
    exact ⟨_, h2 ⟨⟨c, none⟩, List.mem_map.mpr ⟨c, hc, rfl⟩, h1, rfl⟩⟩
  · refine ⟨_, h3 ?_⟩
    intro t ht
    obtain ⟨c, hc, rfl⟩ := List.mem_map.mp ht
    by_contra hcc
    exact h ⟨c, hc, by simpa using hcc⟩

end forest

/-! ### concrete trees -/

/-- the number of samples at a node: `weighted_n_node_samples` in `CausalTree`, whose active rows have weight 1
(tree_criterion.pyx:171-203), and in `GrfTree` -/
def sampleCount {V : Type} (nodes : List (Node ℚ V)) (i : Nat) : ℚ := ((nodes[i]?).map (fun n => (n.samples : ℚ))).getD 0

example : forestImportances 2 [(⟨3, some [1, 3]⟩ : Member ℚ), ⟨1, none⟩, ⟨5, some [4, 0]⟩] = .ok (some [5 / 8, 3 / 8]) ∧
    forestImportances 2 [(⟨3, some [1, -1]⟩ : Member ℚ)] = .ok none := by decide +kernel

/-- the importances of the tree in `Props/Policy.lean`: one split, with which the large values need not lose 3 -/
example : ∃ t, twoSided = .ok t ∧
    importances (fun i => wTotal (atNode t (used plainSettings [fun _ => 0, fun _ => 1, fun _ => 2, fun _ => 3]
      [![0, 5], ![0, 3], ![0, -1], ![0, -2]] none) i)) t.nodes 1 false = [3 / 4] ∧
    importances (fun i => wTotal (atNode t (used plainSettings [fun _ => 0, fun _ => 1, fun _ => 2, fun _ => 3]
      [![0, 5], ![0, 3], ![0, -1], ![0, -2]] none) i)) t.nodes 1 true = [1] ∧
    (List.range 3).map (splitsOn t.nodes 0) = [true, false, false] := by
  obtain ⟨t, h1, h2⟩ := okAnd_spec (e := twoSided) (p := fun t => decide (
    importances (fun i => wTotal (atNode t (used plainSettings [fun _ => 0, fun _ => 1, fun _ => 2, fun _ => 3]
      [![0, 5], ![0, 3], ![0, -1], ![0, -2]] none) i)) t.nodes 1 false = [3 / 4] ∧
    importances (fun i => wTotal (atNode t (used plainSettings [fun _ => 0, fun _ => 1, fun _ => 2, fun _ => 3]
      [![0, 5], ![0, 3], ![0, -1], ![0, -2]] none) i)) t.nodes 1 true = [1] ∧
    (List.range 3).map (splitsOn t.nodes 0) = [true, false, false])) (by decide +kernel)
  exact ⟨t, h1, of_decide_eq_true h2⟩

/-- four treated rows, with outcomes 0 and 1 on either side of the only possible cut -/
def bothSides : List (Row ℚ) :=
  [⟨[1], fun _ => 0, 0⟩, ⟨[1], fun _ => 0, 1⟩, ⟨[1], fun _ => 1, 0⟩, ⟨[1], fun _ => 1, 1⟩]

/-- **C115, refuted for `CausalTree`.** An importance can be negative - the split is made because the impurity of a node
shrinks with its number of samples -, and a negative total is not normalised. -/
theorem C115_causal_tree_refuted :
    let nodes := (fit (stdParams ℚ (Sample ℚ) 2 1 5) (1 / 100000) 10000000000 (fun _ => [0]) [1] [0] none bothSides).nodes
    ∃ x ∈ importances (sampleCount nodes) nodes 1 true, x < 0 := by
  decide +kernel

/-- **C115, refuted for `GrfTree`.** The root's impurity is the constant 1 whatever the data, while that of its
children grows with the outcome: here the only feature has the importance -175%, and it is not normalised. -/
theorem C115_grf_refuted :
    let nodes := (grfFit stdEnv (leaves (some 3)) none grfRows).1
    ∃ x ∈ importances (sampleCount nodes) nodes 1 true, x < -1 := by
  decide +kernel

end YL.Props
