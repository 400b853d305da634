import Verif.Props.TreeBuild
import Mathlib.Data.List.Sort

/-!
# C81-C86: grown trees and `CausalTree`
-/

set_option linter.unusedSectionVars false

namespace YL.Spec
open YL.Crit YL.Tree

variable {A K V M : Type} [AddCommGroup M] [Field K] [LinearOrder K]

/-- the sample `q` passes through node `i` on its way from the root to its leaf -/
def reaches (nodes : List (Node K V)) (q : Nat → K) (i : Nat) : Bool :=
  (List.range nodes.length).any (fun k => decide (walk nodes q k 0 = i))

/-- the training samples (with nonzero weight) that pass through node `i` -/
def through (nodes : List (Node K V)) (x : A → Nat → K) (w : A → K) (train : List A) (i : Nat) : List A :=
  (train.filter (fun a => decide (w a ≠ 0))).filter (fun a => reaches nodes (x a) i)

/-- the training samples (with nonzero weight) in the same leaf as `q` -/
def sameLeaf (nodes : List (Node K V)) (x : A → Nat → K) (w : A → K) (train : List A) (q : Nat → K) : List A :=
  (train.filter (fun a => decide (w a ≠ 0))).filter (fun a => decide (apply nodes (x a) = apply nodes q))

end YL.Spec

namespace YL.Props
open YL.Crit YL.Tree YL.Spec

variable {A K V M : Type} [AddCommGroup M] [Field K] [LinearOrder K] [IsStrictOrderedRing K]

namespace T

/-- does a sample go left -/
def goes (s : Split K) (q : Nat → K) : Bool := decide (q s.feature ≤ s.threshold)

/-- the numbers of the nodes on the way of a sample -/
def path (q : Nat → K) : Nat → T A K → List Nat
  | id, leaf _ => [id]
  | id, node _ s l r => id :: (if goes s q then path q (id + 1) l else path q (id + 1 + l.size) r)

/-- the number of the leaf of a sample -/
def leafAt (q : Nat → K) : Nat → T A K → Nat
  | id, leaf _ => id
  | id, node _ s l r => if goes s q then leafAt q (id + 1) l else leafAt q (id + 1 + l.size) r

/-- the largest number of splits on a way -/
def height : T A K → Nat
  | leaf _ => 0
  | node _ _ l r => 1 + max l.height r.height

/-- number of leaves -/
def leaves : T A K → Nat
  | leaf _ => 1
  | node _ _ l r => l.leaves + r.leaves

theorem height_lt (t : T A K) : t.height < t.size := by
  induction t with
  | leaf r => simp [height, size]
  | node r s l r' ih1 ih2 => simp only [height, size]; omega

theorem size_leaves (t : T A K) : t.size + 1 = 2 * t.leaves := by
  induction t with
  | leaf r => rfl
  | node r s l r' ih1 ih2 => simp only [size, leaves]; omega

theorem path_range (q : Nat → K) (t : T A K) : ∀ (id i : Nat), i ∈ path q id t → id ≤ i ∧ i < id + t.size := by
  induction t with
  | leaf r => intro id i h; simp [path] at h; simp [size, h]
  | node r s l r' ih1 ih2 =>
    intro id i h
    simp only [path, List.mem_cons] at h
    simp only [size]
    rcases h with h | h
    · omega
    · by_cases hg : goes s q = true
      · rw [if_pos hg] at h
        have := ih1 _ _ h; omega
      · rw [if_neg hg] at h
        have := ih2 _ _ h; omega

theorem leafAt_mem (q : Nat → K) (t : T A K) : ∀ id, leafAt q id t ∈ path q id t := by
  induction t with
  | leaf r => intro id; simp [path, leafAt]
  | node r s l r' ih1 ih2 =>
    intro id
    simp only [path, leafAt]
    by_cases hg : goes s q = true
    · rw [if_pos hg, if_pos hg]; exact List.mem_cons_of_mem _ (ih1 _)
    · rw [if_neg hg, if_neg hg]; exact List.mem_cons_of_mem _ (ih2 _)

theorem leafAt_of_mem (q q' : Nat → K) (t : T A K) : ∀ id, leafAt q id t ∈ path q' id t →
    leafAt q' id t = leafAt q id t := by
  induction t with
  | leaf r => intro id _; rfl
  | node r s l r' ih1 ih2 =>
    intro id h
    simp only [path, leafAt, List.mem_cons] at h ⊢
    by_cases hg : goes s q = true
    · rw [if_pos hg] at h ⊢
      have hr := path_range q l (id + 1) _ (leafAt_mem q l (id + 1))
      rcases h with h | h
      · omega
      · by_cases hg' : goes s q' = true
        · rw [if_pos hg'] at h ⊢; exact ih1 _ h
        · rw [if_neg hg'] at h
          have := path_range q' r' _ _ h; omega
    · rw [if_neg hg] at h ⊢
      have hr := path_range q r' (id + 1 + l.size) _ (leafAt_mem q r' (id + 1 + l.size))
      rcases h with h | h
      · omega
      · by_cases hg' : goes s q' = true
        · rw [if_pos hg'] at h
          have := path_range q' l _ _ h; omega
        · rw [if_neg hg'] at h ⊢; exact ih2 _ h

/-- `nodes` holds the nodes of `t` from number `id` on -/
def Holds (C : Criterion A M K V) (nodes : List (Node K V)) (id : Nat) (t : T A K) : Prop :=
  ∀ i, i < t.size → nodes[id + i]? = (t.flat C id)[i]?

theorem holds_left {C : Criterion A M K V} {nodes : List (Node K V)} {id : Nat} {r : Rec A K} {s : Split K}
    {l r' : T A K} (h : Holds C nodes id (node r s l r')) : Holds C nodes (id + 1) l := by
  intro i hi
  have := h (i + 1) (by simp only [size]; omega)
  rw [show id + 1 + i = id + (i + 1) by omega, this]
  simp only [flat, List.getElem?_cons_succ]
  rw [List.getElem?_append_left (by rw [flat_length]; exact hi)]

theorem holds_right {C : Criterion A M K V} {nodes : List (Node K V)} {id : Nat} {r : Rec A K} {s : Split K}
    {l r' : T A K} (h : Holds C nodes id (node r s l r')) : Holds C nodes (id + 1 + l.size) r' := by
  intro i hi
  have := h (l.size + i + 1) (by simp only [size]; omega)
  rw [show id + 1 + l.size + i = id + (l.size + i + 1) by omega, this]
  simp only [flat, List.getElem?_cons_succ]
  rw [List.getElem?_append_right (by rw [flat_length]; omega), flat_length]
  congr 1
  omega

theorem walk_leaf {C : Criterion A M K V} {nodes : List (Node K V)} (q : Nat → K) (t : T A K) :
    ∀ (id fuel : Nat), Holds C nodes id t → t.height ≤ fuel → walk nodes q fuel id = leafAt q id t := by
  induction t with
  | leaf r =>
    intro id fuel h _
    cases fuel with
    | zero => rfl
    | succ fuel =>
      have := h 0 (by simp [size])
      simp only [Nat.add_zero, flat] at this
      unfold walk
      rw [this]
      rfl
  | node r s l r' ih1 ih2 =>
    intro id fuel h hf
    simp only [height] at hf
    cases fuel with
    | zero => omega
    | succ fuel =>
      have := h 0 (by simp only [size]; omega)
      simp only [Nat.add_zero, flat] at this
      unfold walk
      rw [this]
      simp only [List.getElem?_cons_zero, leafAt]
      by_cases hg : q s.feature ≤ s.threshold
      · rw [if_pos hg, if_pos (by simpa [goes] using hg)]
        exact ih1 _ _ (holds_left h) (by omega)
      · rw [if_neg hg, if_neg (by simpa [goes] using hg)]
        exact ih2 _ _ (holds_right h) (by omega)

theorem walk_path {C : Criterion A M K V} {nodes : List (Node K V)} (q : Nat → K) (t : T A K) :
    ∀ (id : Nat), Holds C nodes id t →
    (∀ k, walk nodes q k id ∈ path q id t) ∧ (∀ i ∈ path q id t, ∃ k, k ≤ t.height ∧ walk nodes q k id = i) := by
  induction t with
  | leaf r =>
    intro id h
    constructor
    · intro k
      rw [walk_leaf q (leaf r) id k h (by simp [height])]
      exact leafAt_mem _ _ _
    · intro i hi
      simp only [path, List.mem_singleton] at hi
      subst hi
      exact ⟨0, by simp, rfl⟩
  | node r s l r' ih1 ih2 =>
    intro id h
    have hnode := h 0 (by simp only [size]; omega)
    simp only [Nat.add_zero, flat, List.getElem?_cons_zero] at hnode
    have hstep : ∀ k, walk nodes q (k + 1) id =
        if goes s q then walk nodes q k (id + 1) else walk nodes q k (id + 1 + l.size) := by
      intro k
      conv_lhs => unfold walk
      rw [hnode]
      simp only
      by_cases hg : q s.feature ≤ s.threshold
      · rw [if_pos hg, if_pos (by simpa [goes] using hg)]
      · rw [if_neg hg, if_neg (by simpa [goes] using hg)]
    constructor
    · intro k
      cases k with
      | zero => simp [walk, path]
      | succ k =>
        rw [hstep]
        simp only [path]
        by_cases hg : goes s q = true
        · rw [if_pos hg, if_pos hg]; exact List.mem_cons_of_mem _ ((ih1 _ (holds_left h)).1 k)
        · rw [if_neg hg, if_neg hg]; exact List.mem_cons_of_mem _ ((ih2 _ (holds_right h)).1 k)
    · intro i hi
      simp only [path, List.mem_cons] at hi
      rcases hi with rfl | hi
      · exact ⟨0, Nat.zero_le _, rfl⟩
      · simp only [height]
        by_cases hg : goes s q = true
        · rw [if_pos hg] at hi
          obtain ⟨k, hk, e⟩ := (ih1 _ (holds_left h)).2 i hi
          exact ⟨k + 1, by omega, by rw [hstep, if_pos hg]; exact e⟩
        · rw [if_neg hg] at hi
          obtain ⟨k, hk, e⟩ := (ih2 _ (holds_right h)).2 i hi
          exact ⟨k + 1, by omega, by rw [hstep, if_neg hg]; exact e⟩

end T

theorem holds_flat (C : Criterion A M K V) (t : T A K) : T.Holds C (t.flat C 0) 0 t := by
  intro i _; rw [Nat.zero_add]

theorem apply_flat (C : Criterion A M K V) (t : T A K) (q : Nat → K) : apply (t.flat C 0) q = T.leafAt q 0 t := by
  unfold apply
  apply T.walk_leaf q t 0 _ (holds_flat C t)
  rw [T.flat_length]
  exact (T.height_lt t).le

theorem reaches_flat (C : Criterion A M K V) (t : T A K) (q : Nat → K) (i : Nat) :
    reaches (t.flat C 0) q i = decide (i ∈ T.path q 0 t) := by
  obtain ⟨h1, h2⟩ := T.walk_path q t 0 (holds_flat C t)
  unfold reaches
  rw [Bool.eq_iff_iff, List.any_eq_true, decide_eq_true_eq]
  constructor
  · rintro ⟨k, _, hk⟩
    rw [decide_eq_true_eq] at hk
    rw [← hk]; exact h1 k
  · intro hi
    obtain ⟨k, hk, e⟩ := h2 i hi
    refine ⟨k, ?_, by simpa using e⟩
    rw [List.mem_range, T.flat_length]
    have := T.height_lt t
    omega

theorem grow_none {P : Params A K} {C : Criterion A M K V} {x : A → Nat → K} {draw : Nat → List Nat} {fuel id : Nat}
    {r : Rec A K} (hs : splitOf P C x draw id r = none) : grow P C x draw (fuel + 1) id r = .leaf r := by
  unfold grow; rw [hs]

theorem grow_some {P : Params A K} {C : Criterion A M K V} {x : A → Nat → K} {draw : Nat → List Nat} {fuel id : Nat}
    {r : Rec A K} {s : Found A K} (hs : splitOf P C x draw id r = some s) : ∃ tl tr,
    tl = grow P C x draw fuel (id + 1) (leftRec id r s) ∧
    tr = grow P C x draw fuel (id + 1 + tl.size) (rightRec id r s) ∧
    grow P C x draw (fuel + 1) id r = .node r s.split tl tr := by
  refine ⟨_, _, rfl, rfl, ?_⟩
  conv_lhs => unfold grow
  rw [hs]

/-- the records of the nodes in preorder -/
def T.recs : T A K → List (Rec A K)
  | .leaf r => [r]
  | .node r _ l r' => r :: (l.recs ++ r'.recs)

theorem T.recs_length (t : T A K) : t.recs.length = t.size := by
  induction t with
  | leaf r => rfl
  | node r s l r' ih1 ih2 => simp [T.recs, T.size, ih1, ih2]; omega

/-- what is known about the node number `id` of a grown tree, from the record it was made of -/
def NodeFacts (P : Params A K) (C : Criterion A M K V) (x : A → Nat → K) (draw : Nat → List Nat) (id : Nat)
    (r : Rec A K) (n : Node K V) : Prop :=
  n.impurity = r.impurity ∧ n.samples = r.rows.length ∧ n.value = nodeVal C r.rows ∧
  match splitOf P C x draw id r with
  | none => n.left = none ∧ n.right = none
  | some s => n.left ≠ none ∧ n.right ≠ none ∧ n.feature = s.split.feature ∧ n.threshold = s.split.threshold

theorem grow_nodes {P : Params A K} {C : Criterion A M K V} (hP : SoundParams P) (hC : SoundCriterion C)
    (x : A → Nat → K) (draw : Nat → List Nat) : ∀ (fuel id : Nat) (r : Rec A K), r.rows.length ≤ fuel →
    ∀ i, i < (grow P C x draw fuel id r).size → ∃ (r' : Rec A K) (n : Node K V),
      ((grow P C x draw fuel id r).flat C id)[i]? = some n ∧
      r'.rows.Perm (r.rows.filter (fun a => decide (id + i ∈ T.path (x a) id (grow P C x draw fuel id r)))) ∧
      (i = 0 ∧ r' = r ∨ 0 < r'.rows.length ∧ P.minSamplesLeaf ≤ r'.rows.length) ∧
      NodeFacts P C x draw (id + i) r' n ∧ r'.depth ≤ (grow P C x draw fuel id r).maxDepth ∧
      (grow P C x draw fuel id r).recs[i]? = some r' := by
  intro fuel
  have leafcase : ∀ (id : Nat) (r : Rec A K), splitOf P C x draw id r = none →
      ∀ i, i < (T.leaf r : T A K).size → ∃ (r' : Rec A K) (n : Node K V),
        ((T.leaf r).flat C id)[i]? = some n ∧
        r'.rows.Perm (r.rows.filter (fun a => decide (id + i ∈ T.path (x a) id (T.leaf r)))) ∧
        (i = 0 ∧ r' = r ∨ 0 < r'.rows.length ∧ P.minSamplesLeaf ≤ r'.rows.length) ∧
        NodeFacts P C x draw (id + i) r' n ∧ r'.depth ≤ (T.leaf r : T A K).maxDepth ∧
        (T.leaf r : T A K).recs[i]? = some r' := by
    intro id r hs i hi
    have : i = 0 := by simpa [T.size] using hi
    subst this
    refine ⟨r, _, rfl, ?_, Or.inl ⟨rfl, rfl⟩, ⟨rfl, rfl, rfl, ?_⟩, le_refl _, rfl⟩
    · simp [T.path]
    · rw [Nat.add_zero, hs]; exact ⟨rfl, rfl⟩
  induction fuel with
  | zero =>
    intro id r hr
    exact leafcase id r (splitOf_nil hP hC x draw id r (by omega))
  | succ fuel ih =>
    intro id r hr
    cases hs : splitOf P C x draw id r with
    | none => rw [grow_none hs]; exact leafcase id r hs
    | some s =>
      obtain ⟨l1, l2, l3, l4, l5⟩ := split_lengths hP hC x draw id r s hs
      obtain ⟨s1, s2, s3, _⟩ := splitOf_spec hP hC x draw id r s hs
      obtain ⟨tl, tr, htl, htr, hgr⟩ := grow_some (fuel := fuel) hs
      rw [hgr]
      intro i hi
      cases i with
      | zero =>
        refine ⟨r, _, rfl, ?_, Or.inl ⟨rfl, rfl⟩, ⟨rfl, rfl, rfl, ?_⟩, le_max_left _ _, rfl⟩
        · simp [T.path]
        · rw [Nat.add_zero, hs]; simp
      | succ i =>
        simp only [T.size] at hi
        simp only [T.flat, List.getElem?_cons_succ]
        by_cases hil : i < tl.size
        · obtain ⟨r', n, e1, e2, e3, e4, e5, e6⟩ := ih (id + 1) (leftRec id r s) (by omega) i (by rw [← htl]; exact hil)
          rw [← htl] at e1 e2 e5 e6
          refine ⟨r', n, ?_, ?_, ?_, ?_, le_trans e5 (le_trans (le_max_left _ _) (le_max_right _ _)), by
            simp only [T.recs, List.getElem?_cons_succ]
            rw [List.getElem?_append_left (by rw [T.recs_length]; exact hil)]; exact e6⟩
          · rw [List.getElem?_append_left (by rw [T.flat_length]; exact hil)]; exact e1
          · refine e2.trans ?_
            refine (s2.filter _).trans ?_
            rw [List.filter_filter]
            apply List.Perm.of_eq
            apply List.filter_congr
            intro a _
            simp only [T.path, List.mem_cons]
            by_cases hg : T.goes s.split (x a) = true
            · rw [if_pos hg]
              have : cut x s.split.feature s.split.threshold a = true := hg
              rw [this, Bool.and_true]
              have e : id + 1 + i = id + (i + 1) := by omega
              rw [e]
              simp
            · rw [if_neg hg]
              have : cut x s.split.feature s.split.threshold a = false := by
                simp only [Bool.not_eq_true] at hg; exact hg
              rw [this, Bool.and_false]
              symm
              rw [decide_eq_false_iff_not]
              rintro (h | h)
              · omega
              · have := T.path_range (x a) tr _ _ h; omega
          · right
            rcases e3 with ⟨_, rfl⟩ | e3
            · exact ⟨l1, l4⟩
            · exact e3
          · rw [show id + (i + 1) = id + 1 + i by omega]; exact e4
        · obtain ⟨r', n, e1, e2, e3, e4, e5, e6⟩ := ih (id + 1 + tl.size) (rightRec id r s) (by omega) (i - tl.size) (by
            rw [← htr]; omega)
          rw [← htr] at e1 e2 e5 e6
          refine ⟨r', n, ?_, ?_, ?_, ?_, le_trans e5 (le_trans (le_max_right _ _) (le_max_right _ _)), by
            simp only [T.recs, List.getElem?_cons_succ]
            rw [List.getElem?_append_right (by rw [T.recs_length]; omega), T.recs_length]; exact e6⟩
          · rw [List.getElem?_append_right (by rw [T.flat_length]; omega), T.flat_length]; exact e1
          · refine e2.trans ?_
            refine (s3.filter _).trans ?_
            rw [List.filter_filter]
            apply List.Perm.of_eq
            apply List.filter_congr
            intro a _
            simp only [T.path, List.mem_cons]
            by_cases hg : T.goes s.split (x a) = true
            · rw [if_pos hg]
              have : cut x s.split.feature s.split.threshold a = true := hg
              rw [this, Bool.not_true, Bool.and_false]
              symm
              rw [decide_eq_false_iff_not]
              rintro (h | h)
              · omega
              · have := T.path_range (x a) tl _ _ h; omega
            · rw [if_neg hg]
              have : cut x s.split.feature s.split.threshold a = false := by
                simp only [Bool.not_eq_true] at hg; exact hg
              rw [this, Bool.not_false, Bool.and_true]
              have e : id + 1 + tl.size + (i - tl.size) = id + (i + 1) := by omega
              rw [e]
              simp
          · right
            rcases e3 with ⟨_, rfl⟩ | e3
            · exact ⟨l2, l5⟩
            · exact e3
          · rw [show id + (i + 1) = id + 1 + tl.size + (i - tl.size) by omega]; exact e4

/-- node `i` of the tree `build` returns -/
theorem build_node {P : Params A K} {C : Criterion A M K V} (hP : SoundParams P) (hC : SoundCriterion C)
    (x : A → Nat → K) (w : A → K) (draw : Nat → List Nat) (train : List A) {i : Nat}
    (hi : i < (build P C x w draw train).1.length) : ∃ (r : Rec A K) (n : Node K V),
      (build P C x w draw train).1[i]? = some n ∧
      r.rows.Perm (through (build P C x w draw train).1 x w train i) ∧
      (i = 0 ∧ r = rootRec C (active w train) ∨ 0 < r.rows.length ∧ P.minSamplesLeaf ≤ r.rows.length) ∧
      NodeFacts P C x draw i r n ∧ r.depth ≤ (build P C x w draw train).2 ∧
      (tree P C x w draw train).recs[i]? = some r := by
  rw [build_eq hP hC] at hi ⊢
  simp only [T.flat_length] at hi
  obtain ⟨r, n, h1, h2, h3, h4, h5, h6⟩ := grow_nodes hP hC x draw (active w train).length 0 (rootRec C (active w train))
    (le_refl _) i hi
  refine ⟨r, n, h1, ?_, h3, by simpa using h4, h5, h6⟩
  refine h2.trans (List.Perm.of_eq ?_)
  unfold through
  show (active w train).filter _ = (active w train).filter _
  apply List.filter_congr
  intro a _
  rw [reaches_flat, Nat.zero_add, Bool.eq_iff_iff, decide_eq_true_eq, decide_eq_true_eq]
  exact Iff.rfl

theorem nodeVal_eq (C : Criterion A M K V) (l : List A) : nodeVal C l = C.value (l.map C.contrib).sum := by
  unfold nodeVal; rw [init_total]

theorem leaf_lt {P : Params A K} {C : Criterion A M K V} (hP : SoundParams P) (hC : SoundCriterion C)
    (x : A → Nat → K) (w : A → K) (draw : Nat → List Nat) (train : List A) (q : Nat → K) :
    apply (build P C x w draw train).1 q < (build P C x w draw train).1.length := by
  rw [build_eq hP hC, apply_flat]
  simp only [T.flat_length]
  have := T.path_range q (tree P C x w draw train) 0 _ (T.leafAt_mem q _ 0)
  omega

theorem through_leaf {P : Params A K} {C : Criterion A M K V} (hP : SoundParams P) (hC : SoundCriterion C)
    (x : A → Nat → K) (w : A → K) (draw : Nat → List Nat) (train : List A) (q : Nat → K) :
    through (build P C x w draw train).1 x w train (apply (build P C x w draw train).1 q) =
      sameLeaf (build P C x w draw train).1 x w train q := by
  rw [build_eq hP hC]
  unfold through sameLeaf
  apply List.filter_congr
  intro a _
  simp only
  rw [reaches_flat, apply_flat, apply_flat]
  congr 1
  rw [eq_iff_iff]
  constructor
  · exact fun h => T.leafAt_of_mem q (x a) _ 0 h
  · intro h; rw [← h]; exact T.leafAt_mem _ _ _

/-- **C81.** Whatever is drawn, sorted and rounded, the prediction at `q` is the criterion's node value of exactly the
training samples (with nonzero weight) that end in the same leaf as `q`. -/
theorem C81_prediction {P : Params A K} {C : Criterion A M K V} (hP : SoundParams P) (hC : SoundCriterion C)
    (x : A → Nat → K) (w : A → K) (draw : Nat → List Nat) (train : List A) (q : Nat → K) :
    predict (build P C x w draw train).1 q =
      some (C.value ((sameLeaf (build P C x w draw train).1 x w train q).map C.contrib).sum) := by
  obtain ⟨r, n, h1, h2, h3, h4, _⟩ := build_node hP hC x w draw train (leaf_lt hP hC x w draw train q)
  unfold predict
  rw [h1, Option.map_some, h4.2.2.1, nodeVal_eq, (h2.map C.contrib).sum_eq, through_leaf hP hC]

theorem leaf_is_leaf {P : Params A K} {C : Criterion A M K V} (hP : SoundParams P) (hC : SoundCriterion C)
    (x : A → Nat → K) (w : A → K) (draw : Nat → List Nat) (train : List A) (q : Nat → K) :
    ∃ n, (build P C x w draw train).1[apply (build P C x w draw train).1 q]? = some n ∧ n.left = none ∧
      n.right = none := by
  rw [build_eq hP hC, apply_flat]
  simp only
  have key : ∀ (t : T A K) (id : Nat) (nodes : List (Node K V)), T.Holds C nodes id t →
      ∃ n, nodes[T.leafAt q id t]? = some n ∧ n.left = none ∧ n.right = none := by
    intro t
    induction t with
    | leaf r =>
      intro id nodes h
      have := h 0 (by simp [T.size])
      exact ⟨_, this, rfl, rfl⟩
    | node r s l r' ih1 ih2 =>
      intro id nodes h
      simp only [T.leafAt]
      split
      · exact ih1 _ _ (T.holds_left h)
      · exact ih2 _ _ (T.holds_right h)
  exact key _ 0 _ (holds_flat C _)

/-- **C82.** Every query ends in a leaf; a leaf stores how many training samples it holds, and unless the tree is a
single node it holds at least `min_samples_leaf` of them, and at least one. -/
theorem C82_leaf_size {P : Params A K} {C : Criterion A M K V} (hP : SoundParams P) (hC : SoundCriterion C)
    (x : A → Nat → K) (w : A → K) (draw : Nat → List Nat) (train : List A) (q : Nat → K) :
    ∃ n, (build P C x w draw train).1[apply (build P C x w draw train).1 q]? = some n ∧ n.left = none ∧
      n.right = none ∧ n.samples = (sameLeaf (build P C x w draw train).1 x w train q).length ∧
      (1 < (build P C x w draw train).1.length → P.minSamplesLeaf ≤ n.samples ∧ 0 < n.samples) := by
  obtain ⟨r, n, h1, h2, h3, h4, _⟩ := build_node hP hC x w draw train (leaf_lt hP hC x w draw train q)
  obtain ⟨n', g1, g2, g3⟩ := leaf_is_leaf hP hC x w draw train q
  rw [h1] at g1
  cases g1
  refine ⟨n, h1, g2, g3, ?_, ?_⟩
  · rw [h4.2.1, h2.length_eq, through_leaf hP hC]
  · intro hsz
    rcases h3 with ⟨h0, rfl⟩ | h3
    · exfalso
      have hsp := h4.2.2.2
      rw [h0] at hsp
      rw [build_eq hP hC] at hsz
      simp only [T.flat_length] at hsz
      unfold tree at hsz
      cases hl : (active w train).length with
      | zero => rw [hl] at hsz; simp [grow, T.size] at hsz
      | succ k =>
        rw [hl] at hsz
        unfold grow at hsz
        cases hs : splitOf P C x draw 0 (rootRec C (active w train)) with
        | none => rw [hs] at hsz; simp [T.size] at hsz
        | some s => rw [hs] at hsp; exact hsp.1 g2
    · rw [h4.2.1]; exact ⟨h3.2, h3.1⟩

theorem grow_depth {P : Params A K} {C : Criterion A M K V} (hP : SoundParams P) (hC : SoundCriterion C)
    (x : A → Nat → K) (draw : Nat → List Nat) : ∀ (fuel id : Nat) (r : Rec A K),
    (grow P C x draw fuel id r).maxDepth = r.depth + (grow P C x draw fuel id r).height ∧
    (r.depth ≤ P.maxDepth → r.depth + (grow P C x draw fuel id r).height ≤ P.maxDepth) ∧
    (0 < r.rows.length → ∃ a ∈ r.rows, ∀ nodes : List (Node K V), T.Holds C nodes id (grow P C x draw fuel id r) →
      ∀ k, k < (grow P C x draw fuel id r).height →
        walk nodes (x a) k id ≠ T.leafAt (x a) id (grow P C x draw fuel id r)) := by
  intro fuel
  have leafcase : ∀ (id : Nat) (r : Rec A K), (T.leaf r).maxDepth = r.depth + (T.leaf r).height ∧
      (r.depth ≤ P.maxDepth → r.depth + (T.leaf r).height ≤ P.maxDepth) ∧
      (0 < r.rows.length → ∃ a ∈ r.rows, ∀ nodes : List (Node K V), T.Holds C nodes id (T.leaf r) →
        ∀ k, k < (T.leaf r).height → walk nodes (x a) k id ≠ T.leafAt (x a) id (T.leaf r)) := by
    intro id r
    refine ⟨rfl, fun h => h, ?_⟩
    intro h
    obtain ⟨a, ha⟩ := List.exists_mem_of_length_pos h
    exact ⟨a, ha, by intro _ _ k hk; simp [T.height] at hk⟩
  induction fuel with
  | zero => intro id r; exact leafcase id r
  | succ fuel ih =>
    intro id r
    cases hs : splitOf P C x draw id r with
    | none => rw [grow_none hs]; exact leafcase id r
    | some s =>
      obtain ⟨l1, l2, l3, l4, l5⟩ := split_lengths hP hC x draw id r s hs
      obtain ⟨s1, s2, s3, _, s5, _⟩ := splitOf_spec hP hC x draw id r s hs
      obtain ⟨tl, tr, htl, htr, hgr⟩ := grow_some (fuel := fuel) hs
      rw [hgr]
      obtain ⟨a1, a2, a3⟩ := ih (id + 1) (leftRec id r s)
      obtain ⟨b1, b2, b3⟩ := ih (id + 1 + tl.size) (rightRec id r s)
      rw [← htl] at a1 a2 a3
      rw [← htr] at b1 b2 b3
      have dl : (leftRec id r s).depth = r.depth + 1 := rfl
      have dr : (rightRec id r s).depth = r.depth + 1 := rfl
      have hlt : r.depth < P.maxDepth := by
        unfold stops at s5
        simp only [Bool.or_eq_false_iff, decide_eq_false_iff_not, not_le] at s5
        exact s5.1.1.1.1
      refine ⟨?_, ?_, ?_⟩
      · simp only [T.maxDepth, T.height]; omega
      · intro _
        have := a2 (by omega)
        have := b2 (by omega)
        simp only [T.height]; omega
      · intro _
        have hstep : ∀ (nodes : List (Node K V)) (q : Nat → K) (k : Nat), T.Holds C nodes id (T.node r s.split tl tr) →
            walk nodes q (k + 1) id =
              if T.goes s.split q then walk nodes q k (id + 1) else walk nodes q k (id + 1 + tl.size) := by
          intro nodes q k h
          have hnode := h 0 (by simp only [T.size]; omega)
          simp only [Nat.add_zero, T.flat, List.getElem?_cons_zero] at hnode
          conv_lhs => unfold walk
          rw [hnode]
          simp only
          by_cases hg : q s.split.feature ≤ s.split.threshold
          · rw [if_pos hg, if_pos (by simpa [T.goes] using hg)]
          · rw [if_neg hg, if_neg (by simpa [T.goes] using hg)]
        by_cases hh : tr.height ≤ tl.height
        · obtain ⟨a, ha, hn⟩ := a3 l1
          have ham : a ∈ r.rows.filter (cut x s.split.feature s.split.threshold) := s2.subset ha
          obtain ⟨hmem, hcut⟩ := List.mem_filter.mp ham
          have hgo : T.goes s.split (x a) = true := hcut
          refine ⟨a, hmem, ?_⟩
          intro nodes hH k hk
          simp only [T.leafAt, if_pos hgo]
          cases k with
          | zero =>
            have := T.path_range (x a) tl (id + 1) _ (T.leafAt_mem (x a) tl (id + 1))
            simp only [walk]; omega
          | succ k =>
            rw [hstep nodes (x a) k hH, if_pos hgo]
            exact hn nodes (T.holds_left hH) k (by simp only [T.height] at hk; omega)
        · obtain ⟨a, ha, hn⟩ := b3 l2
          have ham : a ∈ r.rows.filter (fun a => !cut x s.split.feature s.split.threshold a) := s3.subset ha
          obtain ⟨hmem, hcut⟩ := List.mem_filter.mp ham
          have hgo : ¬ T.goes s.split (x a) = true := by
            have : cut x s.split.feature s.split.threshold a = false := by simpa using hcut
            show ¬ cut x s.split.feature s.split.threshold a = true
            simp [this]
          refine ⟨a, hmem, ?_⟩
          intro nodes hH k hk
          simp only [T.leafAt, if_neg hgo]
          cases k with
          | zero =>
            have := T.path_range (x a) tr (id + 1 + tl.size) _ (T.leafAt_mem (x a) tr (id + 1 + tl.size))
            simp only [walk]; omega
          | succ k =>
            rw [hstep nodes (x a) k hH, if_neg hgo]
            exact hn nodes (T.holds_right hH) k (by simp only [T.height] at hk; omega)

/-- **C82.** The reported depth is exact: it is at most `max_depth`, every query is in its leaf after that many steps,
and (if there is any training sample) some training sample needs all of them. -/
theorem C82_depth {P : Params A K} {C : Criterion A M K V} (hP : SoundParams P) (hC : SoundCriterion C)
    (x : A → Nat → K) (w : A → K) (draw : Nat → List Nat) (train : List A) :
    (build P C x w draw train).2 ≤ P.maxDepth ∧
    (∀ q, walk (build P C x w draw train).1 q (build P C x w draw train).2 0 =
      apply (build P C x w draw train).1 q) ∧
    (active w train ≠ [] → ∃ a ∈ active w train, ∀ k, k < (build P C x w draw train).2 →
      walk (build P C x w draw train).1 (x a) k 0 ≠ apply (build P C x w draw train).1 (x a)) := by
  rw [build_eq hP hC]
  obtain ⟨d1, d2, d3⟩ := grow_depth (V := V) hP hC x draw (active w train).length 0 (rootRec C (active w train))
  have e : (tree P C x w draw train).maxDepth = (tree P C x w draw train).height := by
    have : (rootRec C (active w train)).depth = 0 := rfl
    unfold tree; omega
  simp only
  rw [e]
  refine ⟨?_, ?_, ?_⟩
  · have := d2 (Nat.zero_le _)
    have h0 : (rootRec C (active w train)).depth = 0 := rfl
    unfold tree; omega
  · intro q
    rw [apply_flat]
    exact T.walk_leaf q _ 0 _ (holds_flat C _) (le_refl _)
  · intro hne
    obtain ⟨a, ha, hn⟩ := d3 (List.length_pos_of_ne_nil hne)
    refine ⟨a, ha, ?_⟩
    intro k hk
    rw [apply_flat]
    exact hn _ (holds_flat C _) k hk

/-- **C82.** `get_n_leaves` counts the leaves: there is one leaf more than there are splits. -/
theorem C82_leaves {P : Params A K} {C : Criterion A M K V} (hP : SoundParams P) (hC : SoundCriterion C)
    (x : A → Nat → K) (w : A → K) (draw : Nat → List Nat) (train : List A) :
    ((build P C x w draw train).1.filter (fun n => n.left.isNone && n.right.isNone)).length =
      ((build P C x w draw train).1.filter (fun n => !(n.left.isNone && n.right.isNone))).length + 1 := by
  rw [build_eq hP hC]
  simp only
  have key : ∀ (t : T A K) (id : Nat),
      ((t.flat C id).filter (fun n => n.left.isNone && n.right.isNone)).length =
        ((t.flat C id).filter (fun n => !(n.left.isNone && n.right.isNone))).length + 1 := by
    intro t
    induction t with
    | leaf r => intro id; simp [T.flat]
    | node r s l r' ih1 ih2 =>
      intro id
      have h1 := ih1 (id + 1)
      have h2 := ih2 (id + 1 + l.size)
      simp only [T.flat]
      rw [List.filter_cons_of_neg (by simp), List.filter_cons_of_pos (by simp), List.filter_append,
        List.filter_append]
      simp only [List.length_append, List.length_cons]
      omega
  exact key _ 0

/-- **C83.** Every inner node splits the training samples that reach it by an admissible cut (both sides have at least
`min_samples_leaf` samples) with the highest score among all admissible cuts along the features drawn at that node. -/
theorem C83_best_split {P : Params A K} {C : Criterion A M K V} (hP : SoundParams P) (hC : SoundCriterion C)
    (x : A → Nat → K) (w : A → K) (draw : Nat → List Nat) (train : List A) {i : Nat} {n : Node K V}
    (hi : (build P C x w draw train).1[i]? = some n) (hn : n.left ≠ none) :
    let S := through (build P C x w draw train).1 x w train i
    n.samples = S.length ∧ n.value = C.value (S.map C.contrib).sum ∧
    Admissible P C x S n.feature n.threshold ∧
    ∀ f ∈ draw i, ∀ t, Admissible P C x S f t → Apart P.thr x S f t →
      score C x S f t ≤ score C x S n.feature n.threshold := by
  intro S
  obtain ⟨hlt, _⟩ := List.getElem?_eq_some_iff.mp hi
  obtain ⟨r, n', h1, h2, h3, h4, _⟩ := build_node hP hC x w draw train hlt
  rw [hi] at h1
  cases h1
  obtain ⟨f1, f2, f3, f4⟩ := h4
  cases hs : splitOf P C x draw i r with
  | none => rw [hs] at f4; exact absurd f4.1 hn
  | some s =>
    rw [hs] at f4
    obtain ⟨s1, s2, s3, s4, _⟩ := splitOf_spec hP hC x draw i r s hs
    refine ⟨?_, ?_, ?_, ?_⟩
    · rw [f2, h2.length_eq]
    · rw [f3, nodeVal_eq, (h2.map C.contrib).sum_eq]
    · rw [f4.2.2.1, f4.2.2.2]; exact admissible_perm h2 s1
    · intro f hf t ha hap
      rw [f4.2.2.1, f4.2.2.2, ← score_perm h2, ← score_perm h2]
      refine s4 f hf t (admissible_perm h2.symm ha) ?_
      intro a ha' b hb'
      exact hap a (h2.subset ha') b (h2.subset hb')

/-- **C83.** When the depth limit does not bind, a leaf is a leaf for one of the documented reasons: too few samples,
too little weight, an impurity of at most `eps`, no admissible cut along the drawn features, or an improvement of the
best cut below `min_impurity_decrease`. -/
theorem C83_leaf_reason {P : Params A K} {C : Criterion A M K V} (hP : SoundParams P) (hC : SoundCriterion C)
    (x : A → Nat → K) (w : A → K) (draw : Nat → List Nat) (train : List A) {i : Nat} {n : Node K V}
    (hi : (build P C x w draw train).1[i]? = some n) (hn : n.left = none)
    (hd : (build P C x w draw train).2 < P.maxDepth) :
    let S := through (build P C x w draw train).1 x w train i
    S.length < P.minSamplesSplit ∨ S.length < 2 * P.minSamplesLeaf ∨
    (∃ l, l.Perm S ∧ C.weight l < 2 * P.minWeightLeaf) ∨ n.impurity ≤ P.eps ∨
    (∀ f ∈ draw i, ∀ t, Admissible P C x S f t → ¬ Apart P.thr x S f t) ∨
    (∃ f t, Admissible P C x S f t ∧
      (∀ g ∈ draw i, ∀ u, Admissible P C x S g u → Apart P.thr x S g u → score C x S g u ≤ score C x S f t) ∧
      ∃ l r : K, C.improvement n.impurity l r (cutState C.contrib S (cut x f t)) + P.eps < P.minDecrease) := by
  intro S
  obtain ⟨hlt, _⟩ := List.getElem?_eq_some_iff.mp hi
  obtain ⟨r, n', h1, h2, h3, h4, h5⟩ := build_node hP hC x w draw train hlt
  rw [hi] at h1
  cases h1
  obtain ⟨f1, f2, f3, f4⟩ := h4
  have hlen : r.rows.length = S.length := h2.length_eq
  cases hs : splitOf P C x draw i r with
  | some s => rw [hs] at f4; exact absurd hn f4.1
  | none =>
    unfold splitOf at hs
    by_cases hst : stops P C r = true
    · unfold stops at hst
      simp only [Bool.or_eq_true, decide_eq_true_eq] at hst
      rcases hst with (((h | h) | h) | h) | h
      · omega
      · left; omega
      · right; left; omega
      · right; right; left; exact ⟨r.rows, h2, h⟩
      · right; right; right; left; rw [f1]; exact h
    · rw [if_neg hst] at hs
      have hsp := nodeSplit_spec hP hC x (draw i) r.rows r.impurity
      cases hns : nodeSplit P C x (draw i) r.rows r.impurity with
      | none =>
        rw [hns] at hsp
        right; right; right; right; left
        intro f hf t ha hap
        refine hsp f hf t (admissible_perm h2.symm ha) ?_
        intro a ha' b hb'
        exact hap a (h2.subset ha') b (h2.subset hb')
      | some s =>
        rw [hns] at hs hsp
        simp only at hs hsp
        obtain ⟨s1, s2, s3, s4, s5, h, _, s7, s8⟩ := hsp
        by_cases him : s.improvement + P.eps < P.minDecrease
        · right; right; right; right; right
          refine ⟨_, _, admissible_perm h2 s1, ?_, s.impurityLeft, s.impurityRight, ?_⟩
          · intro g hg u ha hap
            rw [← score_perm h2, ← score_perm h2]
            refine s5 g hg u (admissible_perm h2.symm ha) ?_
            intro a ha' b hb'
            exact hap a (h2.subset ha') b (h2.subset hb')
          · rw [s8, cutState_perm C.contrib h2, ← f1] at him
            exact him
        · rw [if_neg him] at hs; cases hs

/-! ### `CausalTree` -/

theorem honestCMSE_sound (eps alpha : K) : SoundCriterion (honestCMSE eps alpha) := by
  intro h c p h1 h2 h3 h4 h5
  have hinv : CritInv h { c with right := (segment h c.pos c.stop).sum } :=
    ⟨h1, le_trans h2 h3, h4, h5, rfl⟩
  obtain ⟨u1, u2, u3, u4, u5⟩ := critInv_update (c := { c with right := (segment h c.pos c.stop).sum }) hinv h2 h3
  have e : update h { c with right := (segment h c.pos c.stop).sum } p = update h c p := by
    unfold update reverseReset
    simp only
    split <;> rfl
  rw [e] at u1 u2 u3 u4 u5
  have f1 : (update h c p).start = c.start := by unfold update reverseReset; simp only; split <;> rfl
  have f2 : (update h c p).stop = c.stop := by unfold update reverseReset; simp only; split <;> rfl
  have f3 : (update h c p).total = c.total := by unfold update reverseReset; simp only; split <;> rfl
  have f4 : (update h c p).pos = p := rfl
  show update h c p = _
  rw [f1, f4] at u4
  rw [f2, f4] at u5
  generalize update h c p = d at *
  obtain ⟨a, b, q, t, l, r⟩ := d
  simp only at f1 f2 f3 f4 u4 u5
  subst f1 f2 f3 f4 u4 u5
  rfl

/-- the treated rows of the data, as samples -/
def treatedSamples (treat : List Nat) (rows : List (Row K)) : List (Sample K) :=
  (rows.filter (fun r => decide (r.x = treat))).map (fun r => ⟨r.wv, 1, r.y⟩)

theorem active_arms (treat control : List Nat) (rows : List (Row K)) :
    active (fun a => a.w) (arms treat control rows) = treatedSamples treat rows := by
  unfold active arms treatedSamples
  induction rows with
  | nil => rfl
  | cons r rows ih =>
    by_cases ht : r.x = treat
    · rw [List.filter_cons_of_pos (by simp [ht]), List.map_cons, List.filter_cons_of_pos (by simp [ht]), ih,
        List.filter_cons_of_pos (by simp [ht]), List.map_cons]
      simp [ht]
    · rw [List.filter_cons_of_neg (p := fun r : Row K => decide (r.x = treat)) (by simp [ht])]
      by_cases hc : r.x = control
      · rw [List.filter_cons_of_pos (by simp [hc]), List.map_cons, List.filter_cons_of_neg (by simp [ht]), ih]
      · rw [List.filter_cons_of_neg (by simp [hc, ht]), ih]

/-- **C84.** A `CausalTree` grown without honest estimation does not depend on the control rows at all: two data sets
with the same treated rows, and any control rows whatever, give the same tree and the same predictions. -/
theorem C84_controls_ignored (P : Params (Sample K) K) (eps alpha : K) (draw : Nat → List Nat)
    (treat control : List Nat) (rows rows' : List (Row K))
    (h : rows.filter (fun r => decide (r.x = treat)) = rows'.filter (fun r => decide (r.x = treat))) :
    (fit P eps alpha draw treat control none rows).nodes = (fit P eps alpha draw treat control none rows').nodes ∧
    (fit P eps alpha draw treat control none rows).depth = (fit P eps alpha draw treat control none rows').depth := by
  have e : active (fun a : Sample K => a.w) (arms treat control rows) =
      active (fun a => a.w) (arms treat control rows') := by
    rw [active_arms, active_arms]; unfold treatedSamples; rw [h]
  unfold fit build
  simp only [e]
  exact ⟨trivial, trivial⟩

/-- **C84.** What it predicts is the (shrunk) mean outcome of the treated rows in the leaf, not an effect. -/
theorem C84_prediction {P : Params (Sample K) K} (hP : SoundParams P) (eps alpha : K) (draw : Nat → List Nat)
    (treat control : List Nat) (rows : List (Row K)) (q : Nat → K) :
    let nodes := (fit P eps alpha draw treat control none rows).nodes
    let leaf := rows.filter (fun r => decide (r.x = treat) && decide (apply nodes r.wv = apply nodes q))
    predict nodes q = some ((leaf.map (fun r => r.y)).sum / ((leaf.length : K) + eps)) := by
  intro nodes leaf
  have h := C81_prediction hP (honestCMSE_sound eps alpha) (fun a => a.x) (fun a => a.w) draw
    (arms treat control rows) q
  show predict (build P (honestCMSE eps alpha) (fun a => a.x) (fun a => a.w) draw (arms treat control rows)).1 q = _
  rw [h]
  congr 1
  have e : sameLeaf nodes (fun a : Sample K => a.x) (fun a => a.w) (arms treat control rows) q =
      leaf.map (fun r => (⟨r.wv, 1, r.y⟩ : Sample K)) := by
    unfold sameLeaf
    have := active_arms treat control rows
    unfold active at this
    rw [this]
    unfold treatedSamples
    rw [List.filter_map, List.filter_filter]
    congr 1
    apply List.filter_congr
    intro r _
    simp [Bool.and_comm]
  show nodeValue eps ((sameLeaf nodes (fun a : Sample K => a.x) (fun a => a.w) (arms treat control rows) q).map
    (fun a => contrib (a.w, a.y))).sum = _
  rw [e, List.map_map]
  have hn := nodeValue_eq eps (leaf.map (fun r => ((1 : K), r.y)))
  unfold statsOf at hn
  rw [List.map_map] at hn
  show nodeValue eps (leaf.map (contrib ∘ fun r => ((1 : K), r.y))).sum = _
  rw [hn]
  have a1 : arm true (leaf.map (fun r => ((1 : K), r.y))) = leaf.map (fun r => r.y) := by
    unfold arm
    rw [List.filter_eq_self.mpr (by intro a ha; obtain ⟨r, _, rfl⟩ := List.mem_map.mp ha; simp)]
    simp [Function.comp_def]
  have a0 : arm false (leaf.map (fun r => ((1 : K), r.y))) = [] := by
    unfold arm
    rw [List.filter_eq_nil_iff.mpr (by intro a ha; obtain ⟨r, _, rfl⟩ := List.mem_map.mp ha; simp)]
    rfl
  rw [a1, a0]
  simp

/-! ### witnesses -/

/-- Sorting by insertion and the exact midpoint meet the assumptions. -/
def stdParams (K A : Type) [Field K] [LinearOrder K] (mss msl md : Nat) : Params A K where
  minSamplesSplit := mss
  minSamplesLeaf := msl
  minWeightLeaf := 0
  maxDepth := md
  minDecrease := 0
  eps := 0
  thr := 0
  sort g l := l.insertionSort (fun a b => g a ≤ g b)
  mid a b := (a + b) / 2

theorem stdParams_sound (mss msl md : Nat) : SoundParams (stdParams K A mss msl md) where
  perm g l := List.perm_insertionSort _ l
  sorted g l := by
    haveI : Std.Total (fun a b : A => g a ≤ g b) := ⟨fun a b => le_total (g a) (g b)⟩
    haveI : IsTrans A (fun a b => g a ≤ g b) := ⟨fun a b c => le_trans⟩
    exact List.pairwise_insertionSort _ l
  mid a b h := by
    constructor
    · show a ≤ (a + b) / 2
      linarith
    · show (a + b) / 2 ≤ b
      linarith
  thr := le_refl _

/-- two treated and two control rows; the outcome is 10 for everyone with a small covariate and 20 for the others, in
either arm: the treatment has no effect -/
def noEffectRows : List (Row ℚ) :=
  [⟨[1], fun _ => 0, 10⟩, ⟨[0], fun _ => 0, 10⟩, ⟨[1], fun _ => 1, 20⟩, ⟨[0], fun _ => 1, 20⟩]

/-- the tree grown on them -/
def noEffectTree : Fitted ℚ :=
  fit (stdParams ℚ (Sample ℚ) 2 1 5) (1 / 100000) 10000000000 (fun _ => [0]) [1] [0] none noEffectRows

example : noEffectTree.nodes.length = 3 ∧ noEffectTree.depth = 1 ∧
    apply noEffectTree.nodes (fun _ => 0) = 1 ∧ apply noEffectTree.nodes (fun _ => 3) = 2 := by decide +kernel

/-- **C84, refuted as an effect.** Treated and control rows with the same covariates have the same outcomes, and still
the tree reports effects of about 10 and 20. -/
theorem C84_no_effect_refuted :
    (∀ r ∈ noEffectRows, ∀ r' ∈ noEffectRows, r.x = [1] → r'.x = [0] → r.wv 0 = r'.wv 0 → r.y = r'.y) ∧
    predict noEffectTree.nodes (fun _ => 0) = some (10 / (1 + 1 / 100000)) ∧
    predict noEffectTree.nodes (fun _ => 1) = some (20 / (1 + 1 / 100000)) := by decide +kernel

/-! ### honest estimation -/

/-- nodes that agree except for their values -/
def SameShape (a b : List (Node K V)) : Prop :=
  a.length = b.length ∧ ∀ (i : Nat) (n m : Node K V), a[i]? = some n → b[i]? = some m →
    n.left = m.left ∧ n.right = m.right ∧ n.feature = m.feature ∧ n.threshold = m.threshold

theorem sameShape_refl (a : List (Node K V)) : SameShape a a :=
  ⟨rfl, by intro i n m h h'; rw [h] at h'; cases h'; exact ⟨rfl, rfl, rfl, rfl⟩⟩

theorem walk_sameShape {a b : List (Node K V)} (h : SameShape a b) (q : Nat → K) : ∀ (k i : Nat),
    walk a q k i = walk b q k i := by
  intro k
  induction k with
  | zero => intro i; rfl
  | succ k ih =>
    intro i
    unfold walk
    cases ha : a[i]? with
    | none =>
      have : b[i]? = none := by
        rw [List.getElem?_eq_none_iff] at ha ⊢
        rw [← h.1]; exact ha
      rw [this]
    | some n =>
      cases hb : b[i]? with
      | none =>
        rw [List.getElem?_eq_none_iff] at hb
        obtain ⟨hh, _⟩ := List.getElem?_eq_some_iff.mp ha
        rw [h.1] at hh
        omega
      | some m =>
        obtain ⟨e1, e2, e3, e4⟩ := h.2 i n m ha hb
        simp only [e1, e2, e3, e4, ih]

theorem apply_sameShape {a b : List (Node K V)} (h : SameShape a b) (q : Nat → K) : apply a q = apply b q := by
  unfold apply; rw [h.1]; exact walk_sameShape h q _ _

/-- the held-out outcomes of one arm in a leaf -/
def heldOut (nodes : List (Node K K)) (test : List (Sample K)) (w : K) (leaf : Nat) : List K :=
  (test.filter (fun a => decide (apply nodes a.x = leaf) && decide (a.w = w))).map (fun a => a.y)

theorem honestLeaf_eq (nodes : List (Node K K)) (test : List (Sample K)) (vals : List (Node K K)) (leaf : Nat) :
    honestLeaf nodes test vals leaf =
      if heldOut nodes test 1 leaf = [] ∨ heldOut nodes test 0 leaf = [] then vals
      else vals.modify leaf (fun n => { n with value := mean (heldOut nodes test 1 leaf) - mean (heldOut nodes test 0 leaf) }) := by
  have e : ∀ w : K, ((test.filter (fun a => decide (apply nodes a.x = leaf))).filter (fun a => decide (a.w = w))).map
      (fun a => a.y) = heldOut nodes test w leaf := by
    intro w
    unfold heldOut
    rw [List.filter_filter]
    congr 1
    apply List.filter_congr
    intro a _
    rw [Bool.and_comm]
  unfold honestLeaf
  simp only [e, List.length_eq_zero_iff]

theorem honest_fold (nodes : List (Node K K)) (test : List (Sample K)) : ∀ (ls : List Nat) (vals : List (Node K K)),
    ls.Nodup → SameShape nodes vals →
    SameShape nodes (ls.foldl (honestLeaf nodes test) vals) ∧
    ∀ i, ((ls.foldl (honestLeaf nodes test) vals)[i]?).map (fun n => n.value) =
      if i ∈ ls ∧ heldOut nodes test 1 i ≠ [] ∧ heldOut nodes test 0 i ≠ [] then
        (vals[i]?).map (fun _ => mean (heldOut nodes test 1 i) - mean (heldOut nodes test 0 i))
      else (vals[i]?).map (fun n => n.value) := by
  intro ls
  induction ls with
  | nil => intro vals _ h; exact ⟨h, by intro i; simp⟩
  | cons l ls ih =>
    intro vals hnd h
    rw [List.nodup_cons] at hnd
    rw [List.foldl_cons]
    have hshape : SameShape nodes (honestLeaf nodes test vals l) := by
      rw [honestLeaf_eq]
      split
      · exact h
      · refine ⟨by rw [List.length_modify]; exact h.1, ?_⟩
        intro i n m hn hm
        rw [List.getElem?_modify] at hm
        cases hv : vals[i]? with
        | none => rw [hv] at hm; cases hm
        | some v =>
          rw [hv] at hm
          obtain ⟨e1, e2, e3, e4⟩ := h.2 i n v hn hv
          simp only [Option.map_eq_map, Option.map_some, Option.some.injEq] at hm
          subst hm
          by_cases hi : l = i <;> simp [hi, e1, e2, e3, e4]
    obtain ⟨r1, r2⟩ := ih _ hnd.2 hshape
    refine ⟨r1, ?_⟩
    intro i
    rw [r2 i]
    have hval : ((honestLeaf nodes test vals l)[i]?).map (fun n => n.value) =
        if i = l ∧ heldOut nodes test 1 i ≠ [] ∧ heldOut nodes test 0 i ≠ [] then
          (vals[i]?).map (fun _ => mean (heldOut nodes test 1 i) - mean (heldOut nodes test 0 i))
        else (vals[i]?).map (fun n => n.value) := by
      rw [honestLeaf_eq]
      by_cases hb : heldOut nodes test 1 l = [] ∨ heldOut nodes test 0 l = []
      · rw [if_pos hb, if_neg]
        rintro ⟨rfl, h1, h0⟩
        rcases hb with hb | hb
        · exact h1 hb
        · exact h0 hb
      · rw [if_neg hb, List.getElem?_modify]
        by_cases hi : l = i
        · subst hi
          rw [if_pos ⟨rfl, fun h => hb (Or.inl h), fun h => hb (Or.inr h)⟩]
          cases vals[l]? <;> simp
        · rw [if_neg (by rintro ⟨h, _⟩; exact hi h.symm)]
          cases vals[i]? <;> simp [hi]
    have hsome : (honestLeaf nodes test vals l)[i]?.map
        (fun _ => mean (heldOut nodes test 1 i) - mean (heldOut nodes test 0 i)) = (vals[i]?).map
        (fun _ => mean (heldOut nodes test 1 i) - mean (heldOut nodes test 0 i)) := by
      have hl : (honestLeaf nodes test vals l).length = vals.length := by rw [← hshape.1, ← h.1]
      by_cases hlt : i < vals.length
      · rw [List.getElem?_eq_getElem hlt, List.getElem?_eq_getElem (by omega)]; rfl
      · rw [List.getElem?_eq_none_iff.mpr (by omega), List.getElem?_eq_none_iff.mpr (by omega)]
    rw [hsome, hval]
    by_cases hi : i = l
    · subst hi
      simp [hnd.1]
    · simp [hi]

theorem honestValues_spec (nodes : List (Node K K)) (test : List (Sample K)) :
    SameShape nodes (honestValues nodes test) ∧
    ∀ i, ((honestValues nodes test)[i]?).map (fun n => n.value) =
      if heldOut nodes test 1 i ≠ [] ∧ heldOut nodes test 0 i ≠ [] then
        (nodes[i]?).map (fun _ => mean (heldOut nodes test 1 i) - mean (heldOut nodes test 0 i))
      else (nodes[i]?).map (fun n => n.value) := by
  obtain ⟨h1, h2⟩ := honest_fold nodes test ((test.map (fun a => apply nodes a.x)).dedup) nodes
    (List.nodup_dedup _) (sameShape_refl _)
  refine ⟨h1, ?_⟩
  intro i
  show (((test.map (fun a => apply nodes a.x)).dedup.foldl (honestLeaf nodes test) nodes)[i]?).map _ = _
  rw [h2 i]
  by_cases hc : heldOut nodes test 1 i ≠ [] ∧ heldOut nodes test 0 i ≠ []
  · rw [if_pos hc, if_pos]
    refine ⟨?_, hc⟩
    rw [List.mem_dedup]
    obtain ⟨y, hy⟩ := List.exists_mem_of_ne_nil _ hc.1
    unfold heldOut at hy
    obtain ⟨a, ha, _⟩ := List.mem_map.mp hy
    obtain ⟨hm, hp⟩ := List.mem_filter.mp ha
    simp only [Bool.and_eq_true, decide_eq_true_eq] at hp
    exact List.mem_map.mpr ⟨a, hm, hp.1⟩
  · rw [if_neg hc, if_neg]
    rintro ⟨_, h⟩
    exact hc h

/-- **C85.** With honest estimation the leaves are those of the tree grown on the training half alone: no held-out
sample influences where a query ends. -/
theorem C85_honest_structure (P : Params (Sample K) K) (eps alpha : K) (draw : Nat → List Nat)
    (treat control : List Nat) (h : List (Sample K) → List (Sample K) × List (Sample K)) (rows : List (Row K))
    (q : Nat → K) :
    apply (fit P eps alpha draw treat control (some h) rows).nodes q =
      apply (build P (honestCMSE eps alpha) (fun a => a.x) (fun a => a.w) draw
        (h (arms treat control rows)).1).1 q :=
  (apply_sameShape (honestValues_spec _ _).1 q).symm

/-- **C85.** In a leaf that holds held-out samples of both arms, the honest prediction is exactly the difference of the
mean outcomes of the held-out treated and the held-out control samples of that leaf. -/
theorem C85_honest_value {P : Params (Sample K) K} (hP : SoundParams P) (eps alpha : K) (draw : Nat → List Nat)
    (treat control : List Nat) (h : List (Sample K) → List (Sample K) × List (Sample K)) (rows : List (Row K))
    (q : Nat → K) :
    let t := fit P eps alpha draw treat control (some h) rows
    let test := (h (arms treat control rows)).2
    let tr := (test.filter (fun a => decide (apply t.nodes a.x = apply t.nodes q) && decide (a.w = 1))).map (fun a => a.y)
    let ctrl := (test.filter (fun a => decide (apply t.nodes a.x = apply t.nodes q) && decide (a.w = 0))).map (fun a => a.y)
    tr ≠ [] → ctrl ≠ [] → predict t.nodes q = some (meanOf tr - meanOf ctrl) := by
  intro t test tr ctrl h1 h0
  set nodes := (build P (honestCMSE eps alpha) (fun a => a.x) (fun a => a.w) draw (h (arms treat control rows)).1).1
    with hnodes
  obtain ⟨s1, s2⟩ := honestValues_spec nodes test
  have hap : ∀ u, apply t.nodes u = apply nodes u := fun u => (apply_sameShape s1 u).symm
  have e1 : tr = heldOut nodes test 1 (apply nodes q) := by simp only [tr, hap, heldOut]
  have e0 : ctrl = heldOut nodes test 0 (apply nodes q) := by simp only [ctrl, hap, heldOut]
  have hlt := leaf_lt hP (honestCMSE_sound eps alpha) (fun a => a.x) (fun a => a.w) draw
    (h (arms treat control rows)).1 q
  rw [← hnodes] at hlt
  have hs := s2 (apply nodes q)
  rw [← e1, ← e0, if_pos ⟨h1, h0⟩, List.getElem?_eq_getElem hlt] at hs
  unfold predict
  rw [hap]
  exact hs

/-- **C85.** In a leaf that lacks held-out samples of an arm, the prediction stays the one of the training half: the
shrunk mean outcome of its treated training samples. -/
theorem C85_honest_fallback {P : Params (Sample K) K} (hP : SoundParams P) (eps alpha : K) (draw : Nat → List Nat)
    (treat control : List Nat) (h : List (Sample K) → List (Sample K) × List (Sample K)) (rows : List (Row K))
    (q : Nat → K) :
    let t := fit P eps alpha draw treat control (some h) rows
    let test := (h (arms treat control rows)).2
    ((∀ a ∈ test, apply t.nodes a.x = apply t.nodes q → a.w ≠ 1) ∨
      (∀ a ∈ test, apply t.nodes a.x = apply t.nodes q → a.w ≠ 0)) →
    predict t.nodes q = predict (build P (honestCMSE eps alpha) (fun a => a.x) (fun a => a.w) draw
      (h (arms treat control rows)).1).1 q := by
  intro t test hno
  set nodes := (build P (honestCMSE eps alpha) (fun a => a.x) (fun a => a.w) draw (h (arms treat control rows)).1).1
    with hnodes
  obtain ⟨s1, s2⟩ := honestValues_spec nodes test
  have hap : ∀ u, apply t.nodes u = apply nodes u := fun u => (apply_sameShape s1 u).symm
  have hs := s2 (apply nodes q)
  have hnil : ∀ w : K, (∀ a ∈ test, apply t.nodes a.x = apply t.nodes q → a.w ≠ w) →
      heldOut nodes test w (apply nodes q) = [] := by
    intro w hw
    unfold heldOut
    rw [List.filter_eq_nil_iff.mpr]
    · rfl
    · intro a ha
      simp only [Bool.and_eq_true, decide_eq_true_eq, not_and]
      intro hl
      apply hw a ha
      rw [hap, hap]; exact hl
  rw [if_neg (by
    rintro ⟨h1, h0⟩
    rcases hno with hno | hno
    · exact h1 (hnil 1 hno)
    · exact h0 (hnil 0 hno))] at hs
  unfold predict
  rw [hap]
  exact hs

/-- the first two samples of the two arms grow the tree, the others are held out -/
def halves (l : List (Sample ℚ)) : List (Sample ℚ) × List (Sample ℚ) := (l.take 4, l.drop 4)

/-- four rows to grow the tree, four to fill its leaves -/
def honestRows : List (Row ℚ) := noEffectRows ++
  [⟨[1], fun _ => 0, 13⟩, ⟨[0], fun _ => 0, 11⟩, ⟨[1], fun _ => 1, 25⟩, ⟨[2], fun _ => 1, 99⟩]

/-- the honest tree on them -/
def honestTree : Fitted ℚ :=
  fit (stdParams ℚ (Sample ℚ) 2 1 5) (1 / 100000) 10000000000 (fun _ => [0]) [1] [0] (some halves) honestRows

/-- the left leaf gets `13 - 11`, the right leaf has no held-out control row -/
example : predict honestTree.nodes (fun _ => 0) = some 2 ∧ predict honestTree.nodes (fun _ => 1) = some (20 / (1 + 1 / 100000)) := by
  decide +kernel

/-! ### the interface -/

/-- **C86.** `estimate` without a quantity returns one prediction per row; `estimate()` without data returns one per
training row of the two arms, in their order. -/
theorem C86_rows (P : Params (Sample K) K) (eps alpha : K) (draw : Nat → List Nat) (treat control : List Nat)
    (h : Option (List (Sample K) → List (Sample K) × List (Sample K))) (rows : List (Row K)) :
    (∀ data, estimate (fit P eps alpha draw treat control h rows) (some data) .other =
      some (data.map (predict (fit P eps alpha draw treat control h rows).nodes))) ∧
    estimate (fit P eps alpha draw treat control h rows) none .other =
      some ((rows.filter (fun r => decide (r.x = treat) || decide (r.x = control))).map
        (fun r => predict (fit P eps alpha draw treat control h rows).nodes r.wv)) := by
  constructor
  · intro data; rfl
  · have e : (fit P eps alpha draw treat control h rows).wv =
        (rows.filter (fun r => decide (r.x = treat) || decide (r.x = control))).map (fun r => r.wv) := by
      unfold fit arms
      cases h <;> simp [Function.comp_def]
    unfold estimate
    rw [if_neg (by decide)]
    simp [e, Function.comp_def]

/-- **C86, refuted for averages.** `estimate(quantity='ATE')` and `estimate(quantity='CATE')` return `None` for every
fitted tree and every data. -/
theorem C86_average_refuted (t : Fitted K) (data : Option (List (Nat → K))) :
    estimate t data .ate = none ∧ estimate t data .cate = none := ⟨rfl, rfl⟩

/-- **C86, refuted for row alignment.** With a third treatment value in the data, `estimate()` has fewer entries than
the training data has rows. -/
theorem C86_alignment_refuted : ∃ rows : List (Row ℚ),
    (estimate (fit (stdParams ℚ (Sample ℚ) 2 1 5) (1 / 100000) 10000000000 (fun _ => [0]) [1] [0] none rows) none
      .other).map (fun l => l.length) = some 7 ∧ rows.length = 8 :=
  ⟨honestRows, by decide +kernel, by decide +kernel⟩

/-- **C86.** `honest_subsample_num`: `None` and fractions in `[0, 1)` are accepted, other fractions are refused with a
`ValueError`. -/
theorem C86_honest_num (r : K) : honestNum (HonestNum.none : HonestNum K) = .ok none ∧
    (0 ≤ r → r < 1 → honestNum (.real r) = .ok (some r)) ∧
    (r < 0 ∨ 1 ≤ r → honestNum (.real r) = .error "ValueError") := by
  refine ⟨rfl, ?_, ?_⟩
  · intro h0 h1
    show (if 1 ≤ r ∨ r < 0 then Except.error "ValueError" else Except.ok (some r)) = _
    rw [if_neg (by rintro (h | h) <;> linarith)]
  · intro h
    show (if 1 ≤ r ∨ r < 0 then Except.error "ValueError" else Except.ok (some r)) = _
    rw [if_pos h.symm]

/-- **C86, refuted for integers.** The documented integer form always fails with an `AttributeError`. -/
theorem C86_honest_int_refuted (n : Int) : honestNum (.int n : HonestNum K) = .error "AttributeError" := rfl

/-- **C86, refuted for a minimal leaf weight.** A positive `min_weight_leaf` rules out every split, because the criterion
never sets the weights of the two sides. -/
theorem C86_min_weight_refuted {P : Params (Sample K) K} (hP : SoundParams P) (hw : 0 < P.minWeightLeaf) (eps alpha : K)
    (draw : Nat → List Nat) (treat control : List Nat) (rows : List (Row K)) :
    (fit P eps alpha draw treat control none rows).nodes.length = 1 := by
  have h := C82_leaves hP (honestCMSE_sound eps alpha) (fun a => a.x) (fun a => a.w) draw (arms treat control rows)
  show (build P (honestCMSE eps alpha) (fun a => a.x) (fun a => a.w) draw (arms treat control rows)).1.length = 1
  have hnil : ((build P (honestCMSE eps alpha) (fun a => a.x) (fun a => a.w) draw (arms treat control rows)).1.filter
      (fun n => !(n.left.isNone && n.right.isNone))) = [] := by
    rw [List.filter_eq_nil_iff]
    intro n hn
    obtain ⟨i, hi, rfl⟩ := List.mem_iff_getElem.mp hn
    obtain ⟨r, n', h1, h2, h3, h4, _⟩ := build_node hP (honestCMSE_sound eps alpha) (fun a => a.x) (fun a => a.w) draw
      (arms treat control rows) hi
    rw [List.getElem?_eq_getElem hi] at h1
    cases h1
    obtain ⟨_, _, _, f4⟩ := h4
    cases hs : splitOf P (honestCMSE eps alpha) (fun a => a.x) draw i r with
    | none => rw [hs] at f4; simp [f4.1, f4.2]
    | some s =>
      obtain ⟨⟨_, _, _, _, w1, _⟩, _⟩ := splitOf_spec hP (honestCMSE_sound eps alpha) (fun a => a.x) draw i r s hs
      exact absurd w1 (not_le.mpr hw)
  rw [hnil] at h
  have := List.length_eq_length_filter_add (l := (build P (honestCMSE eps alpha) (fun a => a.x) (fun a => a.w) draw
    (arms treat control rows)).1) (fun n => n.left.isNone && n.right.isNone)
  rw [h, hnil] at this
  simpa using this

/-- a tree with a split that was worth its while: both children pass the limits and no other cut scores higher -/
example : ∃ n, noEffectTree.nodes[0]? = some n ∧ n.left ≠ none ∧ n.feature = 0 ∧ n.threshold = 1 / 2 ∧
    (through noEffectTree.nodes (fun a : Sample ℚ => a.x) (fun a => a.w) (arms [1] [0] noEffectRows) 0).length = 2 := by
  decide +kernel

end YL.Props
