import Verif.Props.TreeSplit

/-!
# The builder's loop refines a recursive tree
-/

set_option linter.unusedSectionVars false

namespace YL.Props
open YL.Crit YL.Tree YL.Spec

variable {A K V M : Type} [AddCommGroup M] [Field K] [LinearOrder K] [IsStrictOrderedRing K]

/-- The recursive shape of a grown tree. -/
inductive T (A K : Type) where
  | leaf (r : Rec A K)
  | node (r : Rec A K) (s : Split K) (l r : T A K)

namespace T

/-- number of nodes -/
def size : T A K → Nat
  | leaf _ => 1
  | node _ _ l r => 1 + l.size + r.size

/-- the record of the root -/
def top : T A K → Rec A K
  | leaf r => r
  | node r _ _ _ => r

/-- the largest depth of a record -/
def maxDepth : T A K → Nat
  | leaf r => r.depth
  | node r _ l r' => max r.depth (max l.maxDepth r'.maxDepth)

/-- the nodes in preorder, the root having number `id` -/
def flat (C : Criterion A M K V) : Nat → T A K → List (Node K V)
  | _, leaf r => [⟨none, none, 0, 0, r.impurity, r.rows.length, nodeVal C r.rows⟩]
  | id, node r s l r' =>
    ⟨some (id + 1), some (id + 1 + l.size), s.feature, s.threshold, r.impurity, r.rows.length, nodeVal C r.rows⟩ ::
      (flat C (id + 1) l ++ flat C (id + 1 + l.size) r')

theorem size_pos (t : T A K) : 0 < t.size := by cases t <;> simp [size] <;> omega

theorem flat_length (C : Criterion A M K V) (t : T A K) : ∀ id, (flat C id t).length = t.size := by
  induction t with
  | leaf r => intro id; rfl
  | node r s l r' ih1 ih2 => intro id; simp [flat, size, ih1, ih2]; omega

end T

/-- the left child's record -/
def leftRec (id : Nat) (r : Rec A K) (s : Found A K) : Rec A K :=
  ⟨s.rows.take s.split.pos, r.depth + 1, some id, true, s.impurityLeft⟩

/-- the right child's record -/
def rightRec (id : Nat) (r : Rec A K) (s : Found A K) : Rec A K :=
  ⟨s.rows.drop s.split.pos, r.depth + 1, some id, false, s.impurityRight⟩

/-- the recursive tree -/
def grow (P : Params A K) (C : Criterion A M K V) (x : A → Nat → K) (draw : Nat → List Nat) :
    Nat → Nat → Rec A K → T A K
  | 0, _, r => .leaf r
  | fuel + 1, id, r =>
    match splitOf P C x draw id r with
    | none => .leaf r
    | some s =>
      let l := grow P C x draw fuel (id + 1) (leftRec id r s)
      .node r s.split l (grow P C x draw fuel (id + 1 + l.size) (rightRec id r s))

theorem splitOf_spec {P : Params A K} {C : Criterion A M K V} (hP : SoundParams P) (hC : SoundCriterion C)
    (x : A → Nat → K) (draw : Nat → List Nat) (id : Nat) (r : Rec A K) (s : Found A K)
    (h : splitOf P C x draw id r = some s) :
    Admissible P C x r.rows s.split.feature s.split.threshold ∧
    (s.rows.take s.split.pos).Perm (r.rows.filter (cut x s.split.feature s.split.threshold)) ∧
    (s.rows.drop s.split.pos).Perm (r.rows.filter (fun a => !cut x s.split.feature s.split.threshold a)) ∧
    (∀ f ∈ draw id, ∀ t, Admissible P C x r.rows f t → Apart P.thr x r.rows f t →
      score C x r.rows f t ≤ score C x r.rows s.split.feature s.split.threshold) ∧
    stops P C r = false ∧ ¬ s.improvement + P.eps < P.minDecrease ∧
    nodeSplit P C x (draw id) r.rows r.impurity = some s := by
  unfold splitOf at h
  by_cases hs : stops P C r = true
  · rw [if_pos hs] at h; cases h
  · rw [if_neg hs] at h
    have hn := nodeSplit_spec hP hC x (draw id) r.rows r.impurity
    cases hns : nodeSplit P C x (draw id) r.rows r.impurity with
    | none => rw [hns] at h; cases h
    | some s' =>
      rw [hns] at h hn
      simp only at h hn
      by_cases hi : s'.improvement + P.eps < P.minDecrease
      · rw [if_pos hi] at h; cases h
      · rw [if_neg hi] at h
        cases h
        exact ⟨hn.1, hn.2.2.1, hn.2.2.2.1, hn.2.2.2.2.1, by simpa using hs, hi, rfl⟩

theorem split_lengths {P : Params A K} {C : Criterion A M K V} (hP : SoundParams P) (hC : SoundCriterion C)
    (x : A → Nat → K) (draw : Nat → List Nat) (id : Nat) (r : Rec A K) (s : Found A K)
    (h : splitOf P C x draw id r = some s) :
    0 < (leftRec id r s).rows.length ∧ 0 < (rightRec id r s).rows.length ∧
    (leftRec id r s).rows.length + (rightRec id r s).rows.length = r.rows.length ∧
    P.minSamplesLeaf ≤ (leftRec id r s).rows.length ∧ P.minSamplesLeaf ≤ (rightRec id r s).rows.length := by
  obtain ⟨h1, h2, h3, _⟩ := splitOf_spec hP hC x draw id r s h
  obtain ⟨a1, a2, a3, a4, _, _⟩ := h1
  have e : (r.rows.filter (cut x s.split.feature s.split.threshold)).length +
      (r.rows.filter (fun a => !cut x s.split.feature s.split.threshold a)).length = r.rows.length :=
    List.length_eq_length_filter_add _ |>.symm
  have e1 : (leftRec id r s).rows.length = (r.rows.filter (cut x s.split.feature s.split.threshold)).length :=
    h2.length_eq
  have e2 : (rightRec id r s).rows.length =
    (r.rows.filter (fun a => !cut x s.split.feature s.split.threshold a)).length := h3.length_eq
  omega

/-- more fuel than samples changes nothing -/
theorem grow_size {P : Params A K} {C : Criterion A M K V} (hP : SoundParams P) (hC : SoundCriterion C)
    (x : A → Nat → K) (draw : Nat → List Nat) : ∀ (fuel id : Nat) (r : Rec A K),
    (grow P C x draw fuel id r).size ≤ 2 * r.rows.length + 1 ∧
    (0 < r.rows.length → (grow P C x draw fuel id r).size + 1 ≤ 2 * r.rows.length) := by
  intro fuel
  induction fuel with
  | zero => intro id r; simp [grow, T.size]; omega
  | succ fuel ih =>
    intro id r
    unfold grow
    cases h : splitOf P C x draw id r with
    | none => simp [T.size]; omega
    | some s =>
      simp only [T.size]
      obtain ⟨l1, l2, l3, _⟩ := split_lengths hP hC x draw id r s h
      obtain ⟨_, i1⟩ := ih (id + 1) (leftRec id r s)
      obtain ⟨_, i2⟩ := ih (id + 1 + (grow P C x draw fuel (id + 1) (leftRec id r s)).size) (rightRec id r s)
      have := i1 l1
      have := i2 l2
      omega

theorem splitOf_nil {P : Params A K} {C : Criterion A M K V} (hP : SoundParams P) (hC : SoundCriterion C)
    (x : A → Nat → K) (draw : Nat → List Nat) (id : Nat) (r : Rec A K) (h : r.rows.length = 0) :
    splitOf P C x draw id r = none := by
  cases hs : splitOf P C x draw id r with
  | none => rfl
  | some s =>
    obtain ⟨l1, l2, l3, _⟩ := split_lengths hP hC x draw id r s hs
    omega

theorem link_length (nodes : List (Node K V)) (p : Option Nat) (b : Bool) (i : Nat) :
    (link nodes p b i).length = nodes.length := by
  unfold link
  cases p with
  | none => rfl
  | some p => cases b <;> simp

theorem modify_append_left {B : Type} (g : B → B) : ∀ (l m : List B) (p : Nat), p < l.length →
    (l ++ m).modify p g = l.modify p g ++ m := by
  intro l
  induction l with
  | nil => intro m p hp; simp at hp
  | cons a l ih =>
    intro m p hp
    cases p with
    | zero => simp
    | succ p => simp [ih m p (by simpa using hp)]

theorem modify_last {B : Type} (g : B → B) : ∀ (l : List B) (b : B), (l ++ [b]).modify l.length g = l ++ [g b] := by
  intro l
  induction l with
  | nil => intro b; simp
  | cons a l ih => intro b; simp [ih b]

theorem link_append (nodes more : List (Node K V)) (p : Nat) (b : Bool) (i : Nat) (hp : p < nodes.length) :
    link (nodes ++ more) (some p) b i = link nodes (some p) b i ++ more := by
  unfold link
  cases b <;> simp [modify_append_left _ _ _ _ hp]

/-- a parent pointer is either absent or points into the nodes built so far -/
def LinkOk (nodes : List (Node K V)) (r : Rec A K) : Prop := ∀ p, r.parent = some p → p < nodes.length

theorem link_last (nodes : List (Node K V)) (n : Node K V) (b : Bool) (i : Nat) :
    link (nodes ++ [n]) (some nodes.length) b i =
      nodes ++ [if b then { n with left := some i } else { n with right := some i }] := by
  unfold link
  cases b <;> simp [modify_last]

/-- The loop processes a record and everything below it before it goes on with the stack. -/
theorem loop_grow {P : Params A K} {C : Criterion A M K V} (hP : SoundParams P) (hC : SoundCriterion C)
    (x : A → Nat → K) (draw : Nat → List Nat) : ∀ (fuel : Nat) (r : Rec A K), r.rows.length ≤ fuel →
    ∀ (nodes : List (Node K V)) (stack : List (Rec A K)) (d k : Nat),
    loop P C x draw ((grow P C x draw fuel nodes.length r).size + k) nodes (r :: stack) d =
      loop P C x draw k
        (link nodes r.parent r.isLeft nodes.length ++ (grow P C x draw fuel nodes.length r).flat C nodes.length)
        stack (max d (grow P C x draw fuel nodes.length r).maxDepth) := by
  intro fuel
  induction fuel with
  | zero =>
    intro r hr nodes stack d k
    have hn := splitOf_nil hP hC x draw nodes.length r (by omega)
    show loop P C x draw (1 + k) nodes (r :: stack) d = _
    rw [Nat.add_comm 1 k]
    show loop P C x draw k (round P C x draw nodes r).1 ((round P C x draw nodes r).2 ++ stack) _ = _
    unfold round
    simp only [hn]
    rfl
  | succ fuel ih =>
    intro r hr nodes stack d k
    unfold grow
    cases hs : splitOf P C x draw nodes.length r with
    | none =>
      show loop P C x draw (1 + k) nodes (r :: stack) d = _
      rw [Nat.add_comm 1 k]
      show loop P C x draw k (round P C x draw nodes r).1 ((round P C x draw nodes r).2 ++ stack) _ = _
      unfold round
      simp only [hs]
      rfl
    | some s =>
      simp only
      obtain ⟨l1, l2, l3, _⟩ := split_lengths hP hC x draw nodes.length r s hs
      set base := link nodes r.parent r.isLeft nodes.length with hbase
      have hblen : base.length = nodes.length := link_length _ _ _ _
      set me : Node K V := ⟨none, none, s.split.feature, s.split.threshold, r.impurity, r.rows.length, nodeVal C r.rows⟩
        with hme
      set tl := grow P C x draw fuel (nodes.length + 1) (leftRec nodes.length r s) with htl
      set tr := grow P C x draw fuel (nodes.length + 1 + tl.size) (rightRec nodes.length r s) with htr
      show loop P C x draw (1 + tl.size + tr.size + k) nodes (r :: stack) d = _
      rw [show 1 + tl.size + tr.size + k = (tl.size + (tr.size + k)) + 1 by omega]
      show loop P C x draw (tl.size + (tr.size + k)) (round P C x draw nodes r).1
        ((round P C x draw nodes r).2 ++ stack) (max d r.depth) = _
      have hr1 : (round P C x draw nodes r).1 = base ++ [me] := by unfold round; simp only [hs]; rfl
      have hr2 : (round P C x draw nodes r).2 = [leftRec nodes.length r s, rightRec nodes.length r s] := by
        unfold round; simp only [hs]; rfl
      rw [hr1, hr2]
      have hlen1 : (base ++ [me]).length = nodes.length + 1 := by simp [hblen]
      have step1 := ih (leftRec nodes.length r s) (by omega) (base ++ [me])
        (rightRec nodes.length r s :: stack) (max d r.depth) (tr.size + k)
      rw [hlen1, ← htl] at step1
      show loop P C x draw (tl.size + (tr.size + k)) (base ++ [me])
        (leftRec nodes.length r s :: rightRec nodes.length r s :: stack) (max d r.depth) = _
      rw [step1]
      have hlink1 : link (base ++ [me]) (leftRec nodes.length r s).parent (leftRec nodes.length r s).isLeft
          (nodes.length + 1) = base ++ [{ me with left := some (nodes.length + 1) }] := by
        have := link_last base me true (nodes.length + 1)
        rw [hblen] at this
        exact this
      rw [hlink1]
      set mid1 := base ++ [{ me with left := some (nodes.length + 1) }] ++ tl.flat C (nodes.length + 1) with hmid1
      have hlen2 : mid1.length = nodes.length + 1 + tl.size := by
        simp [hmid1, hblen, T.flat_length]; omega
      have step2 := ih (rightRec nodes.length r s) (by omega) mid1 stack (max (max d r.depth) tl.maxDepth) k
      rw [hlen2, ← htr] at step2
      rw [step2]
      have hlink2 : link mid1 (rightRec nodes.length r s).parent (rightRec nodes.length r s).isLeft
          (nodes.length + 1 + tl.size) = base ++ [{ me with left := some (nodes.length + 1), right := some (nodes.length + 1 + tl.size) }] ++ tl.flat C (nodes.length + 1) := by
        have h1 := link_append (base ++ [{ me with left := some (nodes.length + 1) }]) (tl.flat C (nodes.length + 1))
          base.length false (nodes.length + 1 + tl.size) (by simp)
        rw [link_last, hblen] at h1
        exact h1
      rw [hlink2]
      congr 1
      · simp [T.flat, hme, List.append_assoc]
      · show max (max (max d r.depth) tl.maxDepth) tr.maxDepth = max d (max r.depth (max tl.maxDepth tr.maxDepth))
        simp [max_assoc]

/-- the record the builder starts from -/
def rootRec (C : Criterion A M K V) (l : List A) : Rec A K :=
  ⟨l, 0, none, false, C.nodeImpurity (Crit.init (reads C.contrib l) 0 l.length).total⟩

/-- the grown tree as a recursive object -/
def tree (P : Params A K) (C : Criterion A M K V) (x : A → Nat → K) (w : A → K) (draw : Nat → List Nat)
    (train : List A) : T A K :=
  grow P C x draw (active w train).length 0 (rootRec C (active w train))

theorem build_eq {P : Params A K} {C : Criterion A M K V} (hP : SoundParams P) (hC : SoundCriterion C)
    (x : A → Nat → K) (w : A → K) (draw : Nat → List Nat) (train : List A) :
    build P C x w draw train = ((tree P C x w draw train).flat C 0, (tree P C x w draw train).maxDepth) := by
  unfold build
  simp only
  set l := active w train with hl
  have hsz := (grow_size hP hC x draw l.length 0 (rootRec C l)).1
  have h := loop_grow (V := V) hP hC x draw l.length (rootRec C l) (le_refl _) [] [] 0
    (2 * l.length + 1 - (grow P C x draw l.length 0 (rootRec C l)).size)
  have e : (grow P C x draw l.length 0 (rootRec C l)).size +
      (2 * l.length + 1 - (grow P C x draw l.length 0 (rootRec C l)).size) = 2 * l.length + 1 := by
    have : (rootRec C l).rows.length = l.length := rfl
    omega
  have hz : ([] : List (Node K V)).length = 0 := rfl
  rw [hz, e] at h
  show loop P C x draw (2 * l.length + 1) [] [rootRec C l] 0 = _
  rw [h]
  have fin : ∀ (k : Nat) (ns : List (Node K V)) (d : Nat), loop P C x draw k ns [] d = (ns, d) := by
    intro k ns d; cases k <;> rfl
  rw [fin]
  show (link [] none false 0 ++ _, _) = _
  simp [link, tree, ← hl]

end YL.Props
