import Verif.Model.Policy
import Verif.Props.GrfTree
import Mathlib.Data.Finset.Lattice.Fold
import Mathlib.Tactic.Linarith
import Mathlib.Tactic.FieldSimp
import Mathlib.Tactic.Ring
import Mathlib.Data.Rat.Floor
import Mathlib.Data.Fin.VecNotation

/-!
# C99-C101: `PolicyTree` and `PolicyInterpreter`
-/

set_option linter.unusedSectionVars false

namespace YL.Spec
open YL.Crit YL.Tree

variable {K : Type} [Field K] [LinearOrder K] {d : Nat}

/-- total weight of a set of samples -/
def wTotal (l : List (PSample K d)) : K := (l.map (fun a => a.w)).sum

/-- total weighted effect of treatment `k` over a set of samples -/
def effTotal (l : List (PSample K d)) (k : Fin d) : K := (l.map (fun a => a.w * a.y k)).sum

/-- the largest total effect a single treatment has on a set of samples -/
def bestTotal [NeZero d] (l : List (PSample K d)) : K :=
  Finset.univ.sup' (Finset.univ_nonempty (α := Fin d)) (effTotal l)

/-- what a cut of `S` achieves: each side gets its best treatment -/
def cutTotal [NeZero d] (S : List (PSample K d)) (f : Nat) (t : K) : K :=
  bestTotal (S.filter (fun a => decide (a.v f ≤ t))) + bestTotal (S.filter (fun a => decide (t < a.v f)))

/-- a cut that leaves at least `m` samples (and one) and at least the weight `mw` on either side -/
def PolicyCut (m : Nat) (mw : K) (S : List (PSample K d)) (f : Nat) (t : K) : Prop :=
  m ≤ (S.filter (fun a => decide (a.v f ≤ t))).length ∧ m ≤ (S.filter (fun a => decide (t < a.v f))).length ∧
  0 < (S.filter (fun a => decide (a.v f ≤ t))).length ∧ 0 < (S.filter (fun a => decide (t < a.v f))).length ∧
  mw ≤ wTotal (S.filter (fun a => decide (a.v f ≤ t))) ∧ mw ≤ wTotal (S.filter (fun a => decide (t < a.v f)))

/-- What is assumed of the environment of a `PolicyTree`: the sorting routine sorts, the midpoint of two floats lies
between them, the heap pops a record with the largest improvement. -/
structure SoundPEnv (E : PEnv K d) : Prop where
  perm : ∀ (g : PSample K d → K) (l : List (PSample K d)), (E.sort g l).Perm l
  sorted : ∀ (g : PSample K d → K) (l : List (PSample K d)), (E.sort g l).Pairwise (fun a b => g a ≤ g b)
  mid : ∀ a b : K, a < b → a ≤ E.mid a b ∧ E.mid a b ≤ b
  thr : 0 ≤ E.thr
  heap : SoundHeap E.pick

/-- the weights given by the user, or ones -/
def givenWeights (weights : Option (List K)) (n : Nat) : List K := weights.getD (List.replicate n 1)

/-- the samples a fitted tree rests on: with `max_leaf_nodes` every row counts once, without it every row counts with
its weight, and rows of weight zero do not count -/
def used (g : PSettings K) (v : List (Nat → K)) (ce : List (Fin d → K)) (weights : Option (List K)) :
    List (PSample K d) :=
  if g.maxLeafNodes = none then (pRows v ce (givenWeights weights v.length)).filter (fun a => decide (a.w ≠ 0))
  else (pRows v ce (givenWeights weights v.length)).map (fun a => ⟨a.v, 1, a.y⟩)

/-- of these, the ones in the leaf of `q` -/
def inLeaf (t : PFitted K d) (l : List (PSample K d)) (q : Nat → K) : List (PSample K d) :=
  l.filter (fun a => decide (apply t.nodes a.v = apply t.nodes q))

/-- of these, the ones that pass through node `i` -/
def atNode (t : PFitted K d) (l : List (PSample K d)) (i : Nat) : List (PSample K d) :=
  l.filter (fun a => reaches t.nodes a.v i)

end YL.Spec

namespace YL.Props
open YL.Crit YL.Tree YL.Spec

section regular
variable {A K V M : Type} [AddCommGroup M] [Field K] [LinearOrder K] [IsStrictOrderedRing K]

/-- the impurities of the children are what `node_impurity` would say there -/
def Regular (C : Criterion A M K V) : Prop :=
  ∀ (h : Nat → M) (c : Crit M), C.children h c = (C.nodeImpurity c.left, C.nodeImpurity c.right)

theorem split_impurity {P : Params A K} {C : Criterion A M K V} (hP : SoundParams P) (hC : SoundCriterion C)
    (hR : Regular C) {x : A → Nat → K} {feats : List Nat} {S : List A} {imp : K} {s : Found A K}
    (h : nodeSplit P C x feats S imp = some s) :
    s.impurityLeft = C.nodeImpurity ((s.rows.take s.split.pos).map C.contrib).sum ∧
    s.impurityRight = C.nodeImpurity ((s.rows.drop s.split.pos).map C.contrib).sum ∧
    s.improvement = C.improvement imp
      (C.nodeImpurity ((S.filter (cut x s.split.feature s.split.threshold)).map C.contrib).sum)
      (C.nodeImpurity ((S.filter (fun a => !cut x s.split.feature s.split.threshold a)).map C.contrib).sum)
      (cutState C.contrib S (cut x s.split.feature s.split.threshold)) := by
  have hn := nodeSplit_spec hP hC x feats S imp
  rw [h] at hn
  simp only at hn
  obtain ⟨s1, s2, s3, s4, s5, g, _, s7, s8⟩ := hn
  rw [hR] at s7
  have e1 := congrArg Prod.fst s7
  have e2 := congrArg Prod.snd s7
  simp only [cutState] at e1 e2
  refine ⟨?_, ?_, ?_⟩
  · rw [e1, (s3.map C.contrib).sum_eq]
  · rw [e2, (s4.map C.contrib).sum_eq]
  · rw [s8, e1, e2]

theorem splitOf_impurity {P : Params A K} {C : Criterion A M K V} (hP : SoundParams P) (hC : SoundCriterion C)
    (hR : Regular C) {x : A → Nat → K} {draw : Nat → List Nat} {id : Nat} {r : Rec A K} {s : Found A K}
    (h : splitOf P C x draw id r = some s) :
    (leftRec id r s).impurity = C.nodeImpurity ((leftRec id r s).rows.map C.contrib).sum ∧
    (rightRec id r s).impurity = C.nodeImpurity ((rightRec id r s).rows.map C.contrib).sum := by
  obtain ⟨_, _, _, _, _, _, hn⟩ := splitOf_spec hP hC x draw id r s h
  obtain ⟨a, b, _⟩ := split_impurity hP hC hR hn
  exact ⟨a, b⟩

theorem grow_impurity {P : Params A K} {C : Criterion A M K V} (hP : SoundParams P) (hC : SoundCriterion C)
    (hR : Regular C) (x : A → Nat → K) (draw : Nat → List Nat) : ∀ (fuel id : Nat) (r : Rec A K),
    r.impurity = C.nodeImpurity (r.rows.map C.contrib).sum →
    ∀ r' ∈ (grow P C x draw fuel id r).recs, r'.impurity = C.nodeImpurity (r'.rows.map C.contrib).sum := by
  intro fuel
  induction fuel with
  | zero => intro id r hr r' hr'; simp [grow, T.recs] at hr'; rw [hr']; exact hr
  | succ fuel ih =>
    intro id r hr r' hr'
    cases hs : splitOf P C x draw id r with
    | none => rw [grow_none hs] at hr'; simp [T.recs] at hr'; rw [hr']; exact hr
    | some s =>
      obtain ⟨tl, tr, htl, htr, hgr⟩ := grow_some (fuel := fuel) hs
      obtain ⟨i1, i2⟩ := splitOf_impurity hP hC hR hs
      rw [hgr] at hr'
      simp only [T.recs, List.mem_cons, List.mem_append] at hr'
      rcases hr' with h | h | h
      · rw [h]; exact hr
      · rw [htl] at h; exact ih _ _ i1 r' h
      · rw [htr] at h; exact ih _ _ i2 r' h

theorem build_impurity {P : Params A K} {C : Criterion A M K V} (hP : SoundParams P) (hC : SoundCriterion C)
    (hR : Regular C) (x : A → Nat → K) (w : A → K) (draw : Nat → List Nat) (train : List A) :
    ∀ r ∈ (tree P C x w draw train).recs, r.impurity = C.nodeImpurity (r.rows.map C.contrib).sum := by
  apply grow_impurity hP hC hR
  show C.nodeImpurity _ = _
  rw [init_total]
  rfl

/-- what is known of any node of a tree grown depth first -/
theorem build_facts {P : Params A K} {C : Criterion A M K V} (hP : SoundParams P) (hC : SoundCriterion C)
    (hR : Regular C) (x : A → Nat → K) (w : A → K) (draw : Nat → List Nat) (train : List A) {i : Nat} {n : Node K V}
    (hi : (build P C x w draw train).1[i]? = some n) :
    ∃ r : Rec A K, r.rows.Perm (through (build P C x w draw train).1 x w train i) ∧
      r.impurity = C.nodeImpurity (r.rows.map C.contrib).sum ∧ n.impurity = r.impurity ∧
      r.depth ≤ (build P C x w draw train).2 ∧
      (n.left = none → splitOf P C x draw i r = none) ∧
      (n.left ≠ none → ∃ s, splitOf P C x draw i r = some s ∧ n.feature = s.split.feature ∧
        n.threshold = s.split.threshold) := by
  obtain ⟨hlt, _⟩ := List.getElem?_eq_some_iff.mp hi
  obtain ⟨r, n', h1, h2, h3, ⟨f1, f2, f3, f4⟩, h5, h6⟩ := build_node hP hC x w draw train hlt
  rw [hi] at h1
  cases h1
  refine ⟨r, h2, build_impurity hP hC hR x w draw train r (List.mem_of_getElem? h6), f1, h5, ?_, ?_⟩
  · intro hn
    cases hs : splitOf P C x draw i r with
    | none => rfl
    | some s => rw [hs] at f4; exact absurd hn f4.1
  · intro hn
    cases hs : splitOf P C x draw i r with
    | none => rw [hs] at f4; exact absurd f4.1 hn
    | some s => rw [hs] at f4; exact ⟨s, rfl, f4.2.2.1, f4.2.2.2⟩

/-- the same for a tree grown best first -/
theorem best_facts {P : Params A K} {C : Criterion A M K V} (hP : SoundParams P) (hC : SoundCriterion C)
    (hR : Regular C) (x : A → Nat → K) (draw : Nat → List Nat) {pick : List (Front A K) → Nat}
    (hpick : SoundHeap pick) (maxLeaf : Nat) (train : List A) {i : Nat} {n : Node K V}
    (hi : (buildBest P (fun _ => C) x draw pick maxLeaf train).1[i]? = some n) :
    ∃ r : Rec A K, r.rows.Perm (passing (buildBest P (fun _ => C) x draw pick maxLeaf train).1 x train i) ∧
      r.impurity = C.nodeImpurity (r.rows.map C.contrib).sum ∧ n.impurity = r.impurity ∧
      (n.left ≠ none → ∃ s, splitOf P C x draw i r = some s ∧ n.feature = s.split.feature ∧
        n.threshold = s.split.threshold) := by
  obtain ⟨G, sp, d, e, h, h1, h2⟩ :=
    buildBest_spec (P := P) (C := fun _ => C) (x := x) (draw := draw) hpick maxLeaf train
  rw [e] at hi ⊢
  simp only at hi ⊢
  have himp : ∀ (j : Nat) (r : Rec A K) (n : Node K V), G[j]? = some (r, n) →
      r.impurity = C.nodeImpurity (r.rows.map C.contrib).sum := by
    intro j
    cases j with
    | zero =>
      intro r n hj
      obtain ⟨n0, h0⟩ := h.first
      rw [h0] at hj
      cases hj
      show C.nodeImpurity _ = _
      rw [init_total]; rfl
    | succ j =>
      intro r n hj
      obtain ⟨p, rp, np, p1, p2, p3⟩ := h.par (j + 1) r n (by omega) hj
      have hnp : np.left ≠ none := by
        rcases h.shape p rp np p2 with hh | ⟨s, l, nl, nr, s1, s2, s3, _⟩
        · rcases p3 with hc | hc
          · rw [hh.1] at hc; cases hc.1
          · rw [hh.2] at hc; cases hc.1
        · rw [s2]; simp
      obtain ⟨s, l, nl, nr, s1, s2, s3, s4, s5, s6, s7, s8⟩ := inner_step h p2 hnp
      obtain ⟨i1, i2⟩ := splitOf_impurity hP hC hR (show splitOf P C x draw p rp = some s from s1)
      rcases p3 with ⟨c, _⟩ | ⟨c, _⟩
      · rw [s2] at c
        cases c
        rw [s5] at hj
        cases hj
        exact i1
      · rw [s3] at c
        cases c
        rw [s6] at hj
        cases hj
        exact i2
  rw [List.getElem?_map] at hi
  cases hg : G[i]? with
  | none => rw [hg] at hi; cases hi
  | some rn =>
    obtain ⟨r, n'⟩ := rn
    rw [hg] at hi
    cases hi
    refine ⟨r, best_rows hP (fun _ => hC) h i r n' hg, himp i r n' hg, (h.basic i r n' hg).1, ?_⟩
    intro hn
    obtain ⟨s, l, nl, nr, s1, s2, s3, s4, s5, s6, s7, s8⟩ := inner_step h hg hn
    exact ⟨s, s1, s7, s8⟩

end regular

variable {K : Type} [Field K] [LinearOrder K] [IsStrictOrderedRing K] {d : Nat}

/-! ### the criterion -/

theorem policyReg_sound (alpha N : K) : SoundCriterion (policyReg (d := d) alpha N) := by
  intro h c p h1 h2 h3 h4 h5
  have hinv : CritInv h { c with right := (segment h c.pos c.stop).sum } :=
    ⟨h1, le_trans h2 h3, h4, h5, rfl⟩
  obtain ⟨u1, u2, u3, u4, u5⟩ := critInv_updateGrf (c := { c with right := (segment h c.pos c.stop).sum }) hinv h2 h3
  have e : updateGrf h { c with right := (segment h c.pos c.stop).sum } p = updateGrf h c p := by
    unfold updateGrf reverseReset
    rfl
  rw [e] at u1 u2 u3 u4 u5
  have f1 : (updateGrf h c p).start = c.start := rfl
  have f2 : (updateGrf h c p).stop = c.stop := rfl
  have f3 : (updateGrf h c p).total = c.total := rfl
  have f4 : (updateGrf h c p).pos = p := rfl
  show updateGrf h c p = _
  rw [f1, f4] at u4
  rw [f2, f4] at u5
  generalize updateGrf h c p = d at *
  obtain ⟨a, b, q, t, l, r⟩ := d
  simp only at f1 f2 f3 f4 u4 u5
  subst f1 f2 f3 f4 u4 u5
  rfl

theorem policyReg_regular (alpha N : K) : Regular (policyReg (d := d) alpha N) := fun _ _ => rfl

theorem sum_policy (alpha N : K) (l : List (PSample K d)) :
    (l.map (policyReg alpha N).contrib).sum = (wTotal l, effTotal l) := by
  induction l with
  | nil => rfl
  | cons a l ih =>
    rw [List.map_cons, List.sum_cons, ih]
    rfl

theorem foldl_keepMax_spec (f : Fin d → K) : ∀ (l : List (Fin d)) (b : K), ∃ m,
    l.foldl (fun m k => keepMax (f k) m) (some b) = some m ∧ b ≤ m ∧ (∀ k ∈ l, f k ≤ m) ∧
      (m = b ∨ ∃ k ∈ l, m = f k) := by
  intro l
  induction l with
  | nil => intro b; exact ⟨b, rfl, le_refl _, by simp, Or.inl rfl⟩
  | cons a l ih =>
    intro b
    rw [List.foldl_cons]
    rw [show keepMax (f a) (some b) = if b < f a then some (f a) else some b from rfl]
    by_cases h : b < f a
    · rw [if_pos h]
      obtain ⟨m, h1, h2, h3, h4⟩ := ih (f a)
      refine ⟨m, h1, le_trans h.le h2, ?_, ?_⟩
      · intro v hv
        rcases List.mem_cons.mp hv with h | h
        · rw [h]; exact h2
        · exact h3 v h
      · right
        rcases h4 with h | ⟨k, hk, h⟩
        · exact ⟨a, List.mem_cons_self, h⟩
        · exact ⟨k, List.mem_cons_of_mem _ hk, h⟩
    · rw [if_neg h]
      obtain ⟨m, h1, h2, h3, h4⟩ := ih b
      refine ⟨m, h1, h2, ?_, ?_⟩
      · intro v hv
        rcases List.mem_cons.mp hv with h' | h'
        · rw [h']; exact le_trans (not_lt.mp h) h2
        · exact h3 v h'
      · rcases h4 with h | ⟨k, hk, h⟩
        · exact Or.inl h
        · exact Or.inr ⟨k, List.mem_cons_of_mem _ hk, h⟩

theorem maxOf_spec [NeZero d] (f : Fin d → K) : (∃ k, maxOf f = f k) ∧ ∀ k, f k ≤ maxOf f := by
  unfold maxOf maxSeen
  obtain ⟨n, rfl⟩ := Nat.exists_eq_succ_of_ne_zero (NeZero.ne d)
  rw [List.finRange_succ, List.foldl_cons]
  obtain ⟨m, h1, h2, h3, h4⟩ := foldl_keepMax_spec f (List.map Fin.succ (List.finRange n)) (f 0)
  rw [show keepMax (f 0) none = some (f 0) from rfl, h1, Option.getD_some]
  refine ⟨?_, ?_⟩
  · rcases h4 with h | ⟨k, _, h⟩
    · exact ⟨0, h⟩
    · exact ⟨k, h⟩
  · intro k
    refine Fin.cases h2 (fun k => ?_) k
    apply h3
    simp

theorem maxOf_eq [NeZero d] (l : List (PSample K d)) : maxOf (effTotal l) = bestTotal l := by
  obtain ⟨⟨k, hk⟩, hle⟩ := maxOf_spec (effTotal l)
  unfold bestTotal
  apply le_antisymm
  · rw [hk]; exact Finset.le_sup' (effTotal l) (Finset.mem_univ k)
  · exact Finset.sup'_le _ _ (fun k _ => hle k)

theorem effTotal_append (l l' : List (PSample K d)) (k : Fin d) :
    effTotal (l ++ l') k = effTotal l k + effTotal l' k := by
  unfold effTotal; rw [List.map_append, List.sum_append]

theorem effTotal_perm {l l' : List (PSample K d)} (h : l.Perm l') : effTotal l = effTotal l' := by
  funext k; exact (h.map _).sum_eq

theorem wTotal_perm {l l' : List (PSample K d)} (h : l.Perm l') : wTotal l = wTotal l' := (h.map _).sum_eq

theorem bestTotal_perm [NeZero d] {l l' : List (PSample K d)} (h : l.Perm l') : bestTotal l = bestTotal l' := by
  unfold bestTotal; simp only [effTotal_perm h]

theorem not_le_eq (f : Nat) (t : K) :
    (fun a : PSample K d => !cut (fun a : PSample K d => a.v) f t a) = (fun a => decide (t < a.v f)) := by
  funext a
  unfold cut
  by_cases h : a.v f ≤ t
  · simp [h, not_lt.mpr h]
  · simp [h, not_le.mp h]

/-- **C100.** A cut never achieves less than the best single treatment: the two sides may choose differently. -/
theorem C100_cut_gains [NeZero d] (S : List (PSample K d)) (f : Nat) (t : K) : bestTotal S ≤ cutTotal S f t := by
  unfold cutTotal
  apply Finset.sup'_le
  intro k _
  have hp : (S.filter (fun a => decide (a.v f ≤ t)) ++ S.filter (fun a => decide (t < a.v f))).Perm S := by
    have := List.filter_append_perm (cut (fun a : PSample K d => a.v) f t) S
    rw [not_le_eq] at this
    exact this
  rw [← effTotal_perm hp, effTotal_append]
  exact add_le_add (Finset.le_sup' (effTotal _) (Finset.mem_univ k)) (Finset.le_sup' (effTotal _) (Finset.mem_univ k))

theorem policy_admissible {P : Params (PSample K d) K} {alpha N : K} {S : List (PSample K d)} {f : Nat} {t : K} :
    Admissible P (policyReg alpha N) (fun a => a.v) S f t ↔ PolicyCut P.minSamplesLeaf P.minWeightLeaf S f t := by
  have hlen := List.length_eq_length_filter_add (l := S) (cut (fun a : PSample K d => a.v) f t)
  rw [not_le_eq] at hlen
  have e1 : (policyReg alpha N).weightLeft (cutState (policyReg alpha N).contrib S (cut (fun a : PSample K d => a.v) f t)) =
      wTotal (S.filter (fun a => decide (a.v f ≤ t))) := by
    show (((S.filter _).map (policyReg alpha N).contrib).sum).1 = _
    rw [sum_policy]; rfl
  have e2 : (policyReg alpha N).weightRight (cutState (policyReg alpha N).contrib S (cut (fun a : PSample K d => a.v) f t)) =
      wTotal (S.filter (fun a => decide (t < a.v f))) := by
    show (((S.filter _).map (policyReg alpha N).contrib).sum).1 = _
    rw [not_le_eq, sum_policy]
  have e3 : S.filter (cut (fun a : PSample K d => a.v) f t) = S.filter (fun a => decide (a.v f ≤ t)) := rfl
  unfold Admissible PolicyCut
  simp only
  rw [e1, e2, e3]
  rw [e3] at hlen
  constructor
  · rintro ⟨h1, h2, h3, h4, h5, h6⟩
    exact ⟨h1, by omega, h3, by omega, h5, h6⟩
  · rintro ⟨h1, h2, h3, h4, h5, h6⟩
    exact ⟨h1, by omega, h3, by omega, h5, h6⟩

theorem policy_score [NeZero d] (alpha N : K) (S : List (PSample K d)) (f : Nat) (t : K) :
    score (policyReg alpha N) (fun a => a.v) S f t = cutTotal S f t := by
  show maxOf (((S.filter _).map (policyReg alpha N).contrib).sum).2 +
    maxOf (((S.filter _).map (policyReg alpha N).contrib).sum).2 = _
  rw [not_le_eq, sum_policy, sum_policy]
  show maxOf (effTotal _) + maxOf (effTotal _) = _
  rw [maxOf_eq, maxOf_eq]
  rfl

/-- the improvement of a split is what it gains, relative to all samples -/
theorem policy_improvement [NeZero d] (alpha N : K) (S : List (PSample K d)) (f : Nat) (t : K)
    (hS : wTotal S ≠ 0) (hL : wTotal (S.filter (fun a => decide (a.v f ≤ t))) ≠ 0)
    (hR : wTotal (S.filter (fun a => decide (t < a.v f))) ≠ 0) :
    (policyReg alpha N).improvement ((policyReg alpha N).nodeImpurity (S.map (policyReg alpha N).contrib).sum)
      ((policyReg alpha N).nodeImpurity
        ((S.filter (cut (fun a : PSample K d => a.v) f t)).map (policyReg alpha N).contrib).sum)
      ((policyReg alpha N).nodeImpurity
        ((S.filter (fun a => !cut (fun a : PSample K d => a.v) f t a)).map (policyReg alpha N).contrib).sum)
      (cutState (policyReg alpha N).contrib S (cut (fun a : PSample K d => a.v) f t)) =
    (cutTotal S f t - bestTotal S) / N := by
  have hw : wTotal S = wTotal (S.filter (fun a => decide (a.v f ≤ t))) + wTotal (S.filter (fun a => decide (t < a.v f))) := by
    have hp := List.filter_append_perm (cut (fun a : PSample K d => a.v) f t) S
    rw [not_le_eq] at hp
    rw [← wTotal_perm hp]
    unfold wTotal
    rw [List.map_append, List.sum_append]
    rfl
  have e3 : S.filter (cut (fun a : PSample K d => a.v) f t) = S.filter (fun a => decide (a.v f ≤ t)) := rfl
  unfold cutState
  rw [not_le_eq, e3, sum_policy, sum_policy, sum_policy]
  show wTotal S / N * ((alpha - maxOf (effTotal S) / wTotal S) - _ / wTotal S * (alpha - maxOf (effTotal _) / _) -
    _ / wTotal S * (alpha - maxOf (effTotal _) / _)) = _
  rw [maxOf_eq, maxOf_eq, maxOf_eq]
  unfold cutTotal
  simp only
  generalize wTotal (S.filter (fun a => decide (a.v f ≤ t))) = a at *
  generalize wTotal (S.filter (fun a => decide (t < a.v f))) = b at *
  generalize wTotal S = c at *
  subst hw
  by_cases hN : N = 0
  · simp [hN]
  · field_simp
    ring

/-! ### fitted trees -/

variable [FloorRing K]

/-- the parameters that reach splitter and builder -/
abbrev pParams (E : PEnv K d) (g : PSettings K) (leaf split depth : Nat) (ws : List K) : Params (PSample K d) K :=
  ⟨split, leaf, g.minWeightFraction * ws.sum, depth, g.minDecrease, E.eps, E.thr, E.sort, E.mid⟩

/-- all the values a successful fit went through -/
structure FitFacts (E : PEnv K d) (g : PSettings K) (nFeat : Nat) (v : List (Nat → K)) (ce : List (Fin d → K))
    (weights : Option (List K)) (t : PFitted K d) (leaf split depth nd : Nat) : Prop where
  depthOk : checkDepth E.big g.maxDepth = .ok depth
  leafOk : checkLeaf v.length g.minSamplesLeaf = .ok leaf
  splitOk : checkSplit v.length leaf g.minSamplesSplit = .ok split
  featuresOk : checkFeatures nFeat g.maxFeatures = .ok nd
  fraction : 0 ≤ g.minWeightFraction ∧ g.minWeightFraction ≤ 1 / 2
  decrease : 0 ≤ g.minDecrease
  sameRows : ce.length = v.length
  sameWeights : (givenWeights weights v.length).length = v.length
  name : t.criterion = g.criterion
  keeps : t.v = v
  grown : ∃ maxLeaf, checkLeafNodes g.maxLeafNodes = .ok maxLeaf ∧
    growPolicy E (pParams E g leaf split depth (givenWeights weights v.length))
      (fun N => criterionOf E N g.criterion) nd maxLeaf (pRows v ce (givenWeights weights v.length)) =
      .ok (t.nodes, t.depth)

theorem policyFit_ok {E : PEnv K d} {g : PSettings K} {nFeat : Nat} {v : List (Nat → K)} {ce : List (Fin d → K)}
    {weights : Option (List K)} {t : PFitted K d} (h : policyFit E g nFeat v ce weights = .ok t) :
    ∃ leaf split depth nd, FitFacts E g nFeat v ce weights t leaf split depth nd := by
  unfold policyFit at h
  cases h1 : checkDepth E.big g.maxDepth with
  | error e => rw [h1] at h; cases h
  | ok depth =>
  rw [h1] at h
  simp only at h
  cases h2 : checkLeaf v.length g.minSamplesLeaf with
  | error e => rw [h2] at h; cases h
  | ok leaf =>
  rw [h2] at h
  simp only at h
  cases h3 : checkSplit v.length leaf g.minSamplesSplit with
  | error e => rw [h3] at h; cases h
  | ok split =>
  rw [h3] at h
  simp only at h
  cases h4 : checkLeafNodes g.maxLeafNodes with
  | error e => rw [h4] at h; cases h
  | ok maxLeaf =>
  rw [h4] at h
  simp only at h
  by_cases h5 : g.minWeightFraction < 0 ∨ 1 / 2 < g.minWeightFraction
  · rw [if_pos h5] at h; cases h
  rw [if_neg h5] at h
  cases h6 : checkFeatures nFeat g.maxFeatures with
  | error e => rw [h6] at h; cases h
  | ok nd =>
  rw [h6] at h
  simp only at h
  by_cases h7 : g.minDecrease < 0
  · rw [if_pos h7] at h; cases h
  rw [if_neg h7] at h
  by_cases h8 : ce.length ≠ v.length
  · rw [if_pos h8] at h; cases h
  rw [if_neg h8] at h
  by_cases h9 : (weights.getD (List.replicate v.length 1)).length ≠ v.length
  · rw [if_pos h9] at h; cases h
  rw [if_neg h9] at h
  cases h10 : growPolicy E (pParams E g leaf split depth (givenWeights weights v.length))
      (fun N => criterionOf E N g.criterion) nd maxLeaf (pRows v ce (givenWeights weights v.length)) with
  | error e =>
    unfold givenWeights at h10
    rw [h10] at h; cases h
  | ok p =>
  have h10' := h10
  unfold givenWeights at h10'
  rw [h10'] at h
  cases h
  push Not at h5
  exact ⟨leaf, split, depth, nd, h1, h2, h3, h6, h5, not_lt.mp h7, not_ne_iff.mp h8, not_ne_iff.mp h9, rfl, rfl,
    maxLeaf, h4, h10⟩

theorem wTotal_active (l : List (PSample K d)) :
    wTotal (l.filter (fun a => decide (a.w ≠ 0))) = (l.map (fun a => a.w)).sum := by
  unfold wTotal
  induction l with
  | nil => rfl
  | cons a l ih =>
    by_cases h : a.w = 0
    · rw [List.filter_cons_of_neg (by simp [h]), ih]; simp [h]
    · rw [List.filter_cons_of_pos (by simp [h])]; simp only [List.map_cons, List.sum_cons, ih]

theorem wTotal_ones (l : List (PSample K d)) : wTotal (l.map (fun a => (⟨a.v, 1, a.y⟩ : PSample K d))) = (l.length : K) := by
  unfold wTotal
  induction l with
  | nil => simp
  | cons a l ih => simp only [List.map_cons, List.sum_cons, ih, List.length_cons]; push_cast; ring

theorem checkLeafNodes_none {o : Option Int} (h : checkLeafNodes o = .ok none) : o = none := by
  cases o with
  | none => rfl
  | some n =>
    by_cases hn : n < 2
    · rw [show checkLeafNodes (some n) = .error "ValueError" from if_pos hn] at h; cases h
    · rw [show checkLeafNodes (some n) = .ok (some n.toNat) from if_neg hn] at h; cases h

theorem checkLeafNodes_some {o : Option Int} {m : Nat} (h : checkLeafNodes o = .ok (some m)) :
    o = some (m : Int) ∧ 2 ≤ m := by
  cases o with
  | none => cases h
  | some n =>
    by_cases hn : n < 2
    · rw [show checkLeafNodes (some n) = .error "ValueError" from if_pos hn] at h; cases h
    · rw [show checkLeafNodes (some n) = .ok (some n.toNat) from if_neg hn] at h
      cases h
      constructor
      · congr 1; omega
      · omega

section fitted
variable {E : PEnv K d} {g : PSettings K} {nFeat : Nat} {v : List (Nat → K)} {ce : List (Fin d → K)}
  {weights : Option (List K)} {t : PFitted K d} {leaf split depth nd : Nat}

theorem pParams_sound (hE : SoundPEnv E) (ws : List K) : SoundParams (pParams E g leaf split depth ws) :=
  ⟨hE.perm, hE.sorted, hE.mid, hE.thr⟩

/-- the two builders -/
theorem fit_cases (h : FitFacts E g nFeat v ce weights t leaf split depth nd) (hc : g.criterion = "policy_reg") :
    (g.maxLeafNodes = none ∧ (t.nodes, t.depth) = build (pParams E g leaf split depth (givenWeights weights v.length))
        (policyReg E.alpha (wTotal (used g v ce weights))) (fun a => a.v) (fun a => a.w) (E.draw nd)
        (pRows v ce (givenWeights weights v.length)) ∧
      used g v ce weights = active (fun a => a.w) (pRows v ce (givenWeights weights v.length))) ∨
    (∃ m : Nat, g.maxLeafNodes = some (m : Int) ∧ 2 ≤ m ∧
      (t.nodes, t.depth) = buildBest (pParams E g leaf split depth (givenWeights weights v.length))
        (fun _ => policyReg E.alpha (wTotal (used g v ce weights))) (fun a => a.v) (E.draw nd) E.pick m
        (used g v ce weights)) := by
  obtain ⟨maxLeaf, h1, h2⟩ := h.grown
  have hcr : ∀ N, criterionOf E N g.criterion = .ok (policyReg E.alpha N) := by
    intro N; unfold criterionOf; rw [if_pos hc]
  cases maxLeaf with
  | none =>
    left
    have hn := checkLeafNodes_none h1
    have hu : used g v ce weights = active (fun a => a.w) (pRows v ce (givenWeights weights v.length)) := by
      unfold used; rw [if_pos hn]; rfl
    refine ⟨hn, ?_, hu⟩
    unfold growPolicy at h2
    simp only [hcr] at h2
    have hw : wTotal (used g v ce weights) =
        ((pRows v ce (givenWeights weights v.length)).map (fun a => a.w)).sum := by
      rw [hu]; exact wTotal_active _
    rw [hw]
    injection h2 with h2
    exact h2.symm
  | some m =>
    right
    obtain ⟨hn, hm⟩ := checkLeafNodes_some h1
    have hu : used g v ce weights = (pRows v ce (givenWeights weights v.length)).map (fun a => ⟨a.v, 1, a.y⟩) := by
      unfold used; rw [if_neg (by rw [hn]; simp)]
    refine ⟨m, hn, hm, ?_⟩
    unfold growPolicy at h2
    simp only [hcr] at h2
    have hw : wTotal (used g v ce weights) = ((pRows v ce (givenWeights weights v.length)).length : K) := by
      rw [hu]; exact wTotal_ones _
    rw [hw, hu]
    injection h2 with h2
    exact h2.symm

/-- what is known of every node -/
theorem fit_node (hE : SoundPEnv E) (h : FitFacts E g nFeat v ce weights t leaf split depth nd)
    (hc : g.criterion = "policy_reg") {i : Nat} {n : Node K (Fin d → K)} (hi : t.nodes[i]? = some n) :
    ∃ r : Rec (PSample K d) K, r.rows.Perm (atNode t (used g v ce weights) i) ∧
      r.impurity = E.alpha - maxOf (effTotal r.rows) / wTotal r.rows ∧ n.impurity = r.impurity ∧
      (g.maxLeafNodes = none → r.depth ≤ t.depth) ∧
      (g.maxLeafNodes = none → n.left = none →
        splitOf (pParams E g leaf split depth (givenWeights weights v.length))
          (policyReg E.alpha (wTotal (used g v ce weights))) (fun a => a.v) (E.draw nd) i r = none) ∧
      (n.left ≠ none → ∃ s, splitOf (pParams E g leaf split depth (givenWeights weights v.length))
          (policyReg E.alpha (wTotal (used g v ce weights))) (fun a => a.v) (E.draw nd) i r = some s ∧
        n.feature = s.split.feature ∧ n.threshold = s.split.threshold) := by
  rcases fit_cases h hc with ⟨h1, h2, h3⟩ | ⟨m, h1, _, h2⟩
  · have en := congrArg Prod.fst h2
    have ed := congrArg Prod.snd h2
    simp only at en ed
    rw [en] at hi
    obtain ⟨r, f1, f2, f3, f4, f5, f6⟩ := build_facts (pParams_sound hE _) (policyReg_sound _ _)
      (policyReg_regular _ _) _ _ _ _ hi
    refine ⟨r, ?_, ?_, f3, ?_, fun _ => f5, f6⟩
    · rw [h3]; unfold atNode; rw [en]; exact f1
    · rw [f2, sum_policy]; rfl
    · intro _; rw [ed]; exact f4
  · have en := congrArg Prod.fst h2
    simp only at en
    rw [en] at hi
    obtain ⟨r, f1, f2, f3, f4⟩ := best_facts (pParams_sound hE _) (policyReg_sound _ _)
      (policyReg_regular _ _) _ _ hE.heap _ _ hi
    refine ⟨r, ?_, ?_, f3, ?_, ?_, f4⟩
    · unfold atNode; rw [en]; exact f1
    · rw [f2, sum_policy]; rfl
    · intro hn; rw [h1] at hn; cases hn
    · intro hn; rw [h1] at hn; cases hn

/-- every query ends in a leaf, whose value is that of the samples in it; if there are any samples, it holds some -/
theorem fit_leaf (hE : SoundPEnv E) (h : FitFacts E g nFeat v ce weights t leaf split depth nd)
    (hc : g.criterion = "policy_reg") (q : Nat → K) :
    predict t.nodes q = some (fun k => effTotal (inLeaf t (used g v ce weights) q) k /
      wTotal (inLeaf t (used g v ce weights) q)) ∧
    (used g v ce weights ≠ [] → inLeaf t (used g v ce weights) q ≠ []) := by
  rcases fit_cases h hc with ⟨h1, h2, h3⟩ | ⟨m, h1, _, h2⟩
  · have en := congrArg Prod.fst h2
    simp only at en
    have hl : inLeaf t (used g v ce weights) q = sameLeaf t.nodes (fun a => a.v) (fun a => a.w)
        (pRows v ce (givenWeights weights v.length)) q := by rw [h3]; rfl
    constructor
    · rw [hl, en, C81_prediction (pParams_sound hE _) (policyReg_sound _ _), sum_policy]
      rfl
    · intro hne
      obtain ⟨n, g1, g2, g3, g4, g5⟩ := C82_leaf_size
        (P := pParams E g leaf split depth (givenWeights weights v.length)) (pParams_sound hE _)
        (policyReg_sound E.alpha (wTotal (used g v ce weights)))
        (fun a => a.v) (fun a => a.w) (E.draw nd) (pRows v ce (givenWeights weights v.length)) q
      rw [← en] at g1 g4 g5
      rw [← hl] at g4
      by_cases hs : 1 < t.nodes.length
      · have := (g5 hs).2
        intro h0
        rw [h0] at g4
        simp at g4
        omega
      · -- a single node
        intro h0
        have lt : ∀ q', apply t.nodes q' < t.nodes.length := by
          intro q'; rw [en]; exact leaf_lt (pParams_sound hE _) (policyReg_sound _ _) _ _ _ _ _
        obtain ⟨a, ha⟩ := List.exists_mem_of_ne_nil _ hne
        have : a ∈ inLeaf t (used g v ce weights) q := by
          unfold inLeaf
          rw [List.mem_filter]
          refine ⟨ha, ?_⟩
          have l1 := lt a.v
          have l2 := lt q
          simp only [decide_eq_true_eq]
          omega
        rw [h0] at this
        cases this
  · have en := congrArg Prod.fst h2
    simp only at en
    have hl : inLeaf t (used g v ce weights) q = mates t.nodes (fun a => a.v) (used g v ce weights) q := rfl
    constructor
    · obtain ⟨l, l1, l2⟩ := C87_prediction (P := pParams E g leaf split depth (givenWeights weights v.length))
        (C := fun _ => policyReg E.alpha (wTotal (used g v ce weights))) (x := fun a => a.v) (draw := E.draw nd)
        (pParams_sound hE _) (fun _ => policyReg_sound _ _) hE.heap m (used g v ce weights) q
      rw [← en] at l1 l2
      rw [l2, sum_policy, hl, ← wTotal_perm l1, ← effTotal_perm l1]
      rfl
    · intro hne
      obtain ⟨n, g1, g2, g3, g4, g5⟩ := C87_leaf_size
        (P := pParams E g leaf split depth (givenWeights weights v.length))
        (C := fun _ => policyReg E.alpha (wTotal (used g v ce weights))) (x := fun a => a.v) (draw := E.draw nd)
        (pParams_sound hE _) (fun _ => policyReg_sound _ _) hE.heap m (used g v ce weights) q
      rw [← en] at g1 g4 g5
      rw [← hl] at g4
      by_cases hs : 1 < t.nodes.length
      · have := (g5 hs).2
        intro h0
        rw [h0] at g4
        simp at g4
        omega
      · intro h0
        have lt : ∀ q', apply t.nodes q' < t.nodes.length := by
          intro q'
          obtain ⟨n', k1, _⟩ := C87_leaf_size
            (P := pParams E g leaf split depth (givenWeights weights v.length))
            (C := fun _ => policyReg E.alpha (wTotal (used g v ce weights))) (x := fun a => a.v) (draw := E.draw nd)
            (pParams_sound hE _) (fun _ => policyReg_sound _ _) hE.heap m (used g v ce weights) q'
          rw [← en] at k1
          exact (List.getElem?_eq_some_iff.mp k1).1
        obtain ⟨a, ha⟩ := List.exists_mem_of_ne_nil _ hne
        have : a ∈ inLeaf t (used g v ce weights) q := by
          unfold inLeaf
          rw [List.mem_filter]
          refine ⟨ha, ?_⟩
          have l1 := lt a.v
          have l2 := lt q
          simp only [decide_eq_true_eq]
          omega
        rw [h0] at this
        cases this

/-- **C99.** The value `predict_opt_effect` reports for treatment `k` at `q` is the weighted mean effect of `k` over
exactly the training samples in the leaf of `q`. -/
theorem C99_prediction (hE : SoundPEnv E) (hf : policyFit E g nFeat v ce weights = .ok t)
    (hc : g.criterion = "policy_reg") (hd : d ≠ 1) (qs : List (Nat → K)) :
    predictOptEffect t (some qs) = .ok (.matrix (qs.map (fun q => (List.finRange d).map (fun k =>
      effTotal (inLeaf t (used g v ce weights) q) k / wTotal (inLeaf t (used g v ce weights) q))))) := by
  obtain ⟨leaf, split, depth, nd, h⟩ := policyFit_ok hf
  unfold predictOptEffect prepare
  simp only
  rw [h.name, if_pos hc, if_neg hd, Option.getD_some]
  congr 2
  apply List.map_congr_left
  intro q _
  unfold leafValue
  rw [(fit_leaf hE h hc q).1]

omit [FloorRing K] in
theorem argmaxFrom_spec (full : List K) : ∀ (rest : List K) (i best : Nat) (b : K), full.drop i = rest →
    best < i → full[best]? = some b → (∀ (j : Nat) (x : K), j < i → full[j]? = some x → x ≤ b) →
    (∀ (j : Nat) (x : K), j < best → full[j]? = some x → x < b) →
    ∃ m, full[argmaxFrom i best b rest]? = some m ∧ (∀ (j : Nat) (x : K), full[j]? = some x → x ≤ m) ∧
      (∀ (j : Nat) (x : K), j < argmaxFrom i best b rest → full[j]? = some x → x < m) := by
  intro rest
  induction rest with
  | nil =>
    intro i best b hd hb hbv hle hlt
    refine ⟨b, hbv, ?_, hlt⟩
    intro j x hj
    apply hle j x _ hj
    have h1 := (List.getElem?_eq_some_iff.mp hj).1
    have h2 := List.drop_eq_nil_iff.mp hd
    omega
  | cons a rest ih =>
    intro i best b hd hb hbv hle hlt
    have hi : full[i]? = some a := by
      have := congrArg (fun l => l[0]?) hd
      simpa using this
    have hd' : full.drop (i + 1) = rest := by
      have := congrArg List.tail hd
      simpa using this
    unfold argmaxFrom
    by_cases h : b < a
    · rw [if_pos h]
      apply ih (i + 1) i a hd' (by omega) hi
      · intro j x hj hx
        by_cases hji : j = i
        · subst hji; rw [hi] at hx; cases hx; exact le_refl _
        · exact le_trans (hle j x (by omega) hx) h.le
      · intro j x hj hx
        exact lt_of_le_of_lt (hle j x hj hx) h
    · rw [if_neg h]
      apply ih (i + 1) best b hd' (by omega) hbv
      · intro j x hj hx
        by_cases hji : j = i
        · subst hji; rw [hi] at hx; cases hx; exact not_lt.mp h
        · exact hle j x (by omega) hx
      · exact hlt

omit [FloorRing K] in
theorem argmax_spec {row : List K} (hne : row ≠ []) : ∃ k m, argmax row = .ok k ∧ row[k]? = some m ∧
    (∀ (j : Nat) (x : K), row[j]? = some x → x ≤ m) ∧ (∀ (j : Nat) (x : K), j < k → row[j]? = some x → x < m) := by
  cases row with
  | nil => exact absurd rfl hne
  | cons a l =>
    obtain ⟨m, h1, h2, h3⟩ := argmaxFrom_spec (a :: l) l 1 0 a rfl (by omega) rfl
      (by intro j x hj hx; have : j = 0 := by omega
          subst this; simp at hx; exact hx.symm.le) (by intro j x hj; omega)
    exact ⟨_, m, rfl, h1, h2, h3⟩

omit [FloorRing K] in
theorem argmaxRows_eq {B : Type} (row : B → List K) (pick : B → Nat) : ∀ l : List B,
    (∀ b ∈ l, argmax (row b) = .ok (pick b)) → argmaxRows (l.map row) = .ok (l.map pick) := by
  intro l
  induction l with
  | nil => intro _; rfl
  | cons b l ih =>
    intro h
    rw [List.map_cons, List.map_cons]
    unfold argmaxRows
    rw [h b List.mem_cons_self, ih (fun b' hb' => h b' (List.mem_cons_of_mem _ hb'))]

omit [FloorRing K] in
theorem pRows_w {ws : List K} {a : PSample K d} (h : a ∈ pRows v ce ws) : a.w ∈ ws := by
  unfold pRows at h
  obtain ⟨p, hp, rfl⟩ := List.mem_map.mp h
  exact (List.of_mem_zip hp).2

omit [FloorRing K] in
theorem used_pos (hw : ∀ ws, weights = some ws → ∀ x ∈ ws, 0 ≤ x) {a : PSample K d}
    (h : a ∈ used g v ce weights) : 0 < a.w := by
  unfold used at h
  split at h
  · obtain ⟨h1, h2⟩ := List.mem_filter.mp h
    simp only [ne_eq, decide_not, Bool.not_eq_true', decide_eq_false_iff_not] at h2
    have h3 := pRows_w h1
    have : 0 ≤ a.w := by
      unfold givenWeights at h3
      cases weights with
      | none =>
        rw [Option.getD_none] at h3
        rw [(List.mem_replicate.mp h3).2]
        exact zero_le_one
      | some ws => exact hw ws rfl _ h3
    exact lt_of_le_of_ne this (Ne.symm h2)
  · obtain ⟨b, _, rfl⟩ := List.mem_map.mp h
    exact zero_lt_one

omit [FloorRing K] in
theorem wTotal_pos {l : List (PSample K d)} (hne : l ≠ []) (hp : ∀ a ∈ l, 0 < a.w) : 0 < wTotal l := by
  unfold wTotal
  cases l with
  | nil => exact absurd rfl hne
  | cons a l =>
    rw [List.map_cons, List.sum_cons]
    have h1 := hp a List.mem_cons_self
    have h2 : 0 ≤ (l.map (fun a => a.w)).sum := by
      apply List.sum_nonneg
      intro x hx
      obtain ⟨b, hb, rfl⟩ := List.mem_map.mp hx
      exact (hp b (List.mem_cons_of_mem _ hb)).le
    linarith

/-- `k` is the first of the treatments with the largest total effect on a set of samples -/
def FirstBest (l : List (PSample K d)) (k : Fin d) : Prop :=
  (∀ j, effTotal l j ≤ effTotal l k) ∧ ∀ j, j < k → effTotal l j < effTotal l k

/-- **C99.** With at least two treatments and samples of nonnegative weight, `predict_ind` answers for every row the
first of the treatments whose total (equivalently mean) effect on the training samples in the row's leaf is largest. -/
theorem C99_recommendation (hE : SoundPEnv E) (hf : policyFit E g nFeat v ce weights = .ok t)
    (hc : g.criterion = "policy_reg") (hd : 2 ≤ d) (hw : ∀ ws, weights = some ws → ∀ x ∈ ws, 0 ≤ x)
    (hne : used g v ce weights ≠ []) :
    ∃ pol : (Nat → K) → Fin d, (∀ qs, predictInd t (some qs) = .ok (qs.map (fun q => (pol q).val))) ∧
      predictInd t none = .ok (v.map (fun q => (pol q).val)) ∧
      ∀ q, FirstBest (inLeaf t (used g v ce weights) q) (pol q) := by
  obtain ⟨leaf, split, depth, nd, h⟩ := policyFit_ok hf
  have key : ∀ q, ∃ k : Fin d, argmax (leafValue t q) = .ok k.val ∧
      FirstBest (inLeaf t (used g v ce weights) q) k := by
    intro q
    obtain ⟨h1, h2⟩ := fit_leaf hE h hc q
    have hpos := wTotal_pos (h2 hne) (fun a ha => used_pos (g := g) (v := v) (ce := ce) hw (List.mem_filter.mp ha).1)
    have hv : leafValue t q = (List.finRange d).map (fun k => effTotal (inLeaf t (used g v ce weights) q) k /
        wTotal (inLeaf t (used g v ce weights) q)) := by
      unfold leafValue; rw [h1]
    have hget : ∀ j : Fin d, (leafValue t q)[j.val]? =
        some (effTotal (inLeaf t (used g v ce weights) q) j / wTotal (inLeaf t (used g v ce weights) q)) := by
      intro j
      rw [hv, List.getElem?_map, List.getElem?_eq_getElem (by simp)]
      simp
    have hnil : leafValue t q ≠ [] := by
      intro h0
      have := hget ⟨0, by omega⟩
      rw [h0] at this
      cases this
    obtain ⟨k, m, a1, a2, a3, a4⟩ := argmax_spec hnil
    have hk : k < d := by
      have := (List.getElem?_eq_some_iff.mp a2).1
      rw [hv] at this
      simpa using this
    have hm := hget ⟨k, hk⟩
    simp only at hm
    rw [a2] at hm
    injection hm with hm
    refine ⟨⟨k, hk⟩, a1, ?_, ?_⟩
    · intro j
      have := a3 j.val _ (hget j)
      rw [hm] at this
      exact (div_le_div_iff_of_pos_right hpos).mp this
    · intro j hj
      have := a4 j.val _ hj (hget j)
      rw [hm] at this
      exact (div_lt_div_iff_of_pos_right hpos).mp this
  choose pol p1 p2 using key
  have hpre : ∀ qs, prepare t (some qs) = .ok (.matrix (qs.map (leafValue t))) := by
    intro qs
    unfold prepare
    simp only
    rw [h.name, if_pos hc, if_neg (by omega), Option.getD_some]
  have hpre0 : prepare t none = .ok (.matrix (v.map (leafValue t))) := by
    unfold prepare
    simp only
    rw [h.name, if_pos hc, if_neg (by omega), Option.getD_none, h.keeps]
  refine ⟨pol, ?_, ?_, p2⟩
  · intro qs
    unfold predictInd
    rw [hpre]
    exact argmaxRows_eq _ _ qs (fun q _ => p1 q)
  · unfold predictInd
    rw [hpre0]
    exact argmaxRows_eq _ _ v (fun q _ => p1 q)

omit [FloorRing K] in
theorem sum_by_leaf {B : Type} (f : B → K) (leafOf : B → Nat) (N : Nat) : ∀ l : List B, (∀ a ∈ l, leafOf a < N) →
    (l.map f).sum = ∑ i ∈ Finset.range N, ((l.filter (fun a => decide (leafOf a = i))).map f).sum := by
  intro l
  induction l with
  | nil => intro _; simp
  | cons a l ih =>
    intro h
    rw [List.map_cons, List.sum_cons, ih (fun b hb => h b (List.mem_cons_of_mem _ hb))]
    have e : ∀ i, (((a :: l).filter (fun a => decide (leafOf a = i))).map f).sum =
        (if leafOf a = i then f a else 0) + ((l.filter (fun a => decide (leafOf a = i))).map f).sum := by
      intro i
      by_cases hi : leafOf a = i
      · rw [List.filter_cons_of_pos (by simp [hi]), if_pos hi, List.map_cons, List.sum_cons]
      · rw [List.filter_cons_of_neg (by simp [hi]), if_neg hi, zero_add]
    simp only [e]
    rw [Finset.sum_add_distrib, Finset.sum_ite_eq, if_pos (Finset.mem_range.mpr (h a List.mem_cons_self))]

/-- **C99.** On the training samples the fitted policy is at least as good as any way to assign one treatment to each
leaf of the tree; in particular as giving everybody the same treatment. -/
theorem C99_policy_value (hE : SoundPEnv E) (hf : policyFit E g nFeat v ce weights = .ok t)
    (hc : g.criterion = "policy_reg") (hd : 2 ≤ d) (hw : ∀ ws, weights = some ws → ∀ x ∈ ws, 0 ≤ x)
    (hne : used g v ce weights ≠ []) (pol : (Nat → K) → Fin d)
    (hpol : ∀ q, predictInd t (some [q]) = .ok [(pol q).val]) (other : Nat → Fin d) :
    ((used g v ce weights).map (fun a => a.w * a.y (other (apply t.nodes a.v)))).sum ≤
      ((used g v ce weights).map (fun a => a.w * a.y (pol a.v))).sum := by
  obtain ⟨pol', q1, _, q3⟩ := C99_recommendation hE hf hc hd hw hne
  have hpp : ∀ q, pol q = pol' q := by
    intro q
    have a := hpol q
    rw [q1 [q]] at a
    simp only [List.map_cons, List.map_nil, Except.ok.injEq, List.cons.injEq, and_true] at a
    exact Fin.ext a.symm
  obtain ⟨N, hN⟩ : ∃ N, ∀ a ∈ used g v ce weights, apply t.nodes a.v < N := by
    refine ⟨((used g v ce weights).map (fun a => apply t.nodes a.v)).sum + 1, ?_⟩
    intro a ha
    have := List.single_le_sum (l := (used g v ce weights).map (fun a => apply t.nodes a.v)) (by simp)
      _ (List.mem_map_of_mem ha)
    exact Nat.lt_succ_of_le this
  rw [sum_by_leaf _ (fun a => apply t.nodes a.v) N _ hN, sum_by_leaf _ (fun a => apply t.nodes a.v) N _ hN]
  apply Finset.sum_le_sum
  intro i _
  by_cases hem : (used g v ce weights).filter (fun a => decide (apply t.nodes a.v = i)) = []
  · rw [hem]; exact le_refl _
  · obtain ⟨b, hb⟩ := List.exists_mem_of_ne_nil _ hem
    obtain ⟨_, hbi⟩ := List.mem_filter.mp hb
    simp only [decide_eq_true_eq] at hbi
    have hl : (used g v ce weights).filter (fun a => decide (apply t.nodes a.v = i)) =
        inLeaf t (used g v ce weights) b.v := by unfold inLeaf; rw [hbi]
    have hsame : ∀ a ∈ (used g v ce weights).filter (fun a => decide (apply t.nodes a.v = i)), pol a.v = pol b.v := by
      intro a ha
      obtain ⟨_, hai⟩ := List.mem_filter.mp ha
      simp only [decide_eq_true_eq] at hai
      have fa := q3 a.v
      have fb := q3 b.v
      rw [← hpp] at fa fb
      have e : inLeaf t (used g v ce weights) a.v = inLeaf t (used g v ce weights) b.v := by
        unfold inLeaf; rw [hai, hbi]
      rw [e] at fa
      rcases lt_trichotomy (pol a.v) (pol b.v) with h | h | h
      · exact absurd (fa.1 (pol b.v)) (not_le.mpr (fb.2 _ h))
      · exact h
      · exact absurd (fb.1 (pol a.v)) (not_le.mpr (fa.2 _ h))
    have e1 : ((used g v ce weights).filter (fun a => decide (apply t.nodes a.v = i))).map
        (fun a => a.w * a.y (other (apply t.nodes a.v))) =
        ((used g v ce weights).filter (fun a => decide (apply t.nodes a.v = i))).map (fun a => a.w * a.y (other i)) := by
      apply List.map_congr_left
      intro a ha
      obtain ⟨_, hai⟩ := List.mem_filter.mp ha
      simp only [decide_eq_true_eq] at hai
      rw [hai]
    have e2 : ((used g v ce weights).filter (fun a => decide (apply t.nodes a.v = i))).map
        (fun a => a.w * a.y (pol a.v)) =
        ((used g v ce weights).filter (fun a => decide (apply t.nodes a.v = i))).map (fun a => a.w * a.y (pol b.v)) := by
      apply List.map_congr_left
      intro a ha
      rw [hsame a ha]
    rw [e1, e2, hl, hpp]
    exact (q3 b.v).1 (other i)

/-- **C99, refuted for a single effect column.** `predict_ind` raises whatever the fitted tree is, whenever there is
just one column of effects (for instance of a binary treatment against a control, given as one effect). -/
theorem C99_single_effect_refuted (t : PFitted K 1) (qs : Option (List (Nat → K))) :
    ∃ e, predictInd t qs = .error e ∧ interpret t qs = .error e := by
  unfold predictInd interpret prepare
  simp only
  by_cases h : t.criterion = "policy_reg"
  · rw [if_pos h, if_pos trivial]; exact ⟨_, rfl, rfl⟩
  · rw [if_neg h]; exact ⟨_, rfl, rfl⟩

/-- **C99, refuted for the other criteria.** A tree can be fitted with `"policy_test"` and `"policy_test1"`, but nothing
can be predicted from it. -/
theorem C99_other_criteria_refuted (hf : policyFit E g nFeat v ce weights = .ok t) (hc : g.criterion ≠ "policy_reg")
    (qs : Option (List (Nat → K))) :
    predictOptEffect t qs = .error "ValueError" ∧ predictInd t qs = .error "ValueError" := by
  obtain ⟨leaf, split, depth, nd, h⟩ := policyFit_ok hf
  have : prepare t qs = .error "ValueError" := by
    unfold prepare
    simp only
    rw [h.name, if_neg hc]
  exact ⟨this, by unfold predictInd; rw [this]⟩

/-- **C100.** Every inner node splits the training samples that reach it by an admissible cut; among the admissible cuts
along the covariates drawn at the node it is one with the largest total effect when each side gets its best treatment;
and it gains at least `min_impurity_decrease` (up to the rounding constant) per unit of weight of the whole sample. -/
theorem C100_best_split [NeZero d] (hE : SoundPEnv E) (hf : policyFit E g nFeat v ce weights = .ok t)
    (hc : g.criterion = "policy_reg") (hw : ∀ ws, weights = some ws → ∀ x ∈ ws, 0 ≤ x)
    {leaf nd : Nat} (hleaf : checkLeaf v.length g.minSamplesLeaf = .ok leaf)
    (hnd : checkFeatures nFeat g.maxFeatures = .ok nd)
    {i : Nat} {n : Node K (Fin d → K)} (hi : t.nodes[i]? = some n) (hn : n.left ≠ none) :
    let S := atNode t (used g v ce weights) i
    let mw := g.minWeightFraction * (givenWeights weights v.length).sum
    PolicyCut leaf mw S n.feature n.threshold ∧
    (∀ f ∈ E.draw nd i, ∀ u, PolicyCut leaf mw S f u → Apart E.thr (fun a => a.v) S f u →
      cutTotal S f u ≤ cutTotal S n.feature n.threshold) ∧
    g.minDecrease ≤ (cutTotal S n.feature n.threshold - bestTotal S) / wTotal (used g v ce weights) + E.eps := by
  intro S mw
  obtain ⟨leaf', split, depth, nd', h⟩ := policyFit_ok hf
  have e1 : leaf' = leaf := by have := h.leafOk; rw [hleaf] at this; cases this; rfl
  have e2 : nd' = nd := by have := h.featuresOk; rw [hnd] at this; cases this; rfl
  subst e1 e2
  obtain ⟨r, f1, f2, f3, _, _, f6⟩ := fit_node hE h hc hi
  obtain ⟨s, s1, s2, s3⟩ := f6 hn
  obtain ⟨a1, a2, a3, a4, a5, a6, a7⟩ := splitOf_spec (pParams_sound hE _) (policyReg_sound _ _) _ _ _ _ _ s1
  obtain ⟨_, _, b3⟩ := split_impurity (pParams_sound hE _) (policyReg_sound _ _) (policyReg_regular _ _) a7
  rw [s2, s3]
  have hcut : PolicyCut leaf' mw S s.split.feature s.split.threshold :=
    policy_admissible.mp (admissible_perm f1 a1)
  refine ⟨hcut, ?_, ?_⟩
  · intro f hfd u hu hap
    rw [← policy_score E.alpha (wTotal (used g v ce weights)), ← policy_score E.alpha (wTotal (used g v ce weights)),
      ← score_perm f1, ← score_perm f1]
    refine a4 f hfd u (admissible_perm f1.symm (policy_admissible.mpr hu)) ?_
    intro a ha b hb
    exact hap a (f1.subset ha) b (f1.subset hb)
  · have hpos : ∀ a ∈ r.rows, 0 < a.w := by
      intro a ha
      exact used_pos (g := g) (v := v) (ce := ce) hw (List.mem_filter.mp (f1.subset ha)).1
    obtain ⟨_, _, c3, c4, _, _⟩ := (policy_admissible (alpha := E.alpha) (N := wTotal (used g v ce weights))).mp a1
    have hSne : r.rows ≠ [] := by
      intro h0; rw [h0] at c3; simp at c3
    have him := policy_improvement E.alpha (wTotal (used g v ce weights)) r.rows s.split.feature s.split.threshold
      (ne_of_gt (wTotal_pos hSne hpos))
      (ne_of_gt (wTotal_pos (List.ne_nil_of_length_pos c3) (fun a ha => hpos a (List.mem_filter.mp ha).1)))
      (ne_of_gt (wTotal_pos (List.ne_nil_of_length_pos c4) (fun a ha => hpos a (List.mem_filter.mp ha).1)))
    have e : r.impurity = (policyReg E.alpha (wTotal (used g v ce weights))).nodeImpurity
        (r.rows.map (policyReg E.alpha (wTotal (used g v ce weights))).contrib).sum := by
      rw [f2, sum_policy]; rfl
    rw [← e, ← b3] at him
    rw [him] at a6
    have p1 : cutTotal r.rows s.split.feature s.split.threshold = cutTotal S s.split.feature s.split.threshold := by
      unfold cutTotal
      rw [bestTotal_perm (f1.filter _), bestTotal_perm (f1.filter _)]
    rw [p1, bestTotal_perm f1] at a6
    exact not_lt.mp a6

/-- **C100.** Without `max_leaf_nodes`, and when the depth limit does not bind, a leaf is a leaf because it has too few
samples or too little weight, because its mean effect is (up to the rounding constant) at least the constant `alpha`,
because there is no admissible cut along the drawn covariates, or because the best such cut gains less than
`min_impurity_decrease`. -/
theorem C100_leaf_reason [NeZero d] (hE : SoundPEnv E) (hf : policyFit E g nFeat v ce weights = .ok t)
    (hc : g.criterion = "policy_reg") (hw : ∀ ws, weights = some ws → ∀ x ∈ ws, 0 ≤ x)
    (hm : g.maxLeafNodes = none)
    {leaf split depth nd : Nat} (hleaf : checkLeaf v.length g.minSamplesLeaf = .ok leaf)
    (hsplit : checkSplit v.length leaf g.minSamplesSplit = .ok split)
    (hdepth : checkDepth E.big g.maxDepth = .ok depth)
    (hnd : checkFeatures nFeat g.maxFeatures = .ok nd) (hlim : t.depth < depth)
    {i : Nat} {n : Node K (Fin d → K)} (hi : t.nodes[i]? = some n) (hn : n.left = none) :
    let S := atNode t (used g v ce weights) i
    let mw := g.minWeightFraction * (givenWeights weights v.length).sum
    S.length < split ∨ S.length < 2 * leaf ∨ wTotal S < 2 * mw ∨ E.alpha - bestTotal S / wTotal S ≤ E.eps ∨
    (∀ f ∈ E.draw nd i, ∀ u, PolicyCut leaf mw S f u → ¬ Apart E.thr (fun a => a.v) S f u) ∨
    (∃ f u, PolicyCut leaf mw S f u ∧
      (∀ f' ∈ E.draw nd i, ∀ u', PolicyCut leaf mw S f' u' → Apart E.thr (fun a => a.v) S f' u' →
        cutTotal S f' u' ≤ cutTotal S f u) ∧
      (cutTotal S f u - bestTotal S) / wTotal (used g v ce weights) + E.eps < g.minDecrease) := by
  intro S mw
  obtain ⟨leaf', split', depth', nd', h⟩ := policyFit_ok hf
  have e1 : leaf' = leaf := by have := h.leafOk; rw [hleaf] at this; cases this; rfl
  subst e1
  have e2 : nd' = nd := by have := h.featuresOk; rw [hnd] at this; cases this; rfl
  have e3 : split' = split := by have := h.splitOk; rw [hsplit] at this; cases this; rfl
  have e4 : depth' = depth := by have := h.depthOk; rw [hdepth] at this; cases this; rfl
  subst e2 e3 e4
  obtain ⟨r, f1, f2, f3, f4, f5, _⟩ := fit_node hE h hc hi
  have hs := f5 hm hn
  have hdep := f4 hm
  have hlen : r.rows.length = S.length := f1.length_eq
  have hpos : ∀ a ∈ r.rows, 0 < a.w := by
    intro a ha
    exact used_pos (g := g) (v := v) (ce := ce) hw (List.mem_filter.mp (f1.subset ha)).1
  unfold splitOf at hs
  by_cases hst : stops (pParams E g leaf' split' depth' (givenWeights weights v.length))
      (policyReg E.alpha (wTotal (used g v ce weights))) r = true
  · unfold stops at hst
    simp only [Bool.or_eq_true, decide_eq_true_eq] at hst
    rcases hst with (((h | h) | h) | h) | h
    · omega
    · left; omega
    · right; left; omega
    · right; right; left
      rw [← wTotal_perm f1]; exact h
    · right; right; right; left
      rw [f2, maxOf_eq, bestTotal_perm f1, wTotal_perm f1] at h
      exact h
  · rw [if_neg hst] at hs
    have hsp := nodeSplit_spec (pParams_sound (leaf := leaf') (split := split') (depth := depth') (g := g) hE
      (givenWeights weights v.length)) (policyReg_sound E.alpha (wTotal (used g v ce weights)))
      (fun a => a.v) (E.draw nd' i) r.rows r.impurity
    cases hns : nodeSplit (pParams E g leaf' split' depth' (givenWeights weights v.length))
        (policyReg E.alpha (wTotal (used g v ce weights))) (fun a => a.v) (E.draw nd' i) r.rows r.impurity with
    | none =>
      rw [hns] at hsp
      right; right; right; right; left
      intro f hfd u hu hap
      refine hsp f hfd u (admissible_perm f1.symm (policy_admissible.mpr hu)) ?_
      intro a ha b hb
      exact hap a (f1.subset ha) b (f1.subset hb)
    | some s =>
      obtain ⟨_, _, b3⟩ := split_impurity (pParams_sound hE _) (policyReg_sound _ _) (policyReg_regular _ _) hns
      rw [hns] at hs hsp
      simp only at hs hsp
      obtain ⟨a1, _, _, _, a5, _⟩ := hsp
      by_cases him : s.improvement + E.eps < g.minDecrease
      · right; right; right; right; right
        refine ⟨_, _, policy_admissible.mp (admissible_perm f1 a1), ?_, ?_⟩
        · intro f hfd u hu hap
          rw [← policy_score E.alpha (wTotal (used g v ce weights)),
            ← policy_score E.alpha (wTotal (used g v ce weights)), ← score_perm f1, ← score_perm f1]
          refine a5 f hfd u (admissible_perm f1.symm (policy_admissible.mpr hu)) ?_
          intro a ha b hb
          exact hap a (f1.subset ha) b (f1.subset hb)
        · obtain ⟨_, _, c3, c4, _, _⟩ := (policy_admissible (alpha := E.alpha)
            (N := wTotal (used g v ce weights))).mp a1
          have hSne : r.rows ≠ [] := by
            intro h0; rw [h0] at c3; simp at c3
          have himp := policy_improvement E.alpha (wTotal (used g v ce weights)) r.rows s.split.feature s.split.threshold
            (ne_of_gt (wTotal_pos hSne hpos))
            (ne_of_gt (wTotal_pos (List.ne_nil_of_length_pos c3) (fun a ha => hpos a (List.mem_filter.mp ha).1)))
            (ne_of_gt (wTotal_pos (List.ne_nil_of_length_pos c4) (fun a ha => hpos a (List.mem_filter.mp ha).1)))
          have e : r.impurity = (policyReg E.alpha (wTotal (used g v ce weights))).nodeImpurity
              (r.rows.map (policyReg E.alpha (wTotal (used g v ce weights))).contrib).sum := by
            rw [f2, sum_policy]; rfl
          rw [← e, ← b3] at himp
          rw [himp] at him
          have p1 : cutTotal r.rows s.split.feature s.split.threshold =
              cutTotal S s.split.feature s.split.threshold := by
            unfold cutTotal
            rw [bestTotal_perm (f1.filter _), bestTotal_perm (f1.filter _)]
          rw [p1, bestTotal_perm f1] at him
          exact him
      · rw [if_neg him] at hs; cases hs

/-- **C100.** With the default `min_impurity_decrease = 0` a split is never refused for want of gain: a leaf that is not
forced by the limits, and whose mean effect is below the constant `alpha`, has no admissible cut left at all. -/
theorem C100_default_splits_on [NeZero d] (hE : SoundPEnv E) (heps : 0 ≤ E.eps)
    (hf : policyFit E g nFeat v ce weights = .ok t)
    (hc : g.criterion = "policy_reg") (hw : ∀ ws, weights = some ws → ∀ x ∈ ws, 0 ≤ x)
    (hm : g.maxLeafNodes = none) (hdec : g.minDecrease = 0)
    {leaf split depth nd : Nat} (hleaf : checkLeaf v.length g.minSamplesLeaf = .ok leaf)
    (hsplit : checkSplit v.length leaf g.minSamplesSplit = .ok split)
    (hdepth : checkDepth E.big g.maxDepth = .ok depth)
    (hnd : checkFeatures nFeat g.maxFeatures = .ok nd) (hlim : t.depth < depth)
    {i : Nat} {n : Node K (Fin d → K)} (hi : t.nodes[i]? = some n) (hn : n.left = none) :
    let S := atNode t (used g v ce weights) i
    let mw := g.minWeightFraction * (givenWeights weights v.length).sum
    S.length < split ∨ S.length < 2 * leaf ∨ wTotal S < 2 * mw ∨ E.alpha - bestTotal S / wTotal S ≤ E.eps ∨
    (∀ f ∈ E.draw nd i, ∀ u, PolicyCut leaf mw S f u → ¬ Apart E.thr (fun a => a.v) S f u) := by
  intro S mw
  rcases C100_leaf_reason hE hf hc hw hm hleaf hsplit hdepth hnd hlim hi hn with h | h | h | h | h | ⟨f, u, h1, h2, h3⟩
  · exact Or.inl h
  · exact Or.inr (Or.inl h)
  · exact Or.inr (Or.inr (Or.inl h))
  · exact Or.inr (Or.inr (Or.inr (Or.inl h)))
  · exact Or.inr (Or.inr (Or.inr (Or.inr h)))
  · exfalso
    rw [hdec] at h3
    have g1 := C100_cut_gains S f u
    have g2 : 0 ≤ wTotal (used g v ce weights) := by
      apply List.sum_nonneg
      intro x hx
      obtain ⟨a, ha, rfl⟩ := List.mem_map.mp hx
      exact (used_pos hw ha).le
    have g3 : 0 ≤ (cutTotal S f u - bestTotal S) / wTotal (used g v ce weights) :=
      div_nonneg (sub_nonneg.mpr g1) g2
    change (cutTotal S f u - bestTotal S) / wTotal (used g v ce weights) + E.eps < 0 at h3
    linarith

/-- **C100.** With `max_leaf_nodes = m` the tree has at most `m` leaves. -/
theorem C100_max_leaves (hE : SoundPEnv E) (hf : policyFit E g nFeat v ce weights = .ok t)
    (hc : g.criterion = "policy_reg") {m : Int} (hm : g.maxLeafNodes = some m) :
    ((t.nodes.filter (fun n => n.left.isNone)).length : Int) ≤ m := by
  obtain ⟨leaf, split, depth, nd, h⟩ := policyFit_ok hf
  rcases fit_cases h hc with ⟨h1, _⟩ | ⟨m', h1, h2, h3⟩
  · rw [hm] at h1; cases h1
  · rw [hm] at h1
    cases h1
    have en := congrArg Prod.fst h3
    simp only at en
    have := (C88_max_leaf_nodes (P := pParams E g leaf split depth (givenWeights weights v.length))
        (C := fun _ => policyReg E.alpha (wTotal (used g v ce weights))) (x := fun a => a.v) (draw := E.draw nd)
        hE.heap m' (used g v ce weights)).1
    rw [← en, max_eq_right (by omega)] at this
    exact_mod_cast this

/-! ### explanations -/

/-- children come after their parents -/
def Forward {V : Type} (nodes : List (Node K V)) : Prop :=
  ∀ (i : Nat) (n : Node K V), nodes[i]? = some n → (n.left = none ∧ n.right = none) ∨
    ∃ l r, n.left = some l ∧ n.right = some r ∧ i < l ∧ i < r ∧ l < nodes.length ∧ r < nodes.length

omit [FloorRing K] in
theorem flat_forward {A M V : Type} [AddCommGroup M] (C : Criterion A M K V) (t : T A K) : ∀ (id i : Nat) (n : Node K V),
    (t.flat C id)[i]? = some n → (n.left = none ∧ n.right = none) ∨
    ∃ l r, n.left = some l ∧ n.right = some r ∧ id + i < l ∧ id + i < r ∧ l < id + t.size ∧ r < id + t.size := by
  induction t with
  | leaf r =>
    intro id i n h
    cases i with
    | zero => simp [T.flat] at h; subst h; exact Or.inl ⟨rfl, rfl⟩
    | succ i => simp [T.flat] at h
  | node r s tl tr ih1 ih2 =>
    intro id i n h
    cases i with
    | zero =>
      simp only [T.flat, List.getElem?_cons_zero, Option.some.injEq] at h
      subst h
      right
      have := T.size_pos tl
      have := T.size_pos tr
      refine ⟨_, _, rfl, rfl, ?_, ?_, ?_, ?_⟩ <;> (try simp only [T.size]) <;> omega
    | succ i =>
      simp only [T.flat, List.getElem?_cons_succ] at h
      by_cases hi : i < tl.size
      · rw [List.getElem?_append_left (by rw [T.flat_length]; exact hi)] at h
        rcases ih1 _ _ _ h with hl | ⟨l, r, a, b, c, d, e, f⟩
        · exact Or.inl hl
        · right
          refine ⟨l, r, a, b, ?_, ?_, ?_, ?_⟩ <;> (try simp only [T.size]) <;> omega
      · rw [List.getElem?_append_right (by rw [T.flat_length]; omega), T.flat_length] at h
        rcases ih2 _ _ _ h with hl | ⟨l, r, a, b, c, d, e, f⟩
        · exact Or.inl hl
        · right
          refine ⟨l, r, a, b, ?_, ?_, ?_, ?_⟩ <;> (try simp only [T.size]) <;> omega

theorem fit_forward (hE : SoundPEnv E) (h : FitFacts E g nFeat v ce weights t leaf split depth nd)
    (hc : g.criterion = "policy_reg") : Forward t.nodes ∧ 0 < t.nodes.length := by
  rcases fit_cases h hc with ⟨h1, h2, h3⟩ | ⟨m, h1, _, h2⟩
  · rw [build_eq (pParams_sound hE _) (policyReg_sound _ _)] at h2
    have en := congrArg Prod.fst h2
    simp only at en
    rw [en]
    constructor
    · intro i n hi
      have := flat_forward _ _ 0 i n hi
      simpa [T.flat_length] using this
    · rw [T.flat_length]; exact T.size_pos _
  · obtain ⟨G, sp, dd, e, hI, _, _⟩ :=
      buildBest_spec (P := pParams E g leaf split depth (givenWeights weights v.length))
        (C := fun _ => policyReg E.alpha (wTotal (used g v ce weights))) (x := fun a => a.v) (draw := E.draw nd)
        hE.heap m (used g v ce weights)
    rw [e] at h2
    have en := congrArg Prod.fst h2
    simp only at en
    rw [en]
    constructor
    · intro i n hi
      rw [List.getElem?_map] at hi
      cases hg : G[i]? with
      | none => rw [hg] at hi; cases hi
      | some rn =>
        obtain ⟨r, n'⟩ := rn
        rw [hg] at hi
        cases hi
        rcases hI.shape i r n' hg with hh | ⟨s, l, nl, nr, s1, s2, s3, s4, s5, s6, _⟩
        · exact Or.inl hh
        · right
          have l1 := (List.getElem?_eq_some_iff.mp s5).1
          have l2 := (List.getElem?_eq_some_iff.mp s6).1
          exact ⟨l, l + 1, s2, s3, s4, by omega, by simpa using l1, by simpa using l2⟩
    · simpa using root_lt hI

omit [FloorRing K] in
/-- what the way of a sample from node `i` on looks like in a tree whose children come after their parents -/
theorem pathFrom_spec {V : Type} {nodes : List (Node K V)} (hF : Forward nodes) (q : Nat → K) : ∀ (fuel i : Nat),
    nodes.length - i ≤ fuel → i < nodes.length →
    (∃ n, nodes[walk nodes q fuel i]? = some n ∧ n.left = none ∧ n.right = none) ∧ i ≤ walk nodes q fuel i ∧
    walk nodes q fuel i ∈ pathFrom nodes q fuel i ∧
    (∀ j ∈ pathFrom nodes q fuel i, i ≤ j ∧ (j ≠ walk nodes q fuel i → ∃ n, nodes[j]? = some n ∧ n.left ≠ none)) ∧
    (∀ q' : Nat → K, (∀ j ∈ pathFrom nodes q fuel i, j ≠ walk nodes q fuel i → ∀ n, nodes[j]? = some n →
      (q' n.feature ≤ n.threshold ↔ q n.feature ≤ n.threshold)) → walk nodes q' fuel i = walk nodes q fuel i) ∧
    (∀ j, j ∈ pathFrom nodes q fuel i ↔ ∃ k, k ≤ fuel ∧ walk nodes q k i = j) := by
  intro fuel
  induction fuel with
  | zero => intro i h1 h2; omega
  | succ fuel ih =>
    intro i h1 h2
    have hget : nodes[i]? = some nodes[i] := List.getElem?_eq_getElem h2
    rcases hF i _ hget with ⟨hl, hr⟩ | ⟨l, r, hl, hr, l1, l2, l3, l4⟩
    · have hw : ∀ (q' : Nat → K) (k : Nat), walk nodes q' k i = i := by
        intro q' k; cases k with
        | zero => rfl
        | succ k => unfold walk; rw [hget]; simp only [hl]
      have hp : pathFrom nodes q (fuel + 1) i = [i] := by
        unfold pathFrom; rw [hget]; simp only [hl]
      rw [hw, hp]
      refine ⟨⟨_, hget, hl, hr⟩, le_refl _, List.mem_singleton.mpr rfl, ?_, fun q' _ => hw q' _, ?_⟩
      · intro j hj
        rw [List.mem_singleton] at hj
        exact ⟨by omega, fun h => absurd hj h⟩
      · intro j
        rw [List.mem_singleton]
        constructor
        · rintro rfl; exact ⟨0, Nat.zero_le _, rfl⟩
        · rintro ⟨k, _, rfl⟩; exact hw _ _
    · have hw : ∀ (q' : Nat → K) (k : Nat), walk nodes q' (k + 1) i =
          if q' nodes[i].feature ≤ nodes[i].threshold then walk nodes q' k l else walk nodes q' k r := by
        intro q' k
        conv_lhs => unfold walk
        rw [hget]; simp only [hl, hr]
      have hp : pathFrom nodes q (fuel + 1) i =
          i :: (if q nodes[i].feature ≤ nodes[i].threshold then pathFrom nodes q fuel l else pathFrom nodes q fuel r) := by
        conv_lhs => unfold pathFrom
        rw [hget]; simp only [hl, hr]
      have main : ∀ c, i < c → c < nodes.length →
          (if q nodes[i].feature ≤ nodes[i].threshold then pathFrom nodes q fuel l else pathFrom nodes q fuel r) =
            pathFrom nodes q fuel c → (∀ (q' : Nat → K) (k : Nat),
              (q' nodes[i].feature ≤ nodes[i].threshold ↔ q nodes[i].feature ≤ nodes[i].threshold) →
              walk nodes q' (k + 1) i = walk nodes q' k c) →
          (∃ n, nodes[walk nodes q (fuel + 1) i]? = some n ∧ n.left = none ∧ n.right = none) ∧
          i ≤ walk nodes q (fuel + 1) i ∧
          walk nodes q (fuel + 1) i ∈ pathFrom nodes q (fuel + 1) i ∧
          (∀ j ∈ pathFrom nodes q (fuel + 1) i, i ≤ j ∧
            (j ≠ walk nodes q (fuel + 1) i → ∃ n, nodes[j]? = some n ∧ n.left ≠ none)) ∧
          (∀ q' : Nat → K, (∀ j ∈ pathFrom nodes q (fuel + 1) i, j ≠ walk nodes q (fuel + 1) i →
            ∀ n, nodes[j]? = some n → (q' n.feature ≤ n.threshold ↔ q n.feature ≤ n.threshold)) →
            walk nodes q' (fuel + 1) i = walk nodes q (fuel + 1) i) ∧
          (∀ j, j ∈ pathFrom nodes q (fuel + 1) i ↔ ∃ k, k ≤ fuel + 1 ∧ walk nodes q k i = j) := by
        intro c hic hc hpc hwc
        obtain ⟨a1, a2, a3, a4, a5, a6⟩ := ih c (by omega) hc
        rw [hp, hpc, hwc q fuel Iff.rfl]
        refine ⟨a1, by omega, List.mem_cons_of_mem _ a3, ?_, ?_, ?_⟩
        · intro j hj
          rcases List.mem_cons.mp hj with rfl | hj
          · exact ⟨le_refl _, fun _ => ⟨_, hget, by rw [hl]; simp⟩⟩
          · have := a4 j hj
            exact ⟨by omega, this.2⟩
        · intro q' hq'
          have hi := hq' i List.mem_cons_self (by omega) _ hget
          rw [hwc q' fuel hi]
          exact a5 q' (fun j hj => hq' j (List.mem_cons_of_mem _ hj))
        · intro j
          rw [List.mem_cons, a6]
          constructor
          · rintro (rfl | ⟨k, hk, rfl⟩)
            · exact ⟨0, Nat.zero_le _, rfl⟩
            · exact ⟨k + 1, by omega, hwc q k Iff.rfl⟩
          · rintro ⟨k, hk, rfl⟩
            cases k with
            | zero => exact Or.inl rfl
            | succ k => exact Or.inr ⟨k, by omega, (hwc q k Iff.rfl).symm⟩
      by_cases hgo : q nodes[i].feature ≤ nodes[i].threshold
      · apply main l l1 l3 (by rw [if_pos hgo])
        intro q' k hq'
        rw [hw, if_pos (hq'.mpr hgo)]
      · apply main r l2 l4 (by rw [if_neg hgo])
        intro q' k hq'
        rw [hw, if_neg (fun h => hgo (hq'.mp h))]

/-- a test that a line of an explanation reports holds of a sample -/
def lineHolds (q : Nat → K) (l : Line K) : Prop :=
  (q l.feature ≤ l.threshold ↔ l.le = true)

omit [FloorRing K] in
/-- the explanation of a row in a tree whose children come after their parents -/
theorem explain_forward {V : Type} {nodes : List (Node K V)} (hF : Forward nodes) (h0 : 0 < nodes.length) (q : Nat → K) :
    (∀ l ∈ explain nodes q, l.value = q l.feature ∧ lineHolds q l) ∧
    (∀ i, (∃ l ∈ explain nodes q, l.node = i) ↔
      reaches nodes q i = true ∧ ∃ n, nodes[i]? = some n ∧ n.left ≠ none) ∧
    (∀ q' : Nat → K, (∀ l ∈ explain nodes q, lineHolds q' l) → apply nodes q' = apply nodes q) := by
  obtain ⟨a1, a2, a3, a4, a5, a6⟩ := pathFrom_spec hF q nodes.length 0 (by omega) h0
  have hmem : ∀ l : Line K, l ∈ explain nodes q ↔ ∃ i n, i ∈ decisionPath nodes q ∧ i ≠ apply nodes q ∧
      nodes[i]? = some n ∧
      l = ⟨i, n.feature, q n.feature, decide (q n.feature ≤ n.threshold), n.threshold⟩ := by
    intro l
    unfold explain
    rw [List.mem_filterMap]
    constructor
    · rintro ⟨i, hi, hl⟩
      by_cases hia : apply nodes q = i
      · rw [if_pos hia] at hl; cases hl
      · rw [if_neg hia] at hl
        cases hn : nodes[i]? with
        | none => rw [hn] at hl; cases hl
        | some n =>
          rw [hn] at hl
          cases hl
          exact ⟨i, n, hi, fun e => hia e.symm, hn, rfl⟩
    · rintro ⟨i, n, hi, hia, hn, rfl⟩
      refine ⟨i, hi, ?_⟩
      rw [if_neg (fun e => hia e.symm), hn]
      rfl
  refine ⟨?_, ?_, ?_⟩
  · intro l hl
    obtain ⟨i, n, _, _, _, rfl⟩ := (hmem l).mp hl
    refine ⟨rfl, ?_⟩
    unfold lineHolds
    simp
  · intro i
    constructor
    · rintro ⟨l, hl, rfl⟩
      obtain ⟨i, n, i1, i2, i3, rfl⟩ := (hmem l).mp hl
      obtain ⟨n', n1, n2⟩ := (a4 i i1).2 i2
      rw [i3] at n1
      cases n1
      refine ⟨?_, n, i3, n2⟩
      obtain ⟨k, hk, e⟩ := (a6 i).mp i1
      unfold reaches
      rw [List.any_eq_true]
      by_cases hkl : k = nodes.length
      · subst hkl; exact absurd e.symm i2
      · exact ⟨k, List.mem_range.mpr (by omega), by simpa using e⟩
    · rintro ⟨hr, n, n1, n2⟩
      unfold reaches at hr
      rw [List.any_eq_true] at hr
      obtain ⟨k, hk, e⟩ := hr
      rw [List.mem_range] at hk
      simp only [decide_eq_true_eq] at e
      have i1 : i ∈ decisionPath nodes q := (a6 i).mpr ⟨k, hk.le, e⟩
      refine ⟨_, (hmem _).mpr ⟨i, n, i1, ?_, n1, rfl⟩, rfl⟩
      intro hia
      obtain ⟨n', b1, b2, _⟩ := a1
      have : nodes[i]? = some n' := by rw [hia]; exact b1
      rw [n1] at this
      cases this
      exact n2 b2
  · intro q' hq'
    apply a5 q'
    intro j j1 j2 n hn
    have := hq' _ ((hmem _).mpr ⟨j, n, j1, j2, hn, rfl⟩)
    unfold lineHolds at this
    simpa using this

/-- **C101.** The explanation of a row is correct and sufficient: every line reports the row's own covariate and a test
it passes; the lines name exactly the inner nodes the row passes through; and every row that passes the same tests ends
in the same leaf (so it gets the same recommendation). -/
theorem C101_explanation (hE : SoundPEnv E) (hf : policyFit E g nFeat v ce weights = .ok t)
    (hc : g.criterion = "policy_reg") (q : Nat → K) :
    (∀ l ∈ explain t.nodes q, l.value = q l.feature ∧ lineHolds q l) ∧
    (∀ i, (∃ l ∈ explain t.nodes q, l.node = i) ↔
      reaches t.nodes q i = true ∧ ∃ n, t.nodes[i]? = some n ∧ n.left ≠ none) ∧
    (∀ q' : Nat → K, (∀ l ∈ explain t.nodes q, lineHolds q' l) → apply t.nodes q' = apply t.nodes q) := by
  obtain ⟨leaf, split, depth, nd, h⟩ := policyFit_ok hf
  obtain ⟨hF, h0⟩ := fit_forward hE h hc
  exact explain_forward hF h0 q

omit [FloorRing K] in
theorem maxRow_spec : ∀ (l : List K) (a : K), a ≤ l.foldl (fun b x => if b < x then x else b) a ∧
    (∀ x ∈ l, x ≤ l.foldl (fun b x => if b < x then x else b) a) ∧
    (l.foldl (fun b x => if b < x then x else b) a = a ∨ l.foldl (fun b x => if b < x then x else b) a ∈ l) := by
  intro l
  induction l with
  | nil => intro a; exact ⟨le_refl _, by simp, Or.inl rfl⟩
  | cons b l ih =>
    intro a
    rw [List.foldl_cons]
    by_cases h : a < b
    · rw [if_pos h]
      obtain ⟨h1, h2, h3⟩ := ih b
      refine ⟨le_trans h.le h1, ?_, ?_⟩
      · intro x hx
        rcases List.mem_cons.mp hx with rfl | hx
        · exact h1
        · exact h2 x hx
      · right
        rcases h3 with h3 | h3
        · rw [h3]; exact List.mem_cons_self
        · exact List.mem_cons_of_mem _ h3
    · rw [if_neg h]
      obtain ⟨h1, h2, h3⟩ := ih a
      refine ⟨h1, ?_, ?_⟩
      · intro x hx
        rcases List.mem_cons.mp hx with rfl | hx
        · exact le_trans (not_lt.mp h) h1
        · exact h2 x hx
      · rcases h3 with h3 | h3
        · exact Or.inl h3
        · exact Or.inr (List.mem_cons_of_mem _ h3)

omit [FloorRing K] in
theorem maxRow_eq {row : List K} {k : Nat} {m : K} (h : row[k]? = some m)
    (hle : ∀ (j : Nat) (x : K), row[j]? = some x → x ≤ m) : maxRow row = m := by
  cases row with
  | nil => cases h
  | cons a l =>
    obtain ⟨h1, h2, h3⟩ := maxRow_spec l a
    show l.foldl (fun b x => if b < x then x else b) a = m
    apply le_antisymm
    · rcases h3 with h3 | h3
      · rw [h3]; exact hle 0 a rfl
      · obtain ⟨j, hj, e⟩ := List.mem_iff_getElem.mp h3
        exact hle (j + 1) _ (by rw [List.getElem?_cons_succ, List.getElem?_eq_getElem hj, e])
    · rcases List.mem_cons.mp (List.mem_of_getElem? h) with rfl | hm
      · exact h1
      · exact h2 m hm

/-- **C101.** `interpret` recommends for every row what `predict_ind` recommends, and the value it reports is the mean
effect of that treatment over the training samples in the row's leaf; `decide` names the same treatment. -/
theorem C101_interpret {B : Type} (hE : SoundPEnv E) (hf : policyFit E g nFeat v ce weights = .ok t)
    (hc : g.criterion = "policy_reg") (hd : 2 ≤ d) (hw : ∀ ws, weights = some ws → ∀ x ∈ ws, 0 ≤ x)
    (hne : used g v ce weights ≠ []) :
    ∃ pol : (Nat → K) → Fin d, (∀ q, FirstBest (inLeaf t (used g v ce weights) q) (pol q)) ∧
      (∀ qs, predictInd t (some qs) = .ok (qs.map (fun q => (pol q).val))) ∧
      (∀ qs, interpret t (some qs) = .ok (qs.map (fun q => ⟨explain t.nodes q, (pol q).val,
        effTotal (inLeaf t (used g v ce weights) q) (pol q) / wTotal (inLeaf t (used g v ce weights) q)⟩))) ∧
      (∀ (names : Fin d → B) (qs : List (Nat → K)),
        decideNames t ((List.finRange d).map names) qs = .ok (qs.map (fun q => names (pol q)))) := by
  obtain ⟨leaf, split, depth, nd, h⟩ := policyFit_ok hf
  obtain ⟨pol, p1, _, p3⟩ := C99_recommendation hE hf hc hd hw hne
  refine ⟨pol, p3, p1, ?_, ?_⟩
  · intro qs
    have hpre : prepare t (some qs) = .ok (.matrix (qs.map (leafValue t))) := by
      unfold prepare
      simp only
      rw [h.name, if_pos hc, if_neg (by omega), Option.getD_some]
    have hind := p1 qs
    unfold predictInd at hind
    rw [hpre] at hind
    simp only at hind
    unfold interpret
    rw [hpre]
    simp only
    rw [hind]
    simp only [Option.getD_some]
    congr 1
    clear hind hpre
    have hval : ∀ q, maxRow (leafValue t q) = effTotal (inLeaf t (used g v ce weights) q) (pol q) /
        wTotal (inLeaf t (used g v ce weights) q) := by
      intro q
      obtain ⟨h1, h2⟩ := fit_leaf hE h hc q
      have hpos := wTotal_pos (h2 hne) (fun a ha => used_pos (g := g) (v := v) (ce := ce) hw (List.mem_filter.mp ha).1)
      have hv : leafValue t q = (List.finRange d).map (fun k => effTotal (inLeaf t (used g v ce weights) q) k /
          wTotal (inLeaf t (used g v ce weights) q)) := by
        unfold leafValue; rw [h1]
      apply maxRow_eq (k := (pol q).val)
      · rw [hv, List.getElem?_map, List.getElem?_eq_getElem (by simp)]
        simp
      · intro j x hj
        rw [hv] at hj
        have hjd : j < d := by
          have := (List.getElem?_eq_some_iff.mp hj).1
          simpa using this
        rw [List.getElem?_map, List.getElem?_eq_getElem (by simpa using hjd)] at hj
        simp only [List.getElem_finRange, Option.map_some, Option.some.injEq] at hj
        rw [← hj]
        exact (div_le_div_iff_of_pos_right hpos).mpr ((p3 q).1 _)
    induction qs with
    | nil => rfl
    | cons q qs ih =>
      simp only [List.map_cons, List.zip_cons_cons]
      rw [ih, hval q]
  · intro names qs
    unfold decideNames
    rw [p1 qs]
    simp only
    rw [if_pos (by simp)]
    congr 1
    induction qs with
    | nil => rfl
    | cons q qs ih =>
      rw [List.map_cons, List.filterMap_cons]
      have : ((List.finRange d).map names)[(pol q).val]? = some (names (pol q)) := by
        rw [List.getElem?_map, List.getElem?_eq_getElem (by simp)]
        simp
      rw [this]
      simp only [List.map_cons]
      rw [ih]

end fitted

/-! ### concrete trees -/

/-- a simple environment: insertion sort, exact midpoints, the heap pops a largest record, the first `n` covariates are
drawn at every node -/
def plainEnv (d : Nat) : PEnv ℚ d where
  big := 1000
  alpha := 10000000000
  eps := 0
  thr := 0
  sort g l := l.insertionSort (fun a b => g a ≤ g b)
  mid a b := (a + b) / 2
  pick front := front.findIdx (fun f => front.all (fun f' => decide (f'.improvement ≤ f.improvement)))
  draw n _ := List.range n
  mse := policyReg 0 1

theorem plainEnv_sound (d : Nat) : SoundPEnv (plainEnv d) where
  perm g l := List.perm_insertionSort _ l
  sorted g l := by
    haveI : Std.Total (fun a b : PSample ℚ d => g a ≤ g b) := ⟨fun a b => le_total (g a) (g b)⟩
    haveI : IsTrans (PSample ℚ d) (fun a b => g a ≤ g b) := ⟨fun a b c => le_trans⟩
    exact List.pairwise_insertionSort _ l
  mid a b h := by
    constructor
    · show a ≤ (a + b) / 2
      linarith
    · show (a + b) / 2 ≤ b
      linarith
  thr := le_refl _
  heap := by
    intro front hne
    have hex : ∃ f ∈ front, ∀ f' ∈ front, f'.improvement ≤ f.improvement := by
      cases front with
      | nil => exact absurd rfl hne
      | cons a l =>
        clear hne
        induction l generalizing a with
        | nil => exact ⟨a, by simp, by simp⟩
        | cons b l ih =>
          obtain ⟨f, hf, hle⟩ := ih b
          rcases le_total f.improvement a.improvement with h | h
          · refine ⟨a, List.mem_cons_self, ?_⟩
            intro f' hf'
            rcases List.mem_cons.mp hf' with rfl | hf'
            · exact le_refl _
            · exact le_trans (hle f' hf') h
          · refine ⟨f, List.mem_cons_of_mem _ hf, ?_⟩
            intro f' hf'
            rcases List.mem_cons.mp hf' with rfl | hf'
            · exact h
            · exact hle f' hf'
    obtain ⟨f, hf, hle⟩ := hex
    have hlt : front.findIdx (fun f => front.all (fun f' => decide (f'.improvement ≤ f.improvement))) < front.length := by
      apply List.findIdx_lt_length_of_exists
      exact ⟨f, hf, by rw [List.all_eq_true]; intro f' hf'; simpa using hle f' hf'⟩
    refine ⟨_, List.getElem?_eq_getElem hlt, ?_⟩
    have := List.findIdx_getElem (w := hlt)
    rw [List.all_eq_true] at this
    intro f' hf'
    simpa using this f' hf'

/-- the default settings -/
def plainSettings : PSettings ℚ := ⟨"policy_reg", none, .int 1, .int 2, none, 0, .all, 0⟩

/-- a fit that succeeds with a tree for which `p` holds -/
def okAnd {B : Type} (e : Except String B) (p : B → Bool) : Bool :=
  match e with
  | .ok t => p t
  | .error _ => false

theorem okAnd_spec {B : Type} {e : Except String B} {p : B → Bool} (h : okAnd e p = true) :
    ∃ t, e = .ok t ∧ p t = true := by
  cases e with
  | ok t => exact ⟨t, rfl, h⟩
  | error e => cases h

/-- four rows with one covariate: small values profit from treatment 1, large ones from treatment 0 -/
def twoSided : Except String (PFitted ℚ 2) :=
  policyFit (plainEnv 2) { plainSettings with maxDepth := some 1 } 1
    [fun _ => 0, fun _ => 1, fun _ => 2, fun _ => 3] [![0, 5], ![0, 3], ![0, -1], ![0, -2]] none

example : ∃ t, twoSided = .ok t ∧ t.nodes.length = 3 ∧
    predictInd t (some [fun _ => 0, fun _ => 9]) = .ok [1, 0] ∧
    predictOptEffect t (some [fun _ => 0, fun _ => 9]) = .ok (.matrix [[0, 4], [0, -3 / 2]]) ∧
    interpret t (some [fun _ => 9]) = .ok [⟨[⟨0, 0, 9, false, 3 / 2⟩], 0, 0⟩] ∧
    decideNames t ["no", "yes"] [fun _ => 0, fun _ => 9] = .ok ["yes", "no"] := by
  obtain ⟨t, h1, h2⟩ := okAnd_spec (e := twoSided) (p := fun t => decide (t.nodes.length = 3 ∧
    predictInd t (some [fun _ => 0, fun _ => 9]) = .ok [1, 0] ∧
    predictOptEffect t (some [fun _ => 0, fun _ => 9]) = .ok (.matrix [[0, 4], [0, -3 / 2]]) ∧
    interpret t (some [fun _ => 9]) = .ok [⟨[⟨0, 0, 9, false, 3 / 2⟩], 0, 0⟩] ∧
    decideNames t ["no", "yes"] [fun _ => 0, fun _ => 9] = .ok ["yes", "no"])) (by decide +kernel)
  exact ⟨t, h1, of_decide_eq_true h2⟩

/-- **C100, refuted as regularisation.** With the default settings the tree is grown although no split gains anything:
every row has the same effects, and each ends in a leaf of its own. -/
theorem C100_useless_splits_refuted : ∃ t, policyFit (plainEnv 2) plainSettings 1
      [fun _ => 0, fun _ => 1, fun _ => 2] [![0, 5], ![0, 5], ![0, 5]] none = .ok t ∧ t.nodes.length = 5 ∧
    (t.nodes.filter (fun n => n.left.isNone)).map (fun n => n.samples) = [1, 1, 1] := by
  obtain ⟨t, h1, h2⟩ := okAnd_spec (e := policyFit (plainEnv 2) plainSettings 1
      [fun _ => 0, fun _ => 1, fun _ => 2] [![0, 5], ![0, 5], ![0, 5]] none) (p := fun t => decide (
    t.nodes.length = 5 ∧ (t.nodes.filter (fun n => n.left.isNone)).map (fun n => n.samples) = [1, 1, 1]))
    (by decide +kernel)
  exact ⟨t, h1, of_decide_eq_true h2⟩

/-- **C99, refuted for weighted samples.** `max_leaf_nodes` makes the sample weights disappear: with the weights 1 and 9
the mean effect of treatment 1 in the single leaf is 9/10 * (-1) + 1/10 * 2 < 0, and without `max_leaf_nodes` treatment 0
is recommended; with it the weights are dropped and treatment 1 is recommended. -/
theorem C99_weights_dropped_refuted : ∃ t t',
    policyFit (plainEnv 2) plainSettings 1 [fun _ => 0, fun _ => 0] [![0, 2], ![0, -1]] (some [1, 9]) = .ok t ∧
    policyFit (plainEnv 2) { plainSettings with maxLeafNodes := some 2 } 1 [fun _ => 0, fun _ => 0]
      [![0, 2], ![0, -1]] (some [1, 9]) = .ok t' ∧
    predictInd t none = .ok [0, 0] ∧ predictInd t' none = .ok [1, 1] := by
  obtain ⟨t, h1, h2⟩ := okAnd_spec (e := policyFit (plainEnv 2) plainSettings 1 [fun _ => 0, fun _ => 0]
    [![0, 2], ![0, -1]] (some [1, 9])) (p := fun t => decide (predictInd t none = .ok [0, 0])) (by decide +kernel)
  obtain ⟨t', h3, h4⟩ := okAnd_spec (e := policyFit (plainEnv 2) { plainSettings with maxLeafNodes := some 2 } 1
    [fun _ => 0, fun _ => 0] [![0, 2], ![0, -1]] (some [1, 9]))
    (p := fun t => decide (predictInd t none = .ok [1, 1])) (by decide +kernel)
  exact ⟨t, t', h1, h3, of_decide_eq_true h2, of_decide_eq_true h4⟩

end YL.Props
