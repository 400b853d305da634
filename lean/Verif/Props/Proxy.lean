import Mathlib.Tactic.Common
import Mathlib.Data.String.Basic
import Verif.Model.Proxy
import Verif.Props.Discovery

/-!
# C138: the discovery proxies and identifiers relay the learner's graph; C139: an identifier object answers for the data given
-/

set_option linter.unusedSectionVars false
set_option linter.unusedVariables false

namespace YL.Props

open YL Discovery Proxy Spec

variable {L K : Type} [DecidableEq L] [Inhabited L]

/-- the edges a labelled matrix stands for: `a → b` if the entry in row `a` and column `b` is not zero -/
def LabelEdge [Zero K] (f : Labelled L K) (a b : L) : Prop := a ∈ f.columns ∧ b ∈ f.columns ∧ f.entry a b ≠ 0

theorem nth_mem (l : List L) (i : Fin l.length) : nth l i ∈ l := by
  unfold nth
  rw [List.getD, List.getElem?_eq_getElem i.2]
  exact List.getElem_mem i.2

theorem nth_surj (l : List L) (a : L) (h : a ∈ l) : ∃ i : Fin l.length, nth l i = a := by
  obtain ⟨i, hi, e⟩ := List.getElem_of_mem h
  exact ⟨⟨i, hi⟩, by unfold nth; rw [List.getD, List.getElem?_eq_getElem hi]; exact e⟩

theorem nth_inj (l : List L) (hnd : l.Nodup) (i j : Fin l.length) (h : nth l i = nth l j) : i = j := by
  unfold nth at h
  rw [List.getD, List.getD, List.getElem?_eq_getElem i.2, List.getElem?_eq_getElem j.2] at h
  exact Fin.ext (hnd.getElem_inj_iff.mp h)

/-- a walk by positions is a walk by labels -/
theorem reach_labels [AddCommGroup K] [LinearOrder K] (f : Labelled L K) (h : f.index = f.columns) (hnd : f.columns.Nodup)
    (i j : Fin f.columns.length) :
    Reach (MatEdge (values f)) i j ↔ Reach (LabelEdge f) (nth f.columns i) (nth f.columns j) := by
  have step : ∀ i j : Fin f.columns.length, MatEdge (values f) i j ↔ LabelEdge f (nth f.columns i) (nth f.columns j) := by
    intro i j
    unfold MatEdge LabelEdge values
    rw [h]
    exact ⟨fun e => ⟨nth_mem _ i, nth_mem _ j, e⟩, fun e => e.2.2⟩
  constructor
  · intro hr
    induction hr with
    | refl => exact Relation.ReflTransGen.refl
    | tail _ e ih => exact ih.tail ((step _ _).mp e)
  · intro hr
    have key : ∀ b, Reach (LabelEdge f) (nth f.columns i) b → ∃ k : Fin f.columns.length, nth f.columns k = b ∧ Reach (MatEdge (values f)) i k := by
      intro b hb
      induction hb with
      | refl => exact ⟨i, rfl, Relation.ReflTransGen.refl⟩
      | tail _ e ih =>
        obtain ⟨k, hk, hr⟩ := ih
        obtain ⟨k', hk'⟩ := nth_surj f.columns _ e.2.1
        refine ⟨k', hk', hr.tail ((step _ _).mpr ?_)⟩
        rw [hk, hk']
        exact e
    obtain ⟨k, hk, hr'⟩ := key _ hr
    rw [← nth_inj _ hnd _ _ hk]
    exact hr'

/-- for a matrix whose rows and columns carry the same labels in the same order, the dictionary has an entry for every
variable, in order, listing exactly its causes -/
theorem C138_dict_exact [AddCommGroup K] [LinearOrder K] (f : Labelled L K) (h : f.index = f.columns) (hnd : f.columns.Nodup)
    (b : L) (hb : b ∈ f.columns) :
    ∃ l, (b, l) ∈ frame2dict f ∧ ∀ a, a ∈ l ↔ a ∈ f.columns ∧ a ≠ b ∧ Reach (LabelEdge f) a b := by
  obtain ⟨i, hi⟩ := nth_surj f.columns b hb
  obtain ⟨l, h1, -, h3⟩ := C28_matrix2dict_exact (values f) (fun j => nth f.columns j) i
  refine ⟨l.map (fun j : Fin f.columns.length => nth f.columns j), ?_, fun a => ?_⟩
  · unfold frame2dict
    rw [← hi]
    exact List.mem_of_getElem? h1
  · rw [List.mem_map]
    constructor
    · rintro ⟨j, hj, rfl⟩
      obtain ⟨q1, q2⟩ := (h3 j).mp hj
      refine ⟨nth_mem _ j, fun e => q1 (nth_inj _ hnd _ _ (e.trans hi.symm)), ?_⟩
      rw [← hi]
      exact (reach_labels f h hnd j i).mp q2
    · rintro ⟨ha, hne, hr⟩
      obtain ⟨j, hj⟩ := nth_surj f.columns a ha
      refine ⟨j, (h3 j).mpr ⟨fun e => hne ?_, ?_⟩, hj⟩
      · rw [← hj, e, hi]
      · rw [reach_labels f h hnd, hj, hi]; exact hr

section pgm
variable [LinearOrder L]

theorem mem_outer (a b : List L) (hb : ∀ v ∈ b, v ∈ a) (v : L) : v ∈ outer a b ↔ v ∈ a := by
  unfold outer
  by_cases h : a = b ∨ b = []
  · rw [if_pos h]
  · rw [if_neg h, List.mem_insertionSort, List.mem_dedup, List.mem_append]
    exact ⟨fun h => h.elim id (hb v), Or.inl⟩

theorem nodup_outer (a b : List L) (ha : a.Nodup) : (outer a b).Nodup := by
  unfold outer
  by_cases h : a = b ∨ b = []
  · rw [if_pos h]; exact ha
  · rw [if_neg h]
    exact (List.perm_insertionSort _ _).nodup_iff.mpr (List.nodup_dedup _)

/-- the matrix has a row and a column for every data column, and its nonzero entries are the edges of the learned graph -/
theorem C138_pgm (columns : List L) (hnd : columns.Nodup) (g : Dag L) (hg : ∀ a b, g.edge a b = true → a ∈ g.nodes ∧ b ∈ g.nodes)
    (f : Labelled L Int) (h : pgm columns g = .ok f) :
    f.index = f.columns ∧ f.columns.Nodup ∧ (∀ v, v ∈ f.columns ↔ v ∈ columns) ∧
      ∀ a b, f.entry a b = if g.edge a b then 1 else 0 := by
  unfold pgm at h
  by_cases hall : g.nodes.all (fun v => decide (v ∈ columns)) = true
  · rw [if_pos hall] at h
    have hsub : ∀ v ∈ g.nodes, v ∈ columns := by simpa [List.all_eq_true] using hall
    cases h
    refine ⟨rfl, nodup_outer _ _ hnd, fun v => mem_outer _ _ hsub v, fun a b => ?_⟩
    simp only [addFill, zeros, learned, zero_add]
    by_cases he : g.edge a b = true
    · obtain ⟨ha, hb⟩ := hg a b he
      rw [if_pos he, if_pos ⟨⟨hsub a ha, hsub b hb⟩, ha, hb⟩]
    · simp only [he]
      split <;> rfl
  · rw [if_neg hall] at h; cases h

/-- a learner that invents variables is refused -/
theorem C138_pgm_refused (columns : List L) (g : Dag L) :
    (∃ f, pgm columns g = .ok f) ↔ ∀ v ∈ g.nodes, v ∈ columns := by
  unfold pgm
  by_cases hall : g.nodes.all (fun v => decide (v ∈ columns)) = true
  · rw [if_pos hall]
    have hsub : ∀ v ∈ g.nodes, v ∈ columns := by simpa [List.all_eq_true] using hall
    exact ⟨fun _ => hsub, fun _ => ⟨_, rfl⟩⟩
  · rw [if_neg hall]
    refine ⟨fun ⟨f, h⟩ => (by cases h), fun h => absurd ?_ hall⟩
    simpa [List.all_eq_true] using h

/-- with `return_dict`: every data column with exactly its causes in the learned graph -/
theorem C138_pgm_dict (columns : List L) (hnd : columns.Nodup) (g : Dag L)
    (hg : ∀ a b, g.edge a b = true → a ∈ g.nodes ∧ b ∈ g.nodes) (hsub : ∀ v ∈ g.nodes, v ∈ columns) (t : Option Int) :
    ∃ d, pgmCall columns g true t = .ok (.dict d) ∧ ∀ b ∈ columns, ∃ l, (b, l) ∈ d ∧
      ∀ a, a ∈ l ↔ a ≠ b ∧ Reach (fun u v => g.edge u v = true) a b := by
  obtain ⟨f, hf⟩ := (C138_pgm_refused columns g).mpr hsub
  obtain ⟨h1, h2, h3, h4⟩ := C138_pgm columns hnd g hg f hf
  refine ⟨frame2dict f, by unfold pgmCall; rw [hf]; rfl, fun b hb => ?_⟩
  obtain ⟨l, q1, q2⟩ := C138_dict_exact f h1 h2 b ((h3 b).mpr hb)
  refine ⟨l, q1, fun a => ?_⟩
  have hE : ∀ u v, LabelEdge f u v ↔ g.edge u v = true := by
    intro u v
    unfold LabelEdge
    rw [h3, h3, h4]
    constructor
    · rintro ⟨-, -, e⟩
      by_contra hc
      rw [if_neg hc] at e
      exact e rfl
    · intro e
      obtain ⟨hu, hv⟩ := hg u v e
      exact ⟨hsub u hu, hsub v hv, by rw [if_pos e]; decide⟩
  have hrel : LabelEdge f = fun u v => g.edge u v = true := by funext u v; exact propext (hE u v)
  rw [q2 a, hrel]
  constructor
  · rintro ⟨-, h, h'⟩; exact ⟨h, h'⟩
  · rintro ⟨hne, hr⟩
    refine ⟨?_, hne, hr⟩
    rw [h3]
    rcases Relation.ReflTransGen.cases_head hr with e | ⟨c, e, -⟩
    · exact absurd e hne
    · exact hsub a (hg a c e).1

end pgm

theorem sorted_perm_range (n : Nat) (l : List Nat) (h : l.Perm (List.range n)) : l.insertionSort (· ≤ ·) = List.range n := by
  have h1 : (l.insertionSort (· ≤ ·)).Perm (List.range n) := (List.perm_insertionSort _ l).trans h
  have s1 : (l.insertionSort (· ≤ ·)).Pairwise (· ≤ ·) := List.pairwise_insertionSort _ l
  have s2 : (List.range n).Pairwise (· ≤ ·) := List.pairwise_le_range
  exact h1.eq_of_pairwise (fun a b _ _ h1 h2 => le_antisymm h1 h2) s1 s2

/-- on an array: the matrix is in the order of the array's columns -/
theorem C138_pgm_array (n : Nat) (g : Dag Nat) (f : Labelled Nat Int) (h : pgmArray n g = .ok f) :
    f.index = List.range n ∧ f.columns = List.range n := by
  unfold pgmArray pgm at h
  by_cases hall : g.nodes.all (fun v => decide (v ∈ List.range n)) = true
  · rw [if_pos hall] at h
    have hsub : ∀ v ∈ g.nodes, v ∈ List.range n := by simpa [List.all_eq_true] using hall
    cases h
    have : outer (List.range n) g.nodes = List.range n := by
      unfold outer
      by_cases hc : List.range n = g.nodes ∨ g.nodes = []
      · rw [if_pos hc]
      · rw [if_neg hc]
        apply sorted_perm_range
        refine (List.perm_ext_iff_of_nodup (List.nodup_dedup _) List.nodup_range).mpr (fun v => ?_)
        rw [List.mem_dedup, List.mem_append]
        exact ⟨fun h => h.elim id (hsub v), Or.inl⟩
    exact ⟨this, this⟩
  · rw [if_neg hall] at h; cases h

/-- on a frame, the matrix may come in another column order than the data -/
theorem C138_pgm_order_refuted :
    (pgm ["y", "x"] (⟨["x", "y"], fun a b => a == "x" && b == "y"⟩ : Dag String)).map (fun f => f.columns) = .ok ["x", "y"] := by
  decide +kernel

/-- the gCastle proxy: the learner's matrix, position by position -/
theorem C138_gcastle (columns : List L) (m : Nat → Nat → Int) (pos : L → Nat)
    (hpos : ∀ i : Fin columns.length, pos (nth columns i) = i) (t : Option Int) :
    ∃ f, gcastleCall columns m pos false t = .ok (.matrix f) ∧ f.index = columns ∧ f.columns = columns ∧
      ∀ i j : Fin columns.length, f.entry (nth columns i) (nth columns j) = m i j :=
  ⟨_, rfl, rfl, rfl, fun i j => by simp only [hpos]⟩

/-- a threshold is refused by one proxy when a dictionary is asked for, and ignored in all other cases -/
theorem C138_threshold_refuted (columns : List L) (m : Nat → Nat → Int) (pos : L → Nat) (t : Int) [LinearOrder L] (g : Dag L)
    (b : Bool) :
    gcastleCall columns m pos true (some t) = .error .type ∧
      gcastleCall columns m pos false (some t) = gcastleCall columns m pos false none ∧
      pgmCall columns g b (some t) = pgmCall columns g b none := ⟨rfl, rfl, rfl⟩

/-- a user's learner: an array of the right shape is labelled with the data's columns, position by position; every other
shape or type is refused -/
theorem C138_learner_array (columns : List L) (pos : L → Nat) (hpos : ∀ i : Fin columns.length, pos (nth columns i) = i)
    (r c : Nat) (m : Nat → Nat → K) :
    ((∃ f, learnerMatrix columns pos (.array r c m) = .ok f) ↔ r = columns.length ∧ c = columns.length) ∧
    (∀ f, learnerMatrix columns pos (.array r c m) = .ok f → f.index = columns ∧ f.columns = columns ∧
      ∀ i j : Fin columns.length, f.entry (nth columns i) (nth columns j) = m i j) ∧
    learnerMatrix columns pos (.other : Learned L K) = .error .assertion := by
  refine ⟨?_, fun f h => ?_, rfl⟩
  · unfold learnerMatrix
    by_cases h : r = columns.length ∧ c = columns.length
    · simp only [if_pos h]; exact ⟨fun _ => h, fun _ => ⟨_, rfl⟩⟩
    · simp only [if_neg h]; exact ⟨fun ⟨f, e⟩ => (by cases e), fun e => absurd e h⟩
  · unfold learnerMatrix at h
    by_cases hc : r = columns.length ∧ c = columns.length
    · simp only [if_pos hc] at h
      cases h
      exact ⟨rfl, rfl, fun i j => by simp only [hpos]⟩
    · simp only [if_neg hc] at h; cases h

/-- the graph `z → x → y` -/
def chainEntry (a b : String) : Int := if (a == "z" && b == "x") || (a == "x" && b == "y") then 1 else 0

/-- its matrix, with the rows in another order than the columns -/
def swappedFrame : Labelled String Int := ⟨["y", "x", "z"], ["z", "x", "y"], chainEntry⟩

/-- its matrix, with the rows in the order of the columns -/
def alignedFrame : Labelled String Int := ⟨["z", "x", "y"], ["z", "x", "y"], chainEntry⟩

/-- a frame whose rows are in another order than its columns is accepted, and then read by labels for the treatments but by
positions for covariates and instruments: here `z → x → y`, `z` is an indirect cause of `y`, and is reported as nothing -/
theorem C138_learner_frame_refuted :
    (learnerMatrix ["z", "x", "y"] (fun _ => 0) (.frame swappedFrame)).isOk = true ∧ candidates swappedFrame "y" = ["x"] ∧
      candidates alignedFrame "y" = ["x"] ∧
      frameCi swappedFrame "y" ["x"] = .ok ([], []) ∧ frameCi alignedFrame "y" ["x"] = .ok (["z"], []) := by
  refine ⟨by decide, by decide +kernel, by decide +kernel, by decide +kernel, by decide +kernel⟩

/-! ## C139 -/

/-- a fresh identifier (what `Why` makes for a named method) always answers from the data it is given -/
theorem C139_fresh {D M : Type} (discover : D → M) (d : D) (given : Bool) : (idFit discover none d given).2 = discover d := by
  cases given <;> rfl

/-- an identifier object answers from the data given whenever the treatment is identified too -/
theorem C139_without_treatment {D M : Type} (discover : D → M) (cached : Option M) (d : D) :
    idFit discover cached d false = (some (discover d), discover d) := rfl

/-- with a given treatment it answers from whatever data came first -/
theorem C139_stale_refuted {D M : Type} (discover : D → M) (d₀ d : D) (b : Bool) :
    (idFit discover (idFit discover none d₀ b).1 d true).2 = discover d₀ := by
  cases b <;> rfl

/-- an example -/
example : (idFit (fun d : Nat => d * d) (idFit (fun d : Nat => d * d) none 3 false).1 5 true).2 = 9 := by decide

example : (pgm ["y", "x", "c"] (⟨["x", "y"], fun a b => a == "x" && b == "y"⟩ : Dag String)).toOption.map
    (fun f => (f.columns, f.columns.map (fun a => f.columns.map (f.entry a)))) =
    some (["c", "x", "y"], [[0, 0, 0], [0, 0, 1], [0, 0, 0]]) := by decide +kernel

end YL.Props
