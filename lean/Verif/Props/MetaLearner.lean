import Verif.Model.MetaLearner
import Verif.Props.Permuted
import Mathlib.Algebra.Order.Ring.Rat
import Mathlib.Algebra.Order.Field.Basic
import Mathlib.Tactic.Linarith
import Mathlib.Tactic.Ring
import Mathlib.Algebra.BigOperators.Group.List.Basic

/-!
# C38-C41, C56, C57: meta learners
-/

set_option linter.unusedSectionVars false

namespace YL.Props

open YL Meta
open YL.Permuted (Arg)

section enc
variable {α : Type}

theorem mem_tails {ls : List (List α)} {v : List α} : v ∈ tails ls ↔ List.Forall₂ (fun x l => x ∈ l) v ls := by
  induction ls generalizing v with
  | nil => simp [tails]
  | cons l ls ih =>
    simp only [tails, List.mem_flatMap, List.mem_map]
    constructor
    · rintro ⟨s, hs, x, hx, rfl⟩
      exact List.Forall₂.cons hx (ih.1 hs)
    · intro h
      cases h with
      | cons hv hr => exact ⟨_, ih.2 hr, _, hv, rfl⟩

theorem tails_nodup {ls : List (List α)} (h : ∀ l ∈ ls, l.Nodup) : (tails ls).Nodup := by
  induction ls with
  | nil => simp [tails]
  | cons l ls ih =>
    rw [tails, List.nodup_flatMap]
    refine ⟨fun s _ => (h l (by simp)).map (fun a b hab => (List.cons.inj hab).1), ?_⟩
    have : (tails ls).Pairwise (· ≠ ·) := ih (fun l hl => h l (List.mem_cons_of_mem _ hl))
    refine this.imp ?_
    intro u v huv a ha hb
    simp only [List.mem_map] at ha hb
    obtain ⟨r, _, rfl⟩ := ha
    obtain ⟨s, _, hs⟩ := hb
    exact huv (List.cons.inj hs).2.symm

theorem mem_cartesian {ls : List (List α)} {v : List α} :
    v ∈ cartesian ls ↔ ls ≠ [] ∧ List.Forall₂ (fun x l => x ∈ l) v ls := by
  match ls with
  | [] => simp [cartesian]
  | [a] =>
    simp only [cartesian, List.mem_map, ne_eq, List.cons_ne_nil, not_false_eq_true, true_and]
    constructor
    · rintro ⟨x, hx, rfl⟩
      exact List.Forall₂.cons hx List.Forall₂.nil
    · intro h
      cases h with
      | cons hx hn => cases hn; exact ⟨_, hx, rfl⟩
  | a :: b :: rest =>
    simp only [cartesian, List.mem_flatMap, List.mem_map, ne_eq, List.cons_ne_nil, not_false_eq_true, true_and]
    constructor
    · rintro ⟨s, hs, x, hx, y, hy, rfl⟩
      exact List.Forall₂.cons hx (List.Forall₂.cons hy (mem_tails.1 hs))
    · intro h
      cases h with
      | cons hx h' =>
        cases h' with
        | cons hy hs => exact ⟨_, mem_tails.2 hs, _, hx, _, hy, rfl⟩

theorem cartesian_nodup {ls : List (List α)} (h : ∀ l ∈ ls, l.Nodup) : (cartesian ls).Nodup := by
  match ls, h with
  | [], _ => simp [cartesian]
  | [a], h => exact (h a (by simp)).map (fun x y hxy => (List.cons.inj hxy).1)
  | a :: b :: rest, h =>
    rw [cartesian, List.nodup_flatMap]
    constructor
    · intro s _
      rw [List.nodup_flatMap]
      refine ⟨fun x _ => (h b (by simp)).map (fun y z hyz => by simpa using hyz), ?_⟩
      have : a.Pairwise (· ≠ ·) := h a (by simp)
      refine this.imp ?_
      intro u v huv l ha hb
      simp only [List.mem_map] at ha hb
      obtain ⟨r, _, rfl⟩ := ha
      obtain ⟨t, _, ht⟩ := hb
      exact huv (List.cons.inj ht).1.symm
    · have : (tails rest).Pairwise (· ≠ ·) := tails_nodup (fun l hl => h l (by simp [hl]))
      refine this.imp ?_
      intro u v huv l ha hb
      simp only [List.mem_flatMap, List.mem_map] at ha hb
      obtain ⟨x, _, y, _, rfl⟩ := ha
      obtain ⟨x', _, y', _, hs⟩ := hb
      simp only [List.cons.injEq] at hs
      exact huv hs.2.2.symm

theorem tails_length (ls : List (List α)) : (tails ls).length = (ls.map List.length).prod := by
  induction ls with
  | nil => rfl
  | cons l ls ih => simp [tails, List.length_flatMap, ih, Nat.mul_comm]

theorem cartesian_length {ls : List (List α)} (h : ls ≠ []) : (cartesian ls).length = (ls.map List.length).prod := by
  match ls, h with
  | [a], _ => simp [cartesian]
  | a :: b :: rest, _ =>
    simp only [cartesian, List.length_flatMap, List.length_map, List.map_const', List.sum_replicate, tails_length, List.map_cons,
      List.prod_cons, nsmul_eq_mul, Nat.cast_id]
    ring

theorem mem_uniq [LinearOrder α] {l : List α} {v : α} : v ∈ uniq l ↔ v ∈ l := by
  unfold uniq
  rw [List.mem_insertionSort, List.mem_dedup]

theorem uniq_nodup [LinearOrder α] (l : List α) : (uniq l).Nodup :=
  (List.perm_insertionSort _ _).nodup_iff.2 (List.nodup_dedup l)

theorem uniq_sorted [LinearOrder α] (l : List α) : (uniq l).Pairwise (· < ·) := by
  have h1 : (uniq l).Pairwise (· ≤ ·) := List.pairwise_insertionSort _ _
  have h2 : (uniq l).Pairwise (· ≠ ·) := uniq_nodup l
  exact (h1.and h2).imp (fun h => lt_of_le_of_ne h.1 h.2)

theorem position_ok [DecidableEq α] {l : List α} {v : α} {i : Nat} : position l v = .ok i ↔ v ∈ l ∧ i = l.idxOf v := by
  unfold position
  split
  · rename_i h; simp [h, eq_comm]
  · rename_i h; simp [h]

theorem position_get [DecidableEq α] {l : List α} {v : α} {i : Nat} (h : position l v = .ok i) : l[i]? = some v := by
  obtain ⟨h1, rfl⟩ := position_ok.1 h
  rw [List.getElem?_eq_getElem (List.idxOf_lt_length_iff.2 h1), List.getElem_idxOf]

theorem position_of_get [DecidableEq α] {l : List α} (hn : l.Nodup) {v : α} {i : Nat} (h : l[i]? = some v) : position l v = .ok i := by
  obtain ⟨hi, hv⟩ := List.getElem?_eq_some_iff.1 h
  rw [position_ok]
  refine ⟨hv ▸ List.getElem_mem hi, ?_⟩
  rw [← hv, hn.idxOf_getElem]

end enc

section ord
variable {V : Type} [LinearOrder V]

theorem ordinals_ok {cats : List (List V)} {v : List V} {is : List Nat} :
    ordinals cats v = .ok is ↔ List.Forall₂ (fun i (cv : List V × V) => position cv.1 cv.2 = .ok i) is (cats.zip v) ∧ cats.length = v.length := by
  induction cats generalizing v is with
  | nil =>
    cases v with
    | nil => simp [ordinals, eq_comm]
    | cons a v => simp [ordinals]
  | cons c cs ih =>
    cases v with
    | nil => simp [ordinals]
    | cons a v =>
      simp only [ordinals, List.zip_cons_cons, List.length_cons, Nat.add_right_cancel_iff]
      constructor
      · intro h
        split at h
        · cases h
        · cases h
        · rename_i i is' h1 h2
          cases h
          obtain ⟨q1, q2⟩ := ih.1 h2
          exact ⟨List.Forall₂.cons h1 q1, q2⟩
      · rintro ⟨h, hl⟩
        cases h with
        | cons h1 h2 =>
          rw [h1, ih.2 ⟨h2, hl⟩]

theorem ordinals_total {cats : List (List V)} {v : List V} (h : List.Forall₂ (fun x l => x ∈ l) v cats) :
    ∃ is, ordinals cats v = .ok is ∧ List.Forall₂ (fun i l => i < List.length l) is cats := by
  induction h with
  | nil => exact ⟨[], rfl, List.Forall₂.nil⟩
  | @cons x l v cats hx _ ih =>
    obtain ⟨is, h1, h2⟩ := ih
    refine ⟨l.idxOf x :: is, ?_, List.Forall₂.cons (List.idxOf_lt_length_iff.2 hx) h2⟩
    simp [ordinals, h1, position, hx]

theorem ordinals_mem {cats : List (List V)} {v : List V} {is : List Nat} (h : ordinals cats v = .ok is) :
    List.Forall₂ (fun x l => x ∈ l) v cats ∧ List.Forall₂ (fun i l => i < List.length l) is cats := by
  induction cats generalizing v is with
  | nil =>
    cases v with
    | nil => simp [ordinals] at h; subst h; simp
    | cons a v => simp [ordinals] at h
  | cons c cs ih =>
    cases v with
    | nil => simp [ordinals] at h
    | cons a v =>
      simp only [ordinals] at h
      split at h
      · cases h
      · cases h
      · rename_i i is' h1 h2
        cases h
        obtain ⟨q1, q2⟩ := ih h2
        obtain ⟨p1, rfl⟩ := position_ok.1 h1
        exact ⟨List.Forall₂.cons p1 q1, List.Forall₂.cons (List.idxOf_lt_length_iff.2 p1) q2⟩

theorem ordinals_inj {cats : List (List V)} {v v' : List V} {is : List Nat} (h : ordinals cats v = .ok is)
    (h' : ordinals cats v' = .ok is) : v = v' := by
  induction cats generalizing v v' is with
  | nil =>
    cases v with
    | nil => cases v' with
      | nil => rfl
      | cons a v => simp [ordinals] at h'
    | cons a v => simp [ordinals] at h
  | cons c cs ih =>
    cases v with
    | nil => simp [ordinals] at h
    | cons a v =>
      cases v' with
      | nil => simp [ordinals] at h'
      | cons a' v' =>
        simp only [ordinals] at h h'
        split at h
        · cases h
        · cases h
        · rename_i i is' h1 h2
          cases h
          split at h'
          · cases h'
          · cases h'
          · rename_i i2 is2 g1 g2
            simp only [Except.ok.injEq, List.cons.injEq] at h'
            obtain ⟨rfl, rfl⟩ := h'
            have := (position_get h1).symm.trans (position_get g1)
            simp only [Option.some.injEq] at this
            rw [this, ih h2 g2]

theorem ordinals_surj {cats : List (List V)} (hn : ∀ c ∈ cats, c.Nodup) {is : List Nat}
    (h : List.Forall₂ (fun i l => i < List.length l) is cats) :
    ∃ v, ordinals cats v = .ok is := by
  induction h with
  | nil => exact ⟨[], rfl⟩
  | @cons i l is cats hi _ ih =>
    obtain ⟨v, hv⟩ := ih (fun c hc => hn c (List.mem_cons_of_mem _ hc))
    refine ⟨l[i] :: v, ?_⟩
    have : position l l[i] = .ok i := position_of_get (hn l (by simp)) (List.getElem?_eq_getElem hi)
    simp [ordinals, this, hv]

theorem mem_labels {cats : List (List V)} {is : List Nat} :
    is ∈ labels cats ↔ cats ≠ [] ∧ List.Forall₂ (fun i l => i < List.length l) is cats := by
  unfold labels
  rw [mem_cartesian]
  simp [List.forall₂_map_right_iff]

theorem labels_nodup (cats : List (List V)) : (labels cats).Nodup := by
  apply cartesian_nodup
  intro l hl
  simp only [List.mem_map] at hl
  obtain ⟨c, _, rfl⟩ := hl
  exact List.nodup_range

theorem code_ok {cats : List (List V)} {v : List V} {k : Nat} :
    code cats v = .ok k ↔ ∃ is, ordinals cats v = .ok is ∧ (labels cats)[k]? = some is := by
  unfold code
  cases h : ordinals cats v with
  | error e => simp
  | ok is =>
    simp only [Except.ok.injEq, exists_eq_left']
    cases hp : position (labels cats) is with
    | ok j =>
      simp only [Except.ok.injEq]
      have hj := position_get hp
      constructor
      · rintro rfl; exact hj
      · intro hk
        have := position_of_get (labels_nodup cats) hk
        rw [hp] at this
        cases this; rfl
    | error e =>
      constructor
      · intro hk; cases hk
      · intro hk
        have := position_of_get (labels_nodup cats) hk
        rw [hp] at this
        cases this

/-- **C38**: every vector of known treatment values has a code. -/
theorem C38_total {cats : List (List V)} (hne : cats ≠ []) {v : List V} (h : List.Forall₂ (fun x l => x ∈ l) v cats) :
    ∃ k, code cats v = .ok k ∧ k < (cats.map List.length).prod := by
  obtain ⟨is, h1, h2⟩ := ordinals_total h
  have hm : is ∈ labels cats := mem_labels.2 ⟨hne, h2⟩
  obtain ⟨k, hk, hk'⟩ := List.mem_iff_getElem.1 hm
  refine ⟨k, code_ok.2 ⟨is, h1, List.getElem?_eq_some_iff.2 ⟨hk, hk'⟩⟩, ?_⟩
  have : (labels cats).length = (cats.map List.length).prod := by
    unfold labels
    rw [cartesian_length (by simpa using hne)]
    simp [Function.comp_def]
  omega

/-- **C38**: distinct vectors have distinct codes. -/
theorem C38_injective {cats : List (List V)} {v v' : List V} {k : Nat} (h : code cats v = .ok k) (h' : code cats v' = .ok k) :
    v = v' := by
  obtain ⟨is, h1, h2⟩ := code_ok.1 h
  obtain ⟨is', h1', h2'⟩ := code_ok.1 h'
  rw [h2] at h2'
  cases h2'
  exact ordinals_inj h1 h1'

/-- **C38**: every number below the product of the numbers of values is the code of a vector of known values. -/
theorem C38_surjective {cats : List (List V)} (hne : cats ≠ []) (hn : ∀ c ∈ cats, c.Nodup) {k : Nat}
    (hk : k < (cats.map List.length).prod) : ∃ v, List.Forall₂ (fun x l => x ∈ l) v cats ∧ code cats v = .ok k := by
  have : (labels cats).length = (cats.map List.length).prod := by
    unfold labels
    rw [cartesian_length (by simpa using hne)]
    simp [Function.comp_def]
  have hk' : k < (labels cats).length := by omega
  have hm := mem_labels.1 (List.getElem_mem hk')
  obtain ⟨v, hv⟩ := ordinals_surj hn hm.2
  exact ⟨v, (ordinals_mem hv).1, code_ok.2 ⟨_, hv, List.getElem?_eq_getElem hk'⟩⟩

/-- **C38**: a vector with an unknown value, or of the wrong length, is refused. -/
theorem C38_unknown {cats : List (List V)} {v : List V} (h : ¬ List.Forall₂ (fun x l => x ∈ l) v cats) :
    ∃ e, code cats v = .error e := by
  cases hc : code cats v with
  | error e => exact ⟨e, rfl⟩
  | ok k =>
    obtain ⟨is, h1, _⟩ := code_ok.1 hc
    exact absurd (ordinals_mem h1).1 h

example : (cartesian [[0, 1], [0, 1, 2]]) = [[0, 0], [0, 1], [0, 2], [1, 0], [1, 1], [1, 2]] := by decide
example : (code [[3, 7], [2, 5, 9]] [7, 5]).toOption = some 4 := by decide

end ord

/-! ### one-hot vectors and groups -/

theorem sum_zip_oneHot (f : Nat → Nat) (d i : Nat) :
    ((List.range d).map (fun j => (if j = i then 1 else 0) * f j)).sum = if i < d then f i else 0 := by
  induction d with
  | zero => simp
  | succ d ih =>
    rw [List.range_succ, List.map_append, List.sum_append, ih]
    simp only [List.map_cons, List.map_nil, List.sum_cons, List.sum_nil, Nat.add_zero]
    by_cases h : d = i
    · subst h; simp
    · by_cases h2 : i < d
      · simp [h, h2, Nat.lt_succ_of_lt h2]
      · have : ¬ i < d + 1 := by omega
        simp [h, h2, this]

theorem convert_oneHot {d i : Nat} (h : i < d) : convert4onehot (oneHot d i) = i := by
  have hz : List.zipWith (fun a b : Nat => a * b) (oneHot d i) (List.range (oneHot d i).length) =
      (List.range d).map (fun j => (if j = i then 1 else 0) * j) := by
    unfold oneHot
    rw [List.length_map, List.length_range, List.zipWith_map_left]
    generalize List.range d = l
    induction l with
    | nil => rfl
    | cons a l ih => simp [ih]
  unfold convert4onehot
  rw [show (fun x1 x2 : Nat => x1 * x2) = (fun a b : Nat => a * b) from rfl, hz, sum_zip_oneHot (fun j => j), if_pos h]

theorem oneHot_inj {d i j : Nat} (hi : i < d) (hj : j < d) (h : oneHot d i = oneHot d j) : i = j := by
  rw [← convert_oneHot hi, h, convert_oneHot hj]

theorem mapE_ok {α β : Type} {f : α → Except Err β} {l : List α} {r : List β} :
    mapE f l = .ok r ↔ List.Forall₂ (fun a b => f a = .ok b) l r := by
  induction l generalizing r with
  | nil => simp [mapE, eq_comm]
  | cons a l ih =>
    simp only [mapE]
    constructor
    · intro h
      split at h
      · cases h
      · cases h
      · rename_i b bs h1 h2
        cases h
        exact List.Forall₂.cons h1 (ih.1 h2)
    · intro h
      cases h with
      | cons h1 h2 => rw [h1, ih.2 h2]

theorem mapE_total {α β : Type} {f : α → Except Err β} {l : List α} (h : ∀ a ∈ l, ∃ b, f a = .ok b) : ∃ r, mapE f l = .ok r := by
  induction l with
  | nil => exact ⟨[], rfl⟩
  | cons a l ih =>
    obtain ⟨b, hb⟩ := h a (by simp)
    obtain ⟨r, hr⟩ := ih (fun a ha => h a (List.mem_cons_of_mem _ ha))
    exact ⟨b :: r, by simp [mapE, hb, hr]⟩

section learners
variable {V W K : Type} [LinearOrder V]

/-- An encoder that fits data with `d` treatments. -/
def EncOk (d : Nat) (enc : Encoder V) : Prop :=
  1 ≤ d ∧ enc.cats.length = d ∧ (enc.codes = none ↔ d = 1) ∧ ∀ codes, enc.codes = some codes → codes.Nodup

variable (lit : Nat → V)

theorem transform_inj {d : Nat} {enc : Encoder V} (he : EncOk d enc) {a b : List V} (ha : a.length = d) (hb : b.length = d) {i : Nat}
    (h : transform lit enc a = .ok i) (h' : transform lit enc b = .ok i) : a = b := by
  obtain ⟨h1, h2, h3, h4⟩ := he
  cases hc : enc.codes with
  | none =>
    have hd := h3.1 hc
    subst hd
    match a, b, ha, hb with
    | [u], [v], _, _ =>
      obtain ⟨cats, codes⟩ := enc
      simp only at hc h2
      subst hc
      match cats, h2 with
      | [c], _ =>
        simp only [transform] at h h'
        have := (position_get h).symm.trans (position_get h')
        simp at this
        rw [this]
  | some codes =>
    have hd : d ≠ 1 := fun hd => by rw [h3.2 hd] at hc; cases hc
    match a, b, ha, hb with
    | a1 :: a2 :: a, b1 :: b2 :: b, _, _ =>
      simp only [transform, hc] at h h'
      cases hk : code enc.cats (a1 :: a2 :: a) with
      | error e => rw [hk] at h; cases h
      | ok k =>
        cases hk' : code enc.cats (b1 :: b2 :: b) with
        | error e => rw [hk'] at h'; cases h'
        | ok k' =>
          rw [hk] at h; rw [hk'] at h'
          simp only at h h'
          have := (position_get h).symm.trans (position_get h')
          simp only [Option.some.injEq] at this
          subst this
          exact C38_injective hk hk'
    | [u], _, hu, _ => simp at hu; omega
    | [], _, hu, _ => simp at hu; omega
    | _, [u], _, hu => simp at hu; omega
    | _, [], _, hu => simp at hu; omega

theorem transform_lt {d : Nat} {enc : Encoder V} (he : EncOk d enc) {a : List V} {i : Nat}
    (h : transform lit enc a = .ok i) : i < width enc := by
  obtain ⟨h1, h2, h3, h4⟩ := he
  unfold width
  unfold transform at h
  split at h
  · rename_i u hc
    rw [hc]
    simp only
    split at h
    · rename_i c hcc
      rw [hcc]
      exact (List.getElem?_eq_some_iff.1 (position_get h)).1
    · cases h
  · rename_i u codes hc
    rw [hc]
    have := (List.getElem?_eq_some_iff.1 (position_get h)).1
    simpa using this
  · rename_i codes _ hc
    rw [hc]
    split at h
    · cases h
    · exact (List.getElem?_eq_some_iff.1 (position_get h)).1
  · cases h

theorem column_mem {rows : List (Row V W K)} {d : Nat} (hd : ∀ r ∈ rows, r.x.length = d) {r : Row V W K} (hr : r ∈ rows) :
    List.Forall₂ (fun x l => x ∈ l) r.x ((List.range d).map (fun j => uniq (Meta.column rows j))) := by
  rw [List.forall₂_iff_get]
  refine ⟨by simp [hd r hr], fun i h1 h2 => ?_⟩
  simp only [List.get_eq_getElem, List.getElem_map, List.getElem_range]
  rw [mem_uniq]
  unfold Meta.column
  rw [List.mem_filterMap]
  exact ⟨r, hr, List.getElem?_eq_getElem h1⟩

theorem fitEncoder_ok {allCodes : Bool} {d : Nat} (hd1 : 1 ≤ d) {rows : List (Row V W K)} (hd : ∀ r ∈ rows, r.x.length = d) :
    ∃ enc, fitEncoder allCodes d rows = .ok enc ∧ EncOk d enc ∧
      enc.cats = (List.range d).map (fun j => uniq (Meta.column rows j)) ∧
      (∀ r ∈ rows, ∃ i, transform lit enc r.x = .ok i) ∧
      (allCodes = true → ∀ v, List.Forall₂ (fun x l => x ∈ l) v enc.cats → ∃ i, transform lit enc v = .ok i) ∧
      (allCodes = false → ∀ v, v.length = d → (∀ r ∈ rows, r.x ≠ v) → 2 ≤ d → ∃ e, transform lit enc v = .error e) := by
  unfold fitEncoder
  simp only
  by_cases h1 : d ≤ 1
  · have hd' : d = 1 := by omega
    subst hd'
    rw [if_pos h1]
    refine ⟨_, rfl, ⟨hd1, by simp, by simp, by simp⟩, rfl, fun r hr => ?_, fun _ v hv => ?_, fun _ _ _ _ h => by omega⟩
    · have hm := column_mem hd hr
      have hl := hd r hr
      match hx : r.x, hl with
      | [u], _ =>
        rw [hx] at hm
        simp only [List.range_one, List.map_cons, List.map_nil] at hm ⊢
        cases hm with
        | cons hu _ => exact ⟨_, by simp only [transform]; exact position_ok.2 ⟨hu, rfl⟩⟩
    · simp only [List.range_one, List.map_cons, List.map_nil] at hv ⊢
      cases hv with
      | cons hu hn => cases hn; exact ⟨_, by simp only [transform]; exact position_ok.2 ⟨hu, rfl⟩⟩
  · rw [if_neg h1]
    have hne : (List.range d).map (fun j => uniq (Meta.column rows j)) ≠ [] := by
      intro h; simp at h; omega
    have hcode : ∀ r ∈ rows, ∃ k, code ((List.range d).map (fun j => uniq (Meta.column rows j))) r.x = .ok k := fun r hr => by
      obtain ⟨k, hk, _⟩ := C38_total hne (column_mem hd hr)
      exact ⟨k, hk⟩
    have hlong : ∀ (enc : Encoder V) (codes : List Nat), enc.codes = some codes → ∀ v : List V, v.length = d →
        transform lit enc v = (match code enc.cats v with
          | .error e => .error e
          | .ok k => position codes k) := by
      intro enc codes hc v hv
      match v, hv with
      | a1 :: a2 :: a, _ => simp only [transform, hc]; rfl
      | [u], hu => simp at hu; omega
      | [], hu => simp at hu; omega
    cases allCodes with
    | true =>
      simp only [if_true]
      refine ⟨_, rfl, ⟨hd1, by simp, by simp; omega, ?_⟩, rfl, fun r hr => ?_, fun _ v hv => ?_, fun h => by cases h⟩
      · intro codes hcodes
        cases hcodes
        exact List.nodup_range
      · obtain ⟨k, hk⟩ := hcode r hr
        rw [hlong _ _ rfl r.x (hd r hr), hk]
        obtain ⟨is, _, h2⟩ := code_ok.1 hk
        have := (List.getElem?_eq_some_iff.1 h2).1
        exact ⟨_, position_ok.2 ⟨by simpa using this, rfl⟩⟩
      · obtain ⟨k, hk, _⟩ := C38_total hne hv
        rw [hlong _ _ rfl v (by rw [hv.length_eq]; simp), hk]
        obtain ⟨is, _, h2⟩ := code_ok.1 hk
        have := (List.getElem?_eq_some_iff.1 h2).1
        exact ⟨_, position_ok.2 ⟨by simpa using this, rfl⟩⟩
    | false =>
      simp only [Bool.false_eq_true, if_false]
      obtain ⟨ks, hks⟩ := mapE_total (l := rows) hcode
      rw [hks]
      have hf := mapE_ok.1 hks
      refine ⟨_, rfl, ⟨hd1, by simp, by simp; omega, ?_⟩, rfl, fun r hr => ?_, fun h => absurd h (by decide), fun _ v hv hno _ => ?_⟩
      · intro codes hcodes
        cases hcodes
        exact uniq_nodup _
      · rw [hlong _ _ rfl r.x (hd r hr)]
        obtain ⟨i, hi, hri⟩ := List.mem_iff_getElem.1 hr
        have hget := (List.forall₂_iff_get.1 hf).2 i hi (by rw [← hf.length_eq]; exact hi)
        simp only [List.get_eq_getElem] at hget
        rw [hri] at hget
        rw [hget]
        exact ⟨_, position_ok.2 ⟨mem_uniq.2 (List.getElem_mem _), rfl⟩⟩
      · rw [hlong _ _ rfl v hv]
        cases hk : code ((List.range d).map (fun j => uniq (Meta.column rows j))) v with
        | error e => exact ⟨e, rfl⟩
        | ok k =>
          simp only
          unfold position
          rw [if_neg]
          · exact ⟨_, rfl⟩
          · rw [mem_uniq]
            intro hkm
            obtain ⟨i, hi, hki⟩ := List.mem_iff_getElem.1 hkm
            have hget := (List.forall₂_iff_get.1 hf).2 i (by rw [hf.length_eq]; exact hi) hi
            simp only [List.get_eq_getElem] at hget
            rw [hki] at hget
            exact hno _ (List.getElem_mem _) (C38_injective hget hk)

theorem groups_eq {d : Nat} {enc : Encoder V} (he : EncOk d enc) {rows : List (Row V W K)} (hd : ∀ r ∈ rows, r.x.length = d)
    {xs : List (List Nat)} (hxs : encodeRows lit enc rows = .ok xs) {a : List V} (ha : a.length = d) {t : Nat}
    (ht : transform lit enc a = .ok t) :
    groups t xs rows = (rows.filter (fun r => r.x = a)).map (fun r => (r.wv, r.y)) := by
  unfold encodeRows at hxs
  split at hxs
  · cases hxs
  · rename_i is his
    cases hxs
    have hf := mapE_ok.1 his
    unfold groups
    clear his
    induction hf with
    | nil => rfl
    | @cons r i rows is h1 _ ih =>
      have ih' := ih (fun r hr => hd r (List.mem_cons_of_mem _ hr))
      simp only [List.map_cons, List.zip_cons_cons, List.filter_cons]
      rw [convert_oneHot (transform_lt lit he h1)]
      by_cases hx : r.x = a
      · have : i = t := by
          rw [hx] at h1
          rw [h1] at ht
          cases ht; rfl
        simp only [this, hx, decide_true, if_true, List.map_cons]
        rw [ih']
      · have : i ≠ t := by
          rintro rfl
          exact hx (transform_inj lit he (hd r (by simp)) ha h1 ht)
        simp only [this, hx, decide_false, Bool.false_eq_true, if_false]
        rw [ih']

theorem encodeRows_total {enc : Encoder V} {rows : List (Row V W K)} (h : ∀ r ∈ rows, ∃ i, transform lit enc r.x = .ok i) :
    ∃ xs, encodeRows lit enc rows = .ok xs := by
  obtain ⟨r, hr⟩ := mapE_total (f := fun r : Row V W K => transform lit enc r.x) h
  exact ⟨_, by unfold encodeRows; rw [hr]⟩

theorem getTrCtrl_arg {enc : Encoder V} {b : Bool} {a : List V} {arg : Option (Arg V)} (h : ArgFor a arg) :
    getTrCtrl lit enc b arg = transform lit enc a := by
  rcases h with rfl | ⟨v, rfl, rfl⟩ <;> rfl

/-- the training data of one arm: the rows whose treatment values are exactly `a` -/
def armData (a : List V) (rows : List (Row V W K)) : List (W × K) := (rows.filter (fun r => r.x = a)).map (fun r => (r.wv, r.y))

theorem armData_ne {a : List V} {rows : List (Row V W K)} (h : ∃ r ∈ rows, r.x = a) : armData a rows ≠ [] := by
  obtain ⟨r, hr, hx⟩ := h
  unfold armData
  intro hn
  have : r ∈ rows.filter (fun r => r.x = a) := by simp [hr, hx]
  rw [List.map_eq_nil_iff.1 hn] at this
  cases this

/-- the arm has at least two rows (the outcome of an arm with a single row is squeezed to an array without dimensions, which no base
model accepts) -/
def Twice (a : List V) (rows : List (Row V W K)) : Prop := 2 ≤ (rows.filter (fun r => r.x = a)).length

instance (a : List V) (rows : List (Row V W K)) : Decidable (Twice a rows) := inferInstanceAs (Decidable (_ ≤ _))

theorem Twice.occurs {a : List V} {rows : List (Row V W K)} (h : Twice a rows) : ∃ r ∈ rows, r.x = a := by
  unfold Twice at h
  cases hf : rows.filter (fun r => r.x = a) with
  | nil => rw [hf] at h; simp at h
  | cons r l =>
    have : r ∈ rows.filter (fun r => r.x = a) := by rw [hf]; simp
    exact ⟨r, (List.mem_filter.1 this).1, by simpa using (List.mem_filter.1 this).2⟩

theorem armData_two {a : List V} {rows : List (Row V W K)} (h : Twice a rows) : 2 ≤ (armData a rows).length := by
  unfold armData
  rw [List.length_map]
  exact h

theorem Twice.two {a : List V} {rows : List (Row V W K)} (h : Twice a rows) : 2 ≤ rows.length :=
  le_trans h (List.length_filter_le _ _)

theorem fitBase_two {D F : Type} {fitM : List D → F} {l : List D} (h : 2 ≤ l.length) : fitBase fitM l = .ok (fitM l) := by
  match l, h with
  | a :: b :: l, _ => rfl

/-- **C39**: for any data with one or several treatments and any two treatment vectors that occur in at least two rows, `TLearner` can
be fitted, and its effect is the prediction of the base model trained on exactly the rows of the treated arm minus the
prediction of the base model trained on exactly the rows of the control arm. -/
theorem C39_tlearner [Sub K] (fitM : List (W × K) → W → K) {d : Nat} (hd1 : 1 ≤ d) {rows : List (Row V W K)}
    (hd : ∀ r ∈ rows, r.x.length = d) {a b : List V} (ha : Twice a rows) (hb : Twice b rows)
    {ta tb : Option (Arg V)} (hta : ArgFor a ta) (htb : ArgFor b tb) :
    ∃ s, tFit fitM lit d none rows ta tb = .ok s ∧
      ∀ wv, tEstimate s wv = fitM (armData a rows) wv - fitM (armData b rows) wv := by
  obtain ⟨enc, h1, he, -, h2, -, -⟩ := fitEncoder_ok lit (allCodes := false) hd1 hd
  obtain ⟨xs, hxs⟩ := encodeRows_total lit h2
  have n1 := armData_two ha
  have n2 := armData_two hb
  obtain ⟨ra, hra, rfl⟩ := ha.occurs
  obtain ⟨rb, hrb, rfl⟩ := hb.occurs
  obtain ⟨t, ht⟩ := h2 ra hra
  obtain ⟨c, hc⟩ := h2 rb hrb
  have g1 := groups_eq lit he hd hxs (hd ra hra) ht
  have g2 := groups_eq lit he hd hxs (hd rb hrb) hc
  refine ⟨⟨some enc, t, c, fitM (armData ra.x rows), fitM (armData rb.x rows)⟩, ?_, fun wv => rfl⟩
  simp only [tFit, useEncoder, h1, hxs, getTrCtrl_arg lit hta, getTrCtrl_arg lit htb, ht, hc, g1, g2]
  unfold armData at n1 n2 ⊢
  rw [fitBase_two n1, fitBase_two n2]

/-- **C39, refuted** for an arm with a single row: fitting raises `ValueError`, also when the other arm is large. -/
theorem C39_single_row_refuted [Sub K] (fitM : List (W × K) → W → K) {d : Nat} (hd1 : 1 ≤ d) {rows : List (Row V W K)}
    (hd : ∀ r ∈ rows, r.x.length = d) {a b : List V} (ha : ∃ r ∈ rows, r.x = a) (hb : ∃ r ∈ rows, r.x = b)
    (hab : ¬ (Twice a rows ∧ Twice b rows)) {ta tb : Option (Arg V)} (hta : ArgFor a ta) (htb : ArgFor b tb) :
    tFit fitM lit d none rows ta tb = .error .value := by
  obtain ⟨enc, h1, he, -, h2, -, -⟩ := fitEncoder_ok lit (allCodes := false) hd1 hd
  obtain ⟨xs, hxs⟩ := encodeRows_total lit h2
  obtain ⟨ra, hra, rfl⟩ := ha
  obtain ⟨rb, hrb, rfl⟩ := hb
  obtain ⟨t, ht⟩ := h2 ra hra
  obtain ⟨c, hc⟩ := h2 rb hrb
  have g1 : groups t xs rows = armData ra.x rows := groups_eq lit he hd hxs (hd ra hra) ht
  have g2 : groups c xs rows = armData rb.x rows := groups_eq lit he hd hxs (hd rb hrb) hc
  simp only [tFit, useEncoder, h1, hxs, getTrCtrl_arg lit hta, getTrCtrl_arg lit htb, ht, hc, g1, g2]
  have key : ∀ v, ¬ Twice v rows → fitBase fitM (armData v rows) = .error .value := by
    intro v hv
    unfold Twice at hv
    have hl : (armData v rows).length < 2 := by unfold armData; rw [List.length_map]; omega
    match hh : armData v rows, hl with
    | [], _ => rfl
    | [_], _ => rfl
  by_cases h : Twice ra.x rows
  · rw [key rb.x (fun h' => hab ⟨h, h'⟩)]
    rw [fitBase_two (armData_two h)]
  · rw [key ra.x h]

/-- **C39**: rows of other arms do not matter: on two data sets with the same treated and control rows the effects are
equal. -/
theorem C39_own_rows [Sub K] (fitM : List (W × K) → W → K) {d : Nat} (hd1 : 1 ≤ d) {rows rows' : List (Row V W K)}
    (hd : ∀ r ∈ rows, r.x.length = d) (hd' : ∀ r ∈ rows', r.x.length = d) {a b : List V}
    (ha : Twice a rows) (hb : Twice b rows)
    (hsame : rows.filter (fun r => r.x = a ∨ r.x = b) = rows'.filter (fun r => r.x = a ∨ r.x = b)) :
    ∃ s s', tFit fitM lit d none rows (some (.many a)) (some (.many b)) = .ok s ∧
      tFit fitM lit d none rows' (some (.many a)) (some (.many b)) = .ok s' ∧ ∀ wv, tEstimate s wv = tEstimate s' wv := by
  have harm : ∀ v, (v = a ∨ v = b) → armData v rows = armData v rows' := by
    intro v hv
    have hfil : ∀ l : List (Row V W K), l.filter (fun r => r.x = v) =
        (l.filter (fun r => r.x = a ∨ r.x = b)).filter (fun r => r.x = v) := by
      intro l
      rw [List.filter_filter]
      apply List.filter_congr
      intro r _
      by_cases h : r.x = v
      · simp only [h, decide_true, Bool.true_and]
        rcases hv with rfl | rfl <;> simp
      · simp [h]
    unfold armData
    rw [hfil rows, hfil rows', hsame]
  have hmem : ∀ v, (v = a ∨ v = b) → Twice v rows → Twice v rows' := by
    intro v hv h
    have := congrArg List.length (harm v hv)
    unfold armData at this
    rw [List.length_map, List.length_map] at this
    unfold Twice at h ⊢
    omega
  obtain ⟨s, h1, h2⟩ := C39_tlearner lit fitM hd1 hd ha hb (Or.inl rfl) (Or.inl rfl)
  obtain ⟨s', h1', h2'⟩ := C39_tlearner lit fitM hd1 hd' (hmem a (Or.inl rfl) ha) (hmem b (Or.inr rfl) hb) (Or.inl rfl) (Or.inl rfl)
  refine ⟨s, s', h1, h1', fun wv => ?_⟩
  rw [h2, h2', harm a (Or.inl rfl), harm b (Or.inr rfl)]

/-- **C39**: swapping the arms negates the effect, equal arms have no effect. -/
theorem C39_antisymmetric [Ring K] (fitM : List (W × K) → W → K) {d : Nat} (hd1 : 1 ≤ d) {rows : List (Row V W K)}
    (hd : ∀ r ∈ rows, r.x.length = d) {a b : List V} (ha : Twice a rows) (hb : Twice b rows) :
    ∃ s s', tFit fitM lit d none rows (some (.many a)) (some (.many b)) = .ok s ∧
      tFit fitM lit d none rows (some (.many b)) (some (.many a)) = .ok s' ∧
      ∀ wv, tEstimate s' wv = - tEstimate s wv ∧ (a = b → tEstimate s wv = 0) := by
  obtain ⟨s, h1, h2⟩ := C39_tlearner lit fitM hd1 hd ha hb (Or.inl rfl) (Or.inl rfl)
  obtain ⟨s', h1', h2'⟩ := C39_tlearner lit fitM hd1 hd hb ha (Or.inl rfl) (Or.inl rfl)
  refine ⟨s, s', h1, h1', fun wv => ⟨by rw [h2, h2']; exact (neg_sub _ _).symm, fun hab => ?_⟩⟩
  rw [h2, hab, sub_self]

/-- a vector that does not occur in the data has no code -/
theorem unseen_transform {d : Nat} (hd1 : 1 ≤ d) {rows : List (Row V W K)}
    (hd : ∀ r ∈ rows, r.x.length = d) {a : List V} (hal : a.length = d) (ha : ∀ r ∈ rows, r.x ≠ a) :
    ∃ enc xs e, fitEncoder false d rows = .ok enc ∧ encodeRows lit enc rows = .ok xs ∧ transform lit enc a = .error e := by
  obtain ⟨enc, h1, he, hcats, h2, -, h3⟩ := fitEncoder_ok lit (allCodes := false) hd1 hd
  obtain ⟨xs, hxs⟩ := encodeRows_total lit h2
  have ht : ∃ e, transform lit enc a = .error e := by
    by_cases hd2 : 2 ≤ d
    · exact h3 rfl a hal ha hd2
    · have : d = 1 := by omega
      subst this
      match a, hal, ha with
      | [u], _, ha =>
        have hc : enc.codes = none := he.2.2.1.2 rfl
        obtain ⟨cats, codes⟩ := enc
        simp only at hc hcats
        subst hc hcats
        simp only [List.range_one, List.map_cons, List.map_nil, transform, position]
        rw [if_neg]
        · exact ⟨_, rfl⟩
        · rw [mem_uniq]
          unfold Meta.column
          rw [List.mem_filterMap]
          rintro ⟨r, hr, hx⟩
          have hl := hd r hr
          match hrx : r.x, hl with
          | [v], _ =>
            rw [hrx] at hx
            simp at hx
            exact ha r hr (by rw [hrx, hx])
  obtain ⟨e, he'⟩ := ht
  exact ⟨enc, xs, e, h1, hxs, he'⟩

/-- **C39**: a treated vector that does not occur in the data is refused. -/
theorem C39_unseen (fitM : List (W × K) → W → K) {d : Nat} (hd1 : 1 ≤ d) {rows : List (Row V W K)}
    (hd : ∀ r ∈ rows, r.x.length = d) {a : List V} (hal : a.length = d) (ha : ∀ r ∈ rows, r.x ≠ a) (tb : Option (Arg V)) :
    ∃ e, tFit fitM lit d none rows (some (.many a)) tb = .error e := by
  obtain ⟨enc, xs, e, h1, hxs, he'⟩ := unseen_transform lit hd1 hd hal ha
  refine ⟨e, ?_⟩
  simp [tFit, useEncoder, h1, hxs, getTrCtrl, he']

/-- **C39**: so is a control vector. -/
theorem C39_unseen_control (fitM : List (W × K) → W → K) {d : Nat} (hd1 : 1 ≤ d) {rows : List (Row V W K)}
    (hd : ∀ r ∈ rows, r.x.length = d) {a : List V} (hal : a.length = d) (ha : ∀ r ∈ rows, r.x ≠ a) (ta : Option (Arg V)) :
    ∃ e, tFit fitM lit d none rows ta (some (.many a)) = .error e := by
  obtain ⟨enc, xs, e, h1, hxs, he'⟩ := unseen_transform lit hd1 hd hal ha
  cases ht : getTrCtrl lit enc true ta with
  | error e' => exact ⟨e', by simp [tFit, useEncoder, h1, hxs, ht]⟩
  | ok t =>
    have hc : getTrCtrl lit enc false (some (.many a)) = .error e := by simp [getTrCtrl, he']
    exact ⟨e, by simp [tFit, useEncoder, h1, hxs, ht, hc]⟩

/-- **C39**: without arguments the arms of a single treatment are its second smallest (treat) and its smallest (control)
value. -/
theorem C39_defaults [Sub K] (fitM : List (W × K) → W → K) {rows : List (Row V W K)}
    (hd : ∀ r ∈ rows, r.x.length = 1) {u v : V} {l : List V} (huv : uniq (Meta.column rows 0) = u :: v :: l)
    (hu2 : Twice [u] rows) (hv2 : Twice [v] rows) :
    ∃ s, tFit fitM lit 1 none rows none none = .ok s ∧ u < v ∧
      ∀ wv, tEstimate s wv = fitM (armData [v] rows) wv - fitM (armData [u] rows) wv := by
  have hlt : u < v := by
    have := uniq_sorted (Meta.column rows 0)
    rw [huv] at this
    exact (List.pairwise_cons.1 this).1 v (by simp)
  obtain ⟨s, hs, he⟩ := C39_tlearner lit fitM (le_refl 1) hd hv2 hu2
    (Or.inl rfl) (Or.inl rfl)
  refine ⟨s, ?_, hlt, he⟩
  rw [← hs]
  unfold tFit useEncoder
  simp only
  have hf : fitEncoder false 1 rows = .ok ⟨[u :: v :: l], none⟩ := by
    simp [fitEncoder, huv]
  rw [hf]
  have p1 : getTrCtrl lit ⟨[u :: v :: l], none⟩ true (some (.many [v])) = .ok 1 := by
    simp only [getTrCtrl, transform]
    exact position_of_get (by rw [← huv]; exact uniq_nodup _) rfl
  have p2 : getTrCtrl lit ⟨[u :: v :: l], none⟩ false (some (.many [u])) = .ok 0 := by
    simp only [getTrCtrl, transform]
    exact position_of_get (by rw [← huv]; exact uniq_nodup _) rfl
  simp only [p1, p2]
  rfl


/-! ### non-vacuity of C39 -/

/-- base model used in examples: the sum of the outcomes of the training rows, whatever the covariates -/
def sumModel {W : Type} (l : List (W × Int)) (_ : W) : Int := (l.map (·.2)).sum

/-- five rows with two treatments -/
def exMetaRows : List (Row Nat Nat Int) := [⟨0, [3, 5], 10⟩, ⟨1, [3, 6], 4⟩, ⟨2, [4, 5], 7⟩, ⟨3, [3, 6], 1⟩, ⟨4, [4, 5], 2⟩]

example : (tFit sumModel id 2 none exMetaRows (some (.many [3, 6])) (some (.many [4, 5]))).toOption.map (fun s => tEstimate s 9) =
    some (5 - 9) := by decide
example : Twice [3, 6] exMetaRows ∧ Twice [4, 5] exMetaRows ∧ ¬ Twice [3, 5] exMetaRows ∧ (∀ r ∈ exMetaRows, r.x ≠ [4, 6]) ∧
    ∀ r ∈ exMetaRows, r.x.length = 2 := by decide
example : (tFit sumModel id 2 none exMetaRows (some (.many [4, 6])) none).toOption.isNone = true := by decide
example : uniq (Meta.column [(⟨0, [3], 10⟩ : Row Nat Nat Int), ⟨0, [1], 10⟩] 0) = 1 :: 3 :: [] := by decide

/-! ### SLearner -/

/-- every component of the treatment vector occurs in its column of the data -/
def Observed (d : Nat) (rows : List (Row V W K)) (v : List V) : Prop :=
  v.length = d ∧ ∀ j < d, ∃ r ∈ rows, r.x[j]? = v[j]?

theorem observed_forall2 {d : Nat} {rows : List (Row V W K)} {v : List V} (h : Observed d rows v) :
    List.Forall₂ (fun x l => x ∈ l) v ((List.range d).map (fun j => uniq (Meta.column rows j))) := by
  rw [List.forall₂_iff_get]
  refine ⟨by simp [h.1], fun i h1 h2 => ?_⟩
  simp only [List.get_eq_getElem, List.getElem_map, List.getElem_range]
  rw [mem_uniq]
  unfold Meta.column
  rw [List.mem_filterMap]
  obtain ⟨r, hr, hx⟩ := h.2 i (by rw [← h.1]; exact h1)
  exact ⟨r, hr, by rw [hx, List.getElem?_eq_getElem h1]⟩

theorem observed_row {d : Nat} {rows : List (Row V W K)} (hd : ∀ r ∈ rows, r.x.length = d) {r : Row V W K} (hr : r ∈ rows) :
    Observed d rows r.x := ⟨hd r hr, fun _ _ => ⟨r, hr, rfl⟩⟩

theorem encodeRows_zip {enc : Encoder V} {rows : List (Row V W K)} {xs : List (List Nat)} (h : encodeRows lit enc rows = .ok xs)
    {φ : List V → List Nat} (hφ : ∀ r ∈ rows, ∀ i, transform lit enc r.x = .ok i → φ r.x = oneHot (width enc) i) :
    (rows.zip xs).map (fun p => ((p.1.wv, p.2), p.1.y)) = rows.map (fun r => ((r.wv, φ r.x), r.y)) := by
  unfold encodeRows at h
  split at h
  · cases h
  · rename_i is his
    cases h
    have hf := mapE_ok.1 his
    clear his
    induction hf with
    | nil => rfl
    | @cons r i rows is h1 _ ih =>
      simp only [List.map_cons, List.zip_cons_cons]
      rw [ih (fun r hr => hφ r (List.mem_cons_of_mem _ hr)), hφ r (by simp) i h1]

/-- **C40**: for any data set there is an encoding `φ` of treatment vectors, injective on the vectors whose components
occur in the data, such that `SLearner` trains one model on all rows, with features covariates and `φ` of the row's
treatment vector, and for all arms with observed components the estimate of the fitted object is the prediction of that
model with the encoded treated vector minus its prediction with the encoded control vector. -/
theorem C40_slearner [Sub K] (fitM : List ((W × List Nat) × K) → (W × List Nat → K)) {d : Nat} (hd1 : 1 ≤ d)
    {rows : List (Row V W K)} (hne : 2 ≤ rows.length) (hd : ∀ r ∈ rows, r.x.length = d) :
    ∃ φ : List V → List Nat,
      (∀ u v, Observed d rows u → Observed d rows v → φ u = φ v → u = v) ∧
      ∀ a b ta tb, Observed d rows a → Observed d rows b → ArgFor a ta → ArgFor b tb →
        ∃ s, sFit fitM lit d none rows ta tb = .ok s ∧
          ∀ wv, ∃ s', sEstimate lit s wv = .ok
            (fitM (rows.map (fun r => ((r.wv, φ r.x), r.y))) (wv, φ a) - fitM (rows.map (fun r => ((r.wv, φ r.x), r.y))) (wv, φ b), s') := by
  obtain ⟨enc, h1, he, hcats, h2, h3, -⟩ := fitEncoder_ok lit (allCodes := true) hd1 hd
  obtain ⟨xs, hxs⟩ := encodeRows_total lit h2
  have htot : ∀ v, Observed d rows v → ∃ i, transform lit enc v = .ok i := fun v hv =>
    h3 rfl v (by rw [hcats]; exact observed_forall2 hv)
  let φ : List V → List Nat := fun v => match transform lit enc v with
    | .ok i => oneHot (width enc) i
    | .error _ => []
  have hφ : ∀ v i, transform lit enc v = .ok i → φ v = oneHot (width enc) i := fun v i h => by
    simp only [φ, h]
  refine ⟨φ, fun u v hu hv huv => ?_, fun a b ta tb ha hb hta htb => ?_⟩
  · obtain ⟨i, hi⟩ := htot u hu
    obtain ⟨j, hj⟩ := htot v hv
    rw [hφ u i hi, hφ v j hj] at huv
    have := oneHot_inj (transform_lt lit he hi) (transform_lt lit he hj) huv
    subst this
    exact transform_inj lit he hu.1 hv.1 hi hj
  · have hz := encodeRows_zip lit hxs (φ := φ) (fun r _ i hi => hφ r.x i hi)
    refine ⟨⟨enc, fitM (rows.map (fun r => ((r.wv, φ r.x), r.y))), ta, tb⟩, ?_, fun wv => ?_⟩
    · simp only [sFit, useEncoder, h1, hxs, hz]
      rw [fitBase_two (by simpa using hne)]
    · obtain ⟨i, hi⟩ := htot a ha
      obtain ⟨j, hj⟩ := htot b hb
      refine ⟨⟨enc, fitM (rows.map (fun r => ((r.wv, φ r.x), r.y))), some (.one (lit i)), some (.one (lit j))⟩, ?_⟩
      simp only [sEstimate, getTrCtrl_arg lit hta, getTrCtrl_arg lit htb, hi, hj, transform_lt lit he hi, transform_lt lit he hj,
        and_self, if_true, hφ a i hi, hφ b j hj]

/-- **C40**: swapping the arms negates the estimate and equal arms have effect zero. -/
theorem C40_antisymmetric [Ring K] (fitM : List ((W × List Nat) × K) → (W × List Nat → K)) {d : Nat} (hd1 : 1 ≤ d)
    {rows : List (Row V W K)} (hne : 2 ≤ rows.length) (hd : ∀ r ∈ rows, r.x.length = d) {a b : List V}
    (ha : Observed d rows a) (hb : Observed d rows b) :
    ∃ s s', sFit fitM lit d none rows (some (.many a)) (some (.many b)) = .ok s ∧
      sFit fitM lit d none rows (some (.many b)) (some (.many a)) = .ok s' ∧
      ∀ wv, ∃ e q q', sEstimate lit s wv = .ok (e, q) ∧ sEstimate lit s' wv = .ok (-e, q') ∧ (a = b → e = 0) := by
  obtain ⟨φ, -, h⟩ := C40_slearner lit fitM hd1 hne hd
  obtain ⟨s, h1, h2⟩ := h a b _ _ ha hb (Or.inl rfl) (Or.inl rfl)
  obtain ⟨s', h1', h2'⟩ := h b a _ _ hb ha (Or.inl rfl) (Or.inl rfl)
  refine ⟨s, s', h1, h1', fun wv => ?_⟩
  obtain ⟨q, hq⟩ := h2 wv
  obtain ⟨q', hq'⟩ := h2' wv
  exact ⟨_, q, q', hq, by rw [hq', neg_sub], fun hab => by rw [hab, sub_self]⟩

/-- base model used in examples: the sum of the outcomes of the training rows with the same one-hot vector -/
def cellModel {W : Type} (l : List ((W × List Nat) × Int)) (p : W × List Nat) : Int :=
  ((l.filter (fun q => q.1.2 = p.2)).map (·.2)).sum

example : (sFit cellModel id 2 none exMetaRows (some (.many [3, 6])) (some (.many [4, 5]))).toOption.bind
    (fun s => (sEstimate id s 9).toOption.map (·.1)) = some (5 - 9) := by decide
example : Observed 2 exMetaRows [4, 6] := by
  refine ⟨rfl, ?_⟩
  decide

/-! ### XLearner -/

/-- **C41**: for any data and any two treatment vectors that occur in it `XLearner` can be fitted; its estimate is the
weighted mean of two second stage models: one trained on the rows of the treated arm with targets outcome minus the
prediction of the control model, the other on the rows of the control arm with targets prediction of the treated model
minus outcome, where the first stage models are trained on exactly the rows of their arm. -/
theorem C41_xlearner [Ring K] (fitM fitK : List (W × K) → W → K) {d : Nat} (hd1 : 1 ≤ d) {rows : List (Row V W K)}
    (hd : ∀ r ∈ rows, r.x.length = d) {a b : List V} (ha : Twice a rows) (hb : Twice b rows)
    {ta tb : Option (Arg V)} (hta : ArgFor a ta) (htb : ArgFor b tb) :
    ∃ s, xFit fitM fitK lit d none rows ta tb = .ok s ∧
      ∀ rho wv, xEstimate s rho wv =
        rho * fitK ((armData a rows).map (fun p => (p.1, p.2 - fitM (armData b rows) p.1))) wv +
        (1 - rho) * fitK ((armData b rows).map (fun p => (p.1, fitM (armData a rows) p.1 - p.2))) wv := by
  obtain ⟨enc, h1, he, -, h2, -, -⟩ := fitEncoder_ok lit (allCodes := false) hd1 hd
  obtain ⟨xs, hxs⟩ := encodeRows_total lit h2
  have n1 := armData_two ha
  have n2 := armData_two hb
  obtain ⟨ra, hra, rfl⟩ := ha.occurs
  obtain ⟨rb, hrb, rfl⟩ := hb.occurs
  obtain ⟨t, ht⟩ := h2 ra hra
  obtain ⟨c, hc⟩ := h2 rb hrb
  have g1 : groups t xs rows = armData ra.x rows := groups_eq lit he hd hxs (hd ra hra) ht
  have g2 : groups c xs rows = armData rb.x rows := groups_eq lit he hd hxs (hd rb hrb) hc
  refine ⟨⟨some enc, fitK ((armData ra.x rows).map (fun p => (p.1, p.2 - fitM (armData rb.x rows) p.1))),
    fitK ((armData rb.x rows).map (fun p => (p.1, fitM (armData ra.x rows) p.1 - p.2)))⟩, ?_, fun rho wv => rfl⟩
  simp only [xFit, useEncoder, h1, hxs, getTrCtrl_arg lit hta, getTrCtrl_arg lit htb, ht, hc, g1, g2]
  rw [fitBase_two n1, fitBase_two n2]

/-- **C41**: with a weight between 0 and 1 the estimate lies between the predictions of the two second stage models,
which it equals at the weights 1 and 0. -/
theorem C41_between [Field K] [LinearOrder K] [IsStrictOrderedRing K] (s : X V W K) (wv : W) :
    (∀ rho, 0 ≤ rho → rho ≤ 1 → min (s.kt wv) (s.k0 wv) ≤ xEstimate s rho wv ∧ xEstimate s rho wv ≤ max (s.kt wv) (s.k0 wv)) ∧
      xEstimate s 1 wv = s.kt wv ∧ xEstimate s 0 wv = s.k0 wv := by
  refine ⟨fun rho h0 h1 => ⟨?_, ?_⟩, by simp [xEstimate], by simp [xEstimate]⟩
  · unfold xEstimate
    have e1 := mul_le_mul_of_nonneg_left (min_le_left (s.kt wv) (s.k0 wv)) h0
    have e2 := mul_le_mul_of_nonneg_left (min_le_right (s.kt wv) (s.k0 wv)) (by linarith : 0 ≤ 1 - rho)
    have : min (s.kt wv) (s.k0 wv) = rho * min (s.kt wv) (s.k0 wv) + (1 - rho) * min (s.kt wv) (s.k0 wv) := by ring
    rw [this]
    exact add_le_add e1 e2
  · unfold xEstimate
    have e1 := mul_le_mul_of_nonneg_left (le_max_left (s.kt wv) (s.k0 wv)) h0
    have e2 := mul_le_mul_of_nonneg_left (le_max_right (s.kt wv) (s.k0 wv)) (by linarith : 0 ≤ 1 - rho)
    have : max (s.kt wv) (s.k0 wv) = rho * max (s.kt wv) (s.k0 wv) + (1 - rho) * max (s.kt wv) (s.k0 wv) := by ring
    rw [this]
    exact add_le_add e1 e2

/-- **C41**: if the first stage models are exact, that is the treated model predicts `g + h` and the control model `g`
and the outcomes of the rows agree with them, and a second stage model trained on targets `h` predicts `h`, then the
estimate is `h` for every weight. -/
theorem C41_exact [Ring K] (fitM fitK : List (W × K) → W → K) {d : Nat} (hd1 : 1 ≤ d) {rows : List (Row V W K)}
    (hd : ∀ r ∈ rows, r.x.length = d) {a b : List V} (ha : Twice a rows) (hb : Twice b rows) (g h : W → K)
    (hta : ∀ r ∈ rows, r.x = a → r.y = g r.wv + h r.wv) (htb : ∀ r ∈ rows, r.x = b → r.y = g r.wv)
    (hfa : ∀ w, fitM (armData a rows) w = g w + h w) (hfb : ∀ w, fitM (armData b rows) w = g w)
    (hk : ∀ l : List W, l ≠ [] → ∀ w, fitK (l.map (fun u => (u, h u))) w = h w) :
    ∃ s, xFit fitM fitK lit d none rows (some (.many a)) (some (.many b)) = .ok s ∧ ∀ rho wv, xEstimate s rho wv = h wv := by
  obtain ⟨s, h1, h2⟩ := C41_xlearner lit fitM fitK hd1 hd ha hb (Or.inl rfl) (Or.inl rfl)
  refine ⟨s, h1, fun rho wv => ?_⟩
  have e1 : (armData a rows).map (fun p => (p.1, p.2 - fitM (armData b rows) p.1)) =
      ((rows.filter (fun r => r.x = a)).map (·.wv)).map (fun u => (u, h u)) := by
    unfold armData
    rw [List.map_map, List.map_map]
    apply List.map_congr_left
    intro r hr
    simp only [List.mem_filter, decide_eq_true_eq] at hr
    have := hfb r.wv
    unfold armData at this
    simp only [Function.comp_apply, this, hta r hr.1 hr.2, add_sub_cancel_left]
  have e2 : (armData b rows).map (fun p => (p.1, fitM (armData a rows) p.1 - p.2)) =
      ((rows.filter (fun r => r.x = b)).map (·.wv)).map (fun u => (u, h u)) := by
    unfold armData
    rw [List.map_map, List.map_map]
    apply List.map_congr_left
    intro r hr
    simp only [List.mem_filter, decide_eq_true_eq] at hr
    have := hfa r.wv
    unfold armData at this
    simp only [Function.comp_apply, this, htb r hr.1 hr.2, add_sub_cancel_left]
  have nn : ∀ v : List V, (∃ r ∈ rows, r.x = v) → (rows.filter (fun r => r.x = v)).map (·.wv) ≠ [] := by
    rintro v hv hn
    exact armData_ne hv (by unfold armData; rw [List.map_eq_nil_iff.1 hn]; rfl)
  rw [h2, e1, e2, hk _ (nn a ha.occurs), hk _ (nn b hb.occurs), ← add_mul]
  simp

example : (xFit sumModel sumModel id 2 none exMetaRows (some (.many [3, 6])) (some (.many [4, 5]))).toOption.map
    (fun s => (s.kt 0, s.k0 0, xEstimate s 3 0)) = some ((4 - 9) + (1 - 9), (5 - 7) + (5 - 2), 3 * ((4 - 9) + (1 - 9)) + (1 - 3) * ((5 - 7) + (5 - 2))) := by
  decide

/-! ### call histories of SLearner -/

/-- **C56**: with several treatments all calls of `SLearner.estimate` of a fitted object give the same answer. -/
theorem C56_slearner_several_treatments [Sub K] (hlit : Function.Injective lit)
    (fitM : List ((W × List Nat) × K) → (W × List Nat → K)) {d : Nat} (hd2 : 2 ≤ d)
    {rows : List (Row V W K)} (hne : 2 ≤ rows.length) (hd : ∀ r ∈ rows, r.x.length = d) {a b : List V}
    (ha : Observed d rows a) (hb : Observed d rows b) :
    ∃ s, sFit fitM lit d none rows (some (.many a)) (some (.many b)) = .ok s ∧
      ∀ wv, ∃ e, ∀ m, sEstimates lit wv m s = List.replicate m (.ok e) := by
  obtain ⟨enc, h1, he, hcats, h2, h3, -⟩ := fitEncoder_ok lit (allCodes := true) (by omega : 1 ≤ d) hd
  obtain ⟨xs, hxs⟩ := encodeRows_total lit h2
  obtain ⟨i, hi⟩ := h3 rfl a (by rw [hcats]; exact observed_forall2 ha)
  obtain ⟨j, hj⟩ := h3 rfl b (by rw [hcats]; exact observed_forall2 hb)
  have li := transform_lt lit he hi
  have lj := transform_lt lit he hj
  have hcodes : ∃ k, enc.codes = some (List.range k) := by
    unfold fitEncoder at h1
    simp only [if_true] at h1
    rw [if_neg (by omega)] at h1
    cases h1
    exact ⟨_, rfl⟩
  obtain ⟨k, hk⟩ := hcodes
  have hw : width enc = k := by unfold width; rw [hk]; simp
  have hback : ∀ t, t < width enc → transform lit enc [lit t] = .ok t := by
    intro t ht
    simp only [transform, hk]
    apply position_of_get ((List.nodup_range).map hlit)
    rw [List.getElem?_map, List.getElem?_range (by omega)]
    rfl
  have hz : ∃ tr : List ((W × List Nat) × K), (rows.zip xs).map (fun p => ((p.1.wv, p.2), p.1.y)) = tr ∧ 2 ≤ tr.length := by
    refine ⟨_, rfl, ?_⟩
    unfold encodeRows at hxs
    split at hxs
    · cases hxs
    · rename_i is his
      cases hxs
      have := (mapE_ok.1 his).length_eq
      simp only [List.length_map, List.length_zip, ← this, Nat.min_self]
      exact hne
  obtain ⟨tr, htr, htrne⟩ := hz
  refine ⟨⟨enc, fitM tr, some (.many a), some (.many b)⟩, ?_, fun wv => ⟨fitM tr (wv, oneHot (width enc) i) - fitM tr (wv, oneHot (width enc) j), ?_⟩⟩
  · simp only [sFit, useEncoder, h1, hxs, htr]
    rw [fitBase_two htrne]
  · have hloop : ∀ m, sEstimates lit wv m ⟨enc, fitM tr, some (.one (lit i)), some (.one (lit j))⟩ =
        List.replicate m (.ok (fitM tr (wv, oneHot (width enc) i) - fitM tr (wv, oneHot (width enc) j))) := by
      intro m
      induction m with
      | zero => rfl
      | succ m ih =>
        simp only [sEstimates, sEstimate, getTrCtrl, hback i li, hback j lj, li, lj, and_self, if_true, List.replicate_succ]
        rw [ih]
    intro m
    cases m with
    | zero => rfl
    | succ m =>
      simp only [sEstimates, sEstimate, getTrCtrl, hi, hj, li, lj, and_self, if_true, List.replicate_succ]
      rw [hloop m]

/-- **C56**: with one treatment whose labels are the numbers `0..k-1` all calls give the same answer. -/
theorem C56_slearner_standard_labels [Sub K] (hlit : Function.Injective lit)
    (fitM : List ((W × List Nat) × K) → (W × List Nat → K))
    {rows : List (Row V W K)} (hne : 2 ≤ rows.length) (hd : ∀ r ∈ rows, r.x.length = 1) {k : Nat}
    (hlab : uniq (Meta.column rows 0) = (List.range k).map lit) {i j : Nat} (hi : i < k) (hj : j < k) :
    ∃ s, sFit fitM lit 1 none rows (some (.one (lit i))) (some (.one (lit j))) = .ok s ∧
      ∀ wv, ∃ e, ∀ m, sEstimates lit wv m s = List.replicate m (.ok e) := by
  obtain ⟨enc, h1, he, hcats, h2, h3, -⟩ := fitEncoder_ok lit (allCodes := true) (le_refl 1) hd
  obtain ⟨xs, hxs⟩ := encodeRows_total lit h2
  have hnone : enc.codes = none := he.2.2.1.2 rfl
  have hw : width enc = k := by
    unfold width; rw [hnone, hcats]; simp [hlab]
  have hback : ∀ t, t < k → transform lit enc [lit t] = .ok t := by
    intro t ht
    obtain ⟨cats, codes⟩ := enc
    simp only at hnone hcats
    subst hnone hcats
    simp only [List.range_one, List.map_cons, List.map_nil, transform, hlab]
    apply position_of_get ((List.nodup_range).map hlit)
    rw [List.getElem?_map, List.getElem?_range (by omega)]
    rfl
  obtain ⟨tr, htr, htrne⟩ : ∃ tr : List ((W × List Nat) × K), (rows.zip xs).map (fun p => ((p.1.wv, p.2), p.1.y)) = tr ∧ 2 ≤ tr.length := by
    refine ⟨_, rfl, ?_⟩
    unfold encodeRows at hxs
    split at hxs
    · cases hxs
    · rename_i is his
      cases hxs
      have := (mapE_ok.1 his).length_eq
      simp only [List.length_map, List.length_zip, ← this, Nat.min_self]
      exact hne
  refine ⟨⟨enc, fitM tr, some (.one (lit i)), some (.one (lit j))⟩, ?_, fun wv => ⟨fitM tr (wv, oneHot (width enc) i) - fitM tr (wv, oneHot (width enc) j), ?_⟩⟩
  · simp only [sFit, useEncoder, h1, hxs, htr]
    rw [fitBase_two htrne]
  · intro m
    induction m with
    | zero => rfl
    | succ m ih =>
      simp only [sEstimates, sEstimate, getTrCtrl, hback i hi, hback j hj, hw, hi, hj, and_self, if_true, List.replicate_succ]
      rw [hw] at ih
      rw [ih]

/-- **C56, refuted in general**: with one treatment labelled 1, 2, 3 the object fitted for 3 against 2 answers the first
call with the effect of 3 against 2 (here 100), the second call with that of 2 against 1 (here 10), and fails on the
third. -/
theorem C56_slearner_refuted :
    (sFit cellModel id 1 none [(⟨0, [1], 0⟩ : Row Nat Nat Int), ⟨0, [2], 10⟩, ⟨0, [3], 110⟩] (some (.one 3)) (some (.one 2))).map
      (fun s => sEstimates id 0 3 s) = .ok [.ok 100, .ok 10, .error .value] := by decide

/-- **C56, refuted for every data set with one treatment in which the integers 0 and 1 are not both labels** (for example
string labels): after a first answer to the default arms the second call fails. -/
theorem C56_slearner_second_call_fails [Sub K] (fitM : List ((W × List Nat) × K) → (W × List Nat → K))
    {rows : List (Row V W K)} {s : S V W K} (hs : sFit fitM lit 1 none rows none none = .ok s)
    (hlab : lit 0 ∉ Meta.column rows 0 ∨ lit 1 ∉ Meta.column rows 0) {wv wv' : W} {e : K} {s' : S V W K}
    (he : sEstimate lit s wv = .ok (e, s')) : sEstimate lit s' wv' = .error .value := by
  unfold sFit useEncoder fitEncoder at hs
  simp only [le_refl, if_true] at hs
  split at hs
  · cases hs
  · split at hs
    · cases hs
    · cases hs
      unfold sEstimate at he
      simp only [getTrCtrl, if_true, Bool.false_eq_true, if_false] at he
      split at he
      · cases he
        have h0 : ∀ v : V, v ∉ Meta.column rows 0 →
            transform lit ⟨(List.range 1).map (fun j => uniq (Meta.column rows j)), none⟩ [v] = .error .value := by
          intro v hv
          simp only [List.range_one, List.map_cons, List.map_nil, transform, position]
          rw [if_neg (by rw [mem_uniq]; exact hv)]
        unfold sEstimate
        simp only [getTrCtrl]
        rcases hlab with h | h
        · rw [h0 _ h]
          have : ∀ v : V, transform lit ⟨(List.range 1).map (fun j => uniq (Meta.column rows j)), none⟩ [v] = .error .value ∨
              ∃ i, transform lit ⟨(List.range 1).map (fun j => uniq (Meta.column rows j)), none⟩ [v] = .ok i := by
            intro v
            simp only [List.range_one, List.map_cons, List.map_nil, transform, position]
            split
            · exact Or.inr ⟨_, rfl⟩
            · exact Or.inl rfl
          rcases this (lit 1) with h' | ⟨i, h'⟩
          · rw [h']
          · rw [h']
        · rw [h0 _ h]
      · cases he

example : (sFit cellModel id 1 none [(⟨0, [1], 0⟩ : Row Nat Nat Int), ⟨0, [2], 10⟩] none none).map
      (fun s => sEstimates id 0 2 s) = .ok [.ok 10, .error .value] := by decide

/-! ### fitting again -/

/-- **C57**: when a `TLearner` is fitted again with explicit arms on data whose treatment vectors all occurred in the
data of the first fit, its estimates are those of a new object fitted on the new data alone. -/
theorem C57_tlearner_refit_partial [Sub K] (fitM : List (W × K) → W → K) {d : Nat} (hd1 : 1 ≤ d) {rows₀ rows : List (Row V W K)}
    (hd₀ : ∀ r ∈ rows₀, r.x.length = d) (hd : ∀ r ∈ rows, r.x.length = d)
    (hsub : ∀ r ∈ rows, ∃ r₀ ∈ rows₀, r₀.x = r.x)
    {t₀ c₀ : Option (Arg V)} {s₀ : T V W K} (hs₀ : tFit fitM lit d none rows₀ t₀ c₀ = .ok s₀)
    {a b : List V} (ha : Twice a rows) (hb : Twice b rows) :
    ∃ s s', tFit fitM lit d s₀.enc rows (some (.many a)) (some (.many b)) = .ok s ∧
      tFit fitM lit d none rows (some (.many a)) (some (.many b)) = .ok s' ∧ ∀ wv, tEstimate s wv = tEstimate s' wv := by
  obtain ⟨enc, h1, he, -, h2, -, -⟩ := fitEncoder_ok lit (allCodes := false) hd1 hd₀
  have hold : s₀.enc = some enc := by
    unfold tFit useEncoder at hs₀
    simp only [h1] at hs₀
    split at hs₀
    · cases hs₀
    · cases hs₀
    · cases hs₀
    · split at hs₀
      · cases hs₀
      · cases hs₀
      · cases hs₀; rfl
  have h2' : ∀ r ∈ rows, ∃ i, transform lit enc r.x = .ok i := by
    intro r hr
    obtain ⟨r₀, hr₀, hx⟩ := hsub r hr
    rw [← hx]
    exact h2 r₀ hr₀
  obtain ⟨xs, hxs⟩ := encodeRows_total lit h2'
  obtain ⟨s', h1', hf⟩ := C39_tlearner lit fitM hd1 hd ha hb (Or.inl rfl) (Or.inl rfl)
  have n1 := armData_two ha
  have n2 := armData_two hb
  obtain ⟨ra, hra, rfl⟩ := ha.occurs
  obtain ⟨rb, hrb, rfl⟩ := hb.occurs
  obtain ⟨t, ht⟩ := h2' ra hra
  obtain ⟨c, hc⟩ := h2' rb hrb
  have g1 : groups t xs rows = armData ra.x rows := groups_eq lit he hd hxs (hd ra hra) ht
  have g2 : groups c xs rows = armData rb.x rows := groups_eq lit he hd hxs (hd rb hrb) hc
  refine ⟨⟨some enc, t, c, fitM (armData ra.x rows), fitM (armData rb.x rows)⟩, s', ?_, h1', fun wv => (hf wv).symm⟩
  simp only [hold, tFit, useEncoder, hxs, getTrCtrl, ht, hc, g1, g2]
  rw [fitBase_two n1, fitBase_two n2]

/-- **C57, refuted in general**: an object fitted on labels 0 and 1 and fitted again on data with labels 1 and 2 refuses
the data that a new object accepts. -/
theorem C57_tlearner_refuted :
    ∃ (rows₀ rows : List (Row Nat Nat Int)) (s₀ : T Nat Nat Int), tFit sumModel id 1 none rows₀ none none = .ok s₀ ∧
      (tFit sumModel id 1 s₀.enc rows none none).map (fun s => tEstimate s 0) = .error .value ∧
      (tFit sumModel id 1 none rows none none).map (fun s => tEstimate s 0) = .ok 5 := by
  exact ⟨[⟨0, [0], 1⟩, ⟨0, [1], 2⟩, ⟨0, [0], 0⟩, ⟨0, [1], 0⟩], [⟨0, [1], 3⟩, ⟨0, [2], 8⟩, ⟨0, [1], 0⟩, ⟨0, [2], 0⟩], _, rfl,
    by decide, by decide⟩

/-- **C57, refuted in general**: an `SLearner` fitted on labels 0, 1, 2 and fitted again on data with labels 1 and 2
silently answers the default question with the effect of 1 against 0, which does not occur in the data, where a new object
answers with the effect of 2 against 1. -/
theorem C57_slearner_refuted :
    ∃ (rows₀ rows : List (Row Nat Nat Int)) (s₀ : S Nat Nat Int), sFit cellModel id 1 none rows₀ none none = .ok s₀ ∧
      (match sFit cellModel id 1 (some s₀.enc) rows none none with
        | .ok s => sEstimates id 0 1 s
        | .error _ => []) = [.ok 3] ∧
      (match sFit cellModel id 1 none rows none none with
        | .ok s => sEstimates id 0 1 s
        | .error _ => []) = [.ok 5] := by
  exact ⟨[⟨0, [0], 1⟩, ⟨0, [1], 2⟩, ⟨0, [2], 4⟩], [⟨0, [1], 3⟩, ⟨0, [2], 8⟩], _, rfl, by decide, by decide⟩

/-! ### separate treatments -/

theorem forall2_flatMap {α β γ δ : Type} {R : α → β → Prop} {Q : γ → δ → Prop} {f : α → List γ} {g : β → List δ} {l : List α} {m : List β}
    (h : List.Forall₂ R l m) (hf : ∀ a b, R a b → List.Forall₂ Q (f a) (g b)) : List.Forall₂ Q (l.flatMap f) (m.flatMap g) := by
  induction h with
  | nil => exact List.Forall₂.nil
  | cons hr _ ih =>
    simp only [List.flatMap_cons]
    exact List.rel_append (hf _ _ hr) ih

theorem forall2_map {α β γ δ : Type} {R : α → β → Prop} {Q : γ → δ → Prop} {f : α → γ} {g : β → δ} {l : List α} {m : List β}
    (h : List.Forall₂ R l m) (hf : ∀ a b, R a b → Q (f a) (g b)) : List.Forall₂ Q (l.map f) (m.map g) := by
  induction h with
  | nil => exact List.Forall₂.nil
  | cons hr _ ih => exact List.Forall₂.cons (hf _ _ hr) ih

theorem pos_range {c : List V} (hn : c.Nodup) : List.Forall₂ (fun x i => position c x = .ok i) c (List.range c.length) := by
  rw [List.forall₂_iff_get]
  refine ⟨by simp, fun i h1 h2 => ?_⟩
  simp only [List.get_eq_getElem, List.getElem_range]
  exact position_of_get hn (List.getElem?_eq_getElem h1)

theorem tails_ordinals {cats : List (List V)} (hn : ∀ c ∈ cats, c.Nodup) :
    List.Forall₂ (fun v is => ordinals cats v = .ok is) (tails cats) (tails (cats.map (fun c => List.range c.length))) := by
  induction cats with
  | nil => exact List.Forall₂.cons rfl List.Forall₂.nil
  | cons c cs ih =>
    simp only [tails, List.map_cons]
    apply forall2_flatMap (ih (fun c hc => hn c (List.mem_cons_of_mem _ hc)))
    intro v is h
    apply forall2_map (pos_range (hn c (by simp)))
    intro x i hx
    simp only [ordinals, hx, h]

theorem cartesian_ordinals {cats : List (List V)} (hn : ∀ c ∈ cats, c.Nodup) :
    List.Forall₂ (fun v is => ordinals cats v = .ok is) (cartesian cats) (labels cats) := by
  unfold labels
  match cats, hn with
  | [], _ => exact List.Forall₂.nil
  | [a], hn =>
    simp only [cartesian, List.map_cons, List.map_nil]
    apply forall2_map (pos_range (hn a (by simp)))
    intro x i hx
    simp only [ordinals, hx]
  | a :: b :: rest, hn =>
    simp only [cartesian, List.map_cons]
    apply forall2_flatMap (tails_ordinals (fun c hc => hn c (by simp [hc])))
    intro v is h
    apply forall2_flatMap (pos_range (hn a (by simp)))
    intro x i hx
    apply forall2_map (pos_range (hn b (by simp)))
    intro y j hy
    simp only [ordinals, hx, hy, h]

/-- the vectors of observed treatment values, in the order of the columns of the result -/
def treatVectors (d : Nat) (rows : List (Row V W K)) : List (List V) :=
  cartesian ((List.range d).map (fun j => uniq (Meta.column rows j)))

theorem mem_treatVectors {d : Nat} (hd1 : 1 ≤ d) {rows : List (Row V W K)} {v : List V} :
    v ∈ treatVectors d rows ↔ Observed d rows v := by
  unfold treatVectors
  rw [mem_cartesian]
  constructor
  · rintro ⟨-, h⟩
    rw [List.forall₂_iff_get] at h
    obtain ⟨hl, h⟩ := h
    simp only [List.length_map, List.length_range] at hl
    refine ⟨hl, fun j hj => ?_⟩
    have := h j (by omega) (by simpa using hj)
    simp only [List.get_eq_getElem, List.getElem_map, List.getElem_range] at this
    rw [mem_uniq] at this
    unfold Meta.column at this
    rw [List.mem_filterMap] at this
    obtain ⟨r, hr, hx⟩ := this
    exact ⟨r, hr, by rw [hx, List.getElem?_eq_getElem (by omega)]⟩
  · intro h
    exact ⟨by intro h'; simp at h'; omega, observed_forall2 h⟩

/-- **C39**, `combined_treatment=False`: when every vector of observed treatment values occurs in at least two rows the result has
one entry for every such vector other than the first, and it is the prediction of the model trained on the rows of that
vector minus that of the model trained on the rows of the first. -/
theorem C39_separate [Sub K] (fitM : List (W × K) → W → K) {d : Nat} (hd1 : 1 ≤ d) {rows : List (Row V W K)}
    (hd : ∀ r ∈ rows, r.x.length = d) (hall : ∀ v, Observed d rows v → Twice v rows) {v₀ : List V} {vs : List (List V)}
    (hv : treatVectors d rows = v₀ :: vs) (wv : W) :
    tSeparate fitM d rows wv = .ok (vs.map (fun v => fitM (armData v rows) wv - fitM (armData v₀ rows) wv)) := by
  have hn : ∀ c ∈ (List.range d).map (fun j => uniq (Meta.column rows j)), c.Nodup := by
    intro c hc
    simp only [List.mem_map] at hc
    obtain ⟨j, _, rfl⟩ := hc
    exact uniq_nodup _
  obtain ⟨os, hos⟩ := mapE_total (f := fun r : Row V W K => ordinals ((List.range d).map (fun j => uniq (Meta.column rows j))) r.x) (l := rows)
    (fun r hr => by
      obtain ⟨is, h, _⟩ := ordinals_total (column_mem hd hr)
      exact ⟨is, h⟩)
  have hc := cartesian_ordinals hn
  have harm : ∀ v is, ordinals ((List.range d).map (fun j => uniq (Meta.column rows j))) v = .ok is →
      ((rows.zip os).filter (fun p => p.2 = is)).map (fun p => (p.1.wv, p.1.y)) = armData v rows := by
    intro v is hvi
    have hf := mapE_ok.1 hos
    unfold armData
    clear hos hd hall hv hn hc
    generalize (List.range d).map (fun j => uniq (Meta.column rows j)) = cats at hvi hf
    induction hf with
    | nil => rfl
    | @cons r i rows is' h1 _ ih =>
      simp only [List.zip_cons_cons, List.filter_cons]
      by_cases hx : r.x = v
      · have : i = is := by rw [hx] at h1; rw [h1] at hvi; cases hvi; rfl
        simp only [hx, this, decide_true, if_true, List.map_cons]
        rw [ih]
      · have : i ≠ is := by rintro rfl; exact hx (ordinals_inj h1 hvi)
        simp only [hx, this, decide_false, Bool.false_eq_true, if_false]
        exact ih
  have hmods : mapE (fun l => fitBase fitM (((rows.zip os).filter (fun p => p.2 = l)).map (fun p => (p.1.wv, p.1.y))))
      (labels ((List.range d).map (fun j => uniq (Meta.column rows j)))) =
      .ok ((treatVectors d rows).map (fun v => fitM (armData v rows))) := by
    rw [mapE_ok]
    unfold treatVectors
    have hocc : ∀ v ∈ treatVectors d rows, Twice v rows := fun v hv => hall v ((mem_treatVectors hd1).1 hv)
    unfold treatVectors at hocc
    generalize cartesian ((List.range d).map (fun j => uniq (Meta.column rows j))) = vecs at hc hocc
    clear hv
    generalize labels ((List.range d).map (fun j => uniq (Meta.column rows j))) = labs at hc
    induction hc with
    | nil => exact List.Forall₂.nil
    | @cons v is vs iss h1 _ ih =>
      refine List.Forall₂.cons ?_ (ih (fun v hv => hocc v (List.mem_cons_of_mem _ hv)))
      rw [harm v is h1, fitBase_two (armData_two (hocc v (by simp)))]
  unfold tSeparate
  simp only [hos, hmods, hv, List.map_cons, List.map_map]
  rfl

example : (tSeparate sumModel 2 [(⟨0, [3, 5], 10⟩ : Row Nat Nat Int), ⟨1, [3, 6], 4⟩, ⟨2, [4, 5], 7⟩, ⟨3, [4, 6], 1⟩,
      ⟨0, [3, 5], 0⟩, ⟨1, [3, 6], 0⟩, ⟨2, [4, 5], 0⟩, ⟨3, [4, 6], 0⟩] 0) =
    .ok [4 - 10, 7 - 10, 1 - 10] := by decide

theorem sum_oneHot {d i : Nat} (h : i < d) : (oneHot d i).sum = 1 := by
  have := sum_zip_oneHot (fun _ => 1) d i
  simp only [Nat.mul_one] at this
  unfold oneHot
  rw [this, if_pos h]

theorem sepEncode_sum {cats : List (List V)} {v : List V} {r : List Nat} (h : sepEncode cats v = .ok r) : r.sum = cats.length := by
  induction cats generalizing v r with
  | nil =>
    cases v with
    | nil => simp [sepEncode] at h; subst h; rfl
    | cons a v => simp [sepEncode] at h
  | cons c cs ih =>
    cases v with
    | nil => simp [sepEncode] at h
    | cons a v =>
      simp only [sepEncode] at h
      split at h
      · cases h
      · cases h
      · rename_i i r' h1 h2
        cases h
        rw [List.sum_append, ih h2, sum_oneHot (List.getElem?_eq_some_iff.1 (position_get h1)).1]
        simp [Nat.add_comm]

/-- **C40, refuted for `combined_treatment=False` with two or more treatments**: whatever the data, none of the feature
vectors at which the model is evaluated (`oneHot w i`) is the encoding of any treatment vector: the model is trained on
encodings with one 1 per treatment and evaluated at vectors with a single 1. -/
theorem C40_separate_off_support {d : Nat} (hd2 : 2 ≤ d) (rows : List (Row V W K)) (v : List V) (w i : Nat) (hi : i < w) :
    sepEncode ((List.range d).map (fun j => uniq (Meta.column rows j))) v ≠ .ok (oneHot w i) := by
  intro h
  have h1 := sepEncode_sum h
  rw [sum_oneHot hi] at h1
  simp at h1
  omega

end learners

end YL.Props
