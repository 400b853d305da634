import Verif.Lib.Prune
import Mathlib.Data.List.Duplicate

/-! Equivalence of the pruned-graph criterion with the textbook path criterion. -/

namespace YL

open Spec

variable {α : Type} {E : α → α → Prop}

theorem Spec.Acyclic.asymm (hac : Acyclic E) {a b : α} (h : E a b) : ¬ E b a :=
  fun h' => hac a (Relation.TransGen.single h |>.tail h')

theorem Spec.Acyclic.irrefl (hac : Acyclic E) (a : α) : ¬ E a a := fun h => hac a (.single h)

/-- `v` has a descendant (or itself) in `Z` -/
def AnOf (E : α → α → Prop) (Z : Set α) (v : α) : Prop := ∃ z ∈ Z, Reach E v z

theorem AnOf.head {Z : Set α} {a b : α} (h : E a b) (hb : AnOf E Z b) : AnOf E Z a :=
  let ⟨z, hz, hr⟩ := hb; ⟨z, hz, hr.head h⟩

theorem AnOf.self {Z : Set α} {a : α} (h : a ∈ Z) : AnOf E Z a := ⟨a, h, .refl⟩

theorem AnOf.mono {Z T : Set α} (h : Z ⊆ T) {a : α} (ha : AnOf E Z a) : AnOf E T a :=
  let ⟨z, hz, hr⟩ := ha; ⟨z, h hz, hr⟩

theorem Spec.Open.symm' {Z : Set α} {a b c : α} (h : Open E Z a b c) : Open E Z c b a := by
  rcases h with ⟨h1, h2, h3⟩ | ⟨h1, h2⟩
  · exact .inl ⟨h2, h1, h3⟩
  · exact .inr ⟨fun h => h1 ⟨h.2, h.1⟩, h2⟩

theorem Spec.ActivePath.tail {Z : Set α} {a b : α} {l : List α} (h : ActivePath E Z (a :: b :: l)) :
    ActivePath E Z (b :: l) := by
  cases l with
  | nil => trivial
  | cons c l => exact h.2.2

theorem Spec.ActivePath.adj {Z : Set α} {a b : α} {l : List α} (h : ActivePath E Z (a :: b :: l)) : Adj E a b := by
  cases l with
  | nil => exact h
  | cons c l => exact h.1

/-! ### active path ⇒ connected in the pruned graph -/

/-- A path leaving `a` along `a → b` is directed until it ends or meets an open collider. -/
theorem an_of_forward {T Z : Set α} (hZT : Z ⊆ T) : ∀ (l : List α) (a b : α), ActivePath E Z (a :: b :: l) →
    E a b → (∀ y ∈ (a :: b :: l).getLast?, y ∈ T) → AnOf E T a := by
  intro l
  induction l with
  | nil =>
    intro a b _ hab hy
    exact AnOf.head hab (AnOf.self (hy b (by simp)))
  | cons c l ih =>
    intro a b hp hab hy
    obtain ⟨_, ho, hp'⟩ := hp
    rcases ho with ⟨_, _, h3⟩ | ⟨h1, _⟩
    · exact AnOf.head hab (AnOf.mono hZT h3)
    · have hbc : E b c := by
        rcases hp'.adj with h | h
        · exact h
        · exact absurd ⟨hab, h⟩ h1
      exact AnOf.head hab (ih b c hp' hbc (by simpa [List.getLast?_cons_cons] using hy))

theorem connected_of_active (hac : Acyclic E) {T Y Z : Set α} (hZT : Z ⊆ T) (hYT : Y ⊆ T)
    (hYZ : ∀ y ∈ Y, y ∉ Z) : ∀ (l : List α) (u : α), ActivePath E Z (u :: l) →
    (∀ y ∈ (u :: l).getLast?, y ∈ Y) →
    (∀ v ∈ l.head?, (E u v → u ∉ Z) ∧ (E v u → AnOf E T u)) →
    ∃ y ∈ Y, Relation.ReflTransGen (Adj (MDG.SepEdge E T Z)) u y := by
  intro l
  induction l with
  | nil => intro u _ hy _; exact ⟨u, hy u (by simp), .refl⟩
  | cons v l ih =>
    intro u hp hy hP
    obtain ⟨hP1, hP2⟩ := hP v (by simp)
    have hlast : ∀ y ∈ (v :: l).getLast?, y ∈ Y := by simpa [List.getLast?_cons_cons] using hy
    have hlastT : ∀ y ∈ (u :: v :: l).getLast?, y ∈ T := fun y h => hYT (hy y h)
    -- the step u - v
    have hstep : Adj (MDG.SepEdge E T Z) u v := by
      rcases hp.adj with huv | hvu
      · refine .inl ⟨huv, hP1 huv, ?_⟩
        cases l with
        | nil => exact AnOf.self (hYT (hlast v (by simp)))
        | cons w l =>
          rcases hp.2.1 with ⟨_, _, h⟩ | ⟨h1, _⟩
          · exact AnOf.mono hZT h
          · have hvw : E v w := by
              rcases hp.2.2.adj with h | h
              · exact h
              · exact absurd ⟨huv, h⟩ h1
            exact an_of_forward hZT l v w hp.2.2 hvw (fun y h => hYT (hlast y h))
      · refine .inr ⟨hvu, ?_, hP2 hvu⟩
        cases l with
        | nil => exact hYZ v (hlast v (by simp))
        | cons w l =>
          rcases hp.2.1 with ⟨h, _, _⟩ | ⟨_, h⟩
          · exact absurd h (hac.asymm hvu)
          · exact h
    obtain ⟨y, hyY, hr⟩ := ih v hp.tail hlast (by
      intro w hw
      cases l with
      | nil => simp at hw
      | cons w' l =>
        simp at hw; subst hw
        constructor
        · intro hvw
          rcases hp.2.1 with ⟨_, h, _⟩ | ⟨_, h⟩
          · exact absurd h (hac.asymm hvw)
          · exact h
        · intro hwv
          rcases hp.2.1 with ⟨_, _, h⟩ | ⟨h1, _⟩
          · exact AnOf.mono hZT h
          · rcases (ActivePath.adj (E := E) (Z := Z) hp) with huv | hvu
            · exact absurd ⟨huv, hwv⟩ h1
            · exact AnOf.head hvu (hP2 hvu))
    exact ⟨y, hyY, hr.head hstep⟩

/-! ### connected in the pruned graph ⇒ active walk -/

/-- Prolong an active walk along directed edges from a node without descendants in `Z`. -/
theorem extend_directed (hac : Acyclic E) {Z : Set α} {v y : α} (hr : Reach E v y) (hv : ¬ AnOf E Z v)
    (rest : List α) (hp : ActivePath E Z (v :: rest)) :
    ∃ l, ActivePath E Z (y :: l) ∧ (y :: l).getLast? = (v :: rest).getLast? := by
  suffices ∃ l, ActivePath E Z (y :: l) ∧ (y :: l).getLast? = (v :: rest).getLast? ∧ ¬ AnOf E Z y by
    obtain ⟨l, h1, h2, _⟩ := this; exact ⟨l, h1, h2⟩
  induction hr with
  | refl => exact ⟨rest, hp, rfl, hv⟩
  | @tail b c _ hbc ih =>
    obtain ⟨l, h1, h2, h3⟩ := ih
    refine ⟨b :: l, ?_, by rw [List.getLast?_cons_cons]; exact h2, ?_⟩
    · cases l with
      | nil => exact .inr hbc
      | cons t l =>
        exact ⟨.inr hbc, .inr ⟨fun h => hac.asymm hbc h.1, fun h => h3 (AnOf.self h)⟩, h1⟩
    · rintro ⟨z, hz, hr⟩
      exact h3 ⟨z, hz, hr.head hbc⟩

/-- A directed path from a node without descendants in `Z` is active. -/
theorem directed_active (hac : Acyclic E) {Z : Set α} {v x : α} (hr : Reach E v x) (hv : ¬ AnOf E Z v) :
    ∃ l, ActivePath E Z (v :: l) ∧ (v :: l).getLast? = some x ∧ ∀ t ∈ l.head?, E v t := by
  induction hr using Relation.ReflTransGen.head_induction_on with
  | refl => exact ⟨[], trivial, by simp, by simp⟩
  | @head a b hab _ ih =>
    have hb : ¬ AnOf E Z b := fun h => hv (AnOf.head hab h)
    obtain ⟨l, h1, h2, h3⟩ := ih hb
    refine ⟨b :: l, ?_, by rw [List.getLast?_cons_cons]; exact h2, by simpa using hab⟩
    cases l with
    | nil => exact .inl hab
    | cons t l =>
      have hbt := h3 t (by simp)
      exact ⟨.inl hab, .inr ⟨fun h => hac.asymm hbt h.2, fun h => hb (AnOf.self h)⟩, h1⟩

theorem active_of_connected (hac : Acyclic E) {X Y Z : Set α} {x v : α} (hx : x ∈ X)
    (hr : Relation.ReflTransGen (Adj (MDG.SepEdge E (X ∪ Y ∪ Z) Z)) x v) :
    (∃ y ∈ Y, ∃ x' ∈ X, ∃ l, ActivePath E Z (y :: l) ∧ (y :: l).getLast? = some x') ∨
    (∃ x' ∈ X, ∃ l, ActivePath E Z (v :: l) ∧ (v :: l).getLast? = some x' ∧ ∀ t ∈ l.head?, E v t → v ∉ Z) := by
  induction hr with
  | refl => exact .inr ⟨x, hx, [], trivial, by simp, by simp⟩
  | @tail v w _ hvw ih =>
    rcases ih with h | ⟨x', hx', l, h1, h2, h3⟩
    · exact .inl h
    · have hadj : Adj E w v := by
        rcases hvw with h | h
        · exact .inr h.1
        · exact .inl h.1
      have hwZ : E w v → w ∉ Z := by
        intro hE
        rcases hvw with h | h
        · exact absurd hE (hac.asymm h.1)
        · exact h.2.1
      cases l with
      | nil =>
        right
        refine ⟨x', hx', [v], hadj, by simpa using h2, ?_⟩
        intro t ht; simp at ht; subst ht; exact hwZ
      | cons t l =>
        have done : Open E Z w v t → ∃ x' ∈ X, ∃ l, ActivePath E Z (w :: l) ∧
            (w :: l).getLast? = some x' ∧ ∀ t ∈ l.head?, E w t → w ∉ Z := by
          intro ho
          refine ⟨x', hx', v :: t :: l, ⟨hadj, ho, h1⟩, by rw [List.getLast?_cons_cons]; exact h2, ?_⟩
          intro s hs; simp at hs; subst hs; exact hwZ
        by_cases hcol : E w v ∧ E t v
        · by_cases hAn : AnOf E Z v
          · exact .inr (done (.inl ⟨hcol.1, hcol.2, hAn⟩))
          · -- a collider that is not opened by `Z`
            have hT : AnOf E (X ∪ Y ∪ Z) v := by
              rcases hvw with h | h
              · exact absurd hcol.1 (hac.asymm h.1)
              · exact h.2.2
            obtain ⟨s, hs, hsr⟩ := hT
            rcases hs with (hs | hs) | hs
            · -- restart from `s ∈ X`
              obtain ⟨m, k1, k2, k3⟩ := directed_active hac hsr hAn
              right
              refine ⟨s, hs, v :: m, ?_, by rw [List.getLast?_cons_cons]; exact k2, ?_⟩
              · cases m with
                | nil => exact hadj
                | cons r m =>
                  refine ⟨hadj, .inr ⟨fun h => hac.asymm (k3 r (by simp)) h.2, fun h => hAn (AnOf.self h)⟩, k1⟩
              · intro r hr'; simp at hr'; subst hr'; exact hwZ
            · obtain ⟨m, k1, k2⟩ := extend_directed hac hsr hAn (t :: l) h1
              exact .inl ⟨s, hs, x', hx', m, k1, by rw [k2]; exact h2⟩
            · exact absurd ⟨s, hs, hsr⟩ hAn
        · refine .inr (done (.inr ⟨hcol, ?_⟩))
          rcases hvw with h | h
          · exact h.2.1
          · have hvt : E v t := by
              rcases h1.adj with h' | h'
              · exact h'
              · exact absurd ⟨h.1, h'⟩ hcol
            exact h3 t (by simp) hvt

/-! ### active walk ⇒ active simple path -/

/-- An active walk that leaves `a` along `a → b` is directed to its end, or `a` has a descendant in `Z`. -/
theorem forward_or_an {Z : Set α} : ∀ (l : List α) (a b : α), ActivePath E Z (a :: b :: l) → E a b →
    AnOf E Z a ∨ ((∀ y ∈ (a :: b :: l).getLast?, Reach1 E a y) ∧
      ∀ l' c d, a :: b :: l = l' ++ [c, d] → E c d) := by
  intro l
  induction l with
  | nil =>
    intro a b _ hab
    right
    refine ⟨by intro y hy; simp at hy; subst hy; exact .single hab, ?_⟩
    intro l' c d h
    match l', h with
    | [], h => simp at h; obtain ⟨rfl, rfl⟩ := h; exact hab
    | _ :: l', h =>
      exfalso
      have := congrArg List.length h
      simp at this
  | cons c l ih =>
    intro a b hp hab
    obtain ⟨_, ho, hp'⟩ := hp
    rcases ho with ⟨_, _, h3⟩ | ⟨h1, _⟩
    · exact .inl (AnOf.head hab h3)
    · have hbc : E b c := by
        rcases hp'.adj with h | h
        · exact h
        · exact absurd ⟨hab, h⟩ h1
      rcases ih b c hp' hbc with h | ⟨h, h'⟩
      · exact .inl (AnOf.head hab h)
      · right
        refine ⟨?_, ?_⟩
        · intro y hy
          rw [List.getLast?_cons_cons] at hy
          exact (h y hy).head hab
        · intro l' s t heq
          cases l' with
          | nil => simp at heq
          | cons r l' =>
            simp at heq
            exact h' l' s t (by simpa using heq.2)

theorem active_suffix {Z : Set α} : ∀ (l₁ : List α) (v : α) (l₂ : List α), ActivePath E Z (l₁ ++ v :: l₂) →
    ActivePath E Z (v :: l₂) := by
  intro l₁
  induction l₁ with
  | nil => intro v l₂ h; exact h
  | cons a l₁ ih =>
    intro v l₂ h
    apply ih
    cases l₁ with
    | nil => exact ActivePath.tail h
    | cons b l₁ => exact ActivePath.tail h

theorem active_prefix {Z : Set α} : ∀ (l₁ : List α) (v : α) (l₂ : List α), ActivePath E Z (l₁ ++ v :: l₂) →
    ActivePath E Z (l₁ ++ [v]) := by
  intro l₁
  induction l₁ with
  | nil => intro v l₂ _; trivial
  | cons a l₁ ih =>
    intro v l₂ h
    cases l₁ with
    | nil => exact ActivePath.adj h
    | cons b l₁ =>
      have := ih v l₂ (ActivePath.tail h)
      cases l₁ with
      | nil =>
        refine ⟨ActivePath.adj h, ?_, this⟩
        exact h.2.1
      | cons c l₁ => exact ⟨h.1, h.2.1, this⟩

/-- Glue two active walks at `v` when the junction is open. -/
theorem active_glue {Z : Set α} : ∀ (l₁ : List α) (v : α) (l₂ : List α), ActivePath E Z (l₁ ++ [v]) →
    ActivePath E Z (v :: l₂) →
    (∀ a ∈ l₁.getLast?, ∀ c ∈ l₂.head?, Open E Z a v c) → ActivePath E Z (l₁ ++ v :: l₂) := by
  intro l₁
  induction l₁ with
  | nil => intro v l₂ _ h _; exact h
  | cons a l₁ ih =>
    intro v l₂ h1 h2 ho
    cases l₁ with
    | nil =>
      cases l₂ with
      | nil => exact h1
      | cons c l₂ => exact ⟨h1, ho a (by simp) c (by simp), h2⟩
    | cons b l₁ =>
      have hrec := ih v l₂ (ActivePath.tail h1) h2 (by simpa [List.getLast?_cons_cons] using ho)
      cases l₁ with
      | nil =>
        exact ⟨ActivePath.adj h1, h1.2.1, hrec⟩
      | cons c l₁ => exact ⟨h1.1, h1.2.1, hrec⟩

theorem open_at {Z : Set α} {v a c : α} (l₁ l₂ : List α)
    (h : ActivePath E Z (l₁ ++ a :: v :: c :: l₂)) : Open E Z a v c :=
  (active_suffix l₁ a _ h).2.1

/-- Cut a loop out of an active walk. -/
theorem cut_loop (hac : Acyclic E) {Z : Set α} {v : α} (l₁ l₂ l₃ : List α)
    (h : ActivePath E Z (l₁ ++ v :: l₂ ++ v :: l₃)) : ActivePath E Z (l₁ ++ v :: l₃) := by
  have hpre : ActivePath E Z (l₁ ++ [v]) := by
    have : l₁ ++ v :: l₂ ++ v :: l₃ = l₁ ++ v :: (l₂ ++ v :: l₃) := by simp
    rw [this] at h; exact active_prefix _ _ _ h
  have hsuf : ActivePath E Z (v :: l₃) := active_suffix _ _ _ h
  apply active_glue _ _ _ hpre hsuf
  intro a ha c hc
  -- l₁ = m₁ ++ [a], l₃ = c :: m₃
  obtain ⟨m₁, rfl⟩ : ∃ m₁, l₁ = m₁ ++ [a] := ⟨l₁.dropLast, by
    have := List.dropLast_append_getLast? a ha; exact this.symm⟩
  obtain ⟨m₃, rfl⟩ : ∃ m₃, l₃ = c :: m₃ := by
    cases l₃ with
    | nil => simp at hc
    | cons d m => simp at hc; subst hc; exact ⟨m, rfl⟩
  -- the loop `v :: l₂ ++ [v]`
  have hloop : ActivePath E Z (v :: (l₂ ++ [v])) := by
    have h' : (m₁ ++ [a]) ++ v :: l₂ ++ v :: c :: m₃ = (m₁ ++ [a]) ++ v :: (l₂ ++ v :: c :: m₃) := by simp
    rw [h'] at h
    have := active_suffix _ _ _ h
    have := active_prefix (v :: l₂) v (c :: m₃) (by simpa using this)
    simpa using this
  cases l₂ with
  | nil =>
    -- v adjacent to itself: impossible
    exfalso
    rcases hloop with h | h <;> exact hac.irrefl v h
  | cons b l₂ =>
    have ho1 : Open E Z a v b := by
      apply open_at m₁ (l₂ ++ v :: c :: m₃)
      simpa using h
    obtain ⟨l₂', d, hd⟩ : ∃ l₂' d, b :: l₂ = l₂' ++ [d] :=
      ⟨(b :: l₂).dropLast, (b :: l₂).getLast (by simp), (List.dropLast_append_getLast (by simp)).symm⟩
    have ho2 : Open E Z d v c := by
      apply open_at (m₁ ++ a :: v :: l₂') m₃
      have : m₁ ++ [a] ++ v :: b :: l₂ ++ v :: c :: m₃ = m₁ ++ a :: v :: l₂' ++ d :: v :: c :: m₃ := by
        rw [show v :: b :: l₂ = v :: (b :: l₂) from rfl, hd]; simp
      rw [← this]; exact h
    by_cases hcol : E a v ∧ E c v
    · refine .inl ⟨hcol.1, hcol.2, ?_⟩
      rcases ho1 with ⟨_, _, h⟩ | ⟨hn1, _⟩
      · exact h
      rcases ho2 with ⟨_, _, h⟩ | ⟨hn2, _⟩
      · exact h
      have hvb : E v b := by
        rcases hloop.adj with h | h
        · exact h
        · exact absurd ⟨hcol.1, h⟩ hn1
      rcases forward_or_an _ _ _ hloop hvb with h | ⟨hlast, _⟩
      · exact h
      · exact absurd (hlast v (by rw [show v :: b :: l₂.append [v] = (v :: b :: l₂) ++ [v] from rfl, List.getLast?_append]; simp)) (hac v)
    · refine .inr ⟨hcol, ?_⟩
      rcases ho1 with ⟨h1, _, _⟩ | ⟨_, h⟩
      · rcases ho2 with ⟨_, h2, _⟩ | ⟨_, h⟩
        · exact absurd ⟨h1, h2⟩ hcol
        · exact h
      · exact h

theorem exists_simple (hac : Acyclic E) {Z : Set α} : ∀ (n : Nat) (p : List α), p.length ≤ n →
    ActivePath E Z p → ∃ q, q.Nodup ∧ ActivePath E Z q ∧ q.head? = p.head? ∧ q.getLast? = p.getLast? := by
  intro n
  induction n with
  | zero =>
    intro p hn hp
    have : p = [] := List.eq_nil_of_length_eq_zero (by omega)
    subst this; exact hp.elim
  | succ n ih =>
    intro p hn hp
    by_cases hnd : p.Nodup
    · exact ⟨p, hnd, hp, rfl, rfl⟩
    · have hdup := List.exists_duplicate_iff_not_nodup.2 hnd
      obtain ⟨v, hv⟩ := hdup
      rw [List.duplicate_iff_sublist] at hv
      -- split at two occurrences
      obtain ⟨l₁, l₂, l₃, rfl⟩ : ∃ l₁ l₂ l₃, p = l₁ ++ v :: l₂ ++ v :: l₃ := by
        clear hnd hp hn ih
        induction p with
        | nil => simp at hv
        | cons a p ihp =>
          by_cases hav : a = v
          · subst hav
            have : a ∈ p := by
              have := List.cons_sublist_cons.1 hv
              exact List.singleton_sublist.1 this
            obtain ⟨s, t, rfl⟩ := List.append_of_mem this
            exact ⟨[], s, t, by simp⟩
          · have : List.Sublist [v, v] p := by
              cases hv with
              | cons _ h => exact h
              | cons_cons _ h => exact absurd rfl hav
            obtain ⟨l₁, l₂, l₃, rfl⟩ := ihp this
            exact ⟨a :: l₁, l₂, l₃, by simp⟩
      have hcut := cut_loop hac l₁ l₂ l₃ hp
      obtain ⟨q, h1, h2, h3, h4⟩ := ih (l₁ ++ v :: l₃) (by simp at hn ⊢; omega) hcut
      refine ⟨q, h1, h2, ?_, ?_⟩
      · rw [h3]; cases l₁ <;> simp
      · rw [h4, List.getLast?_append, List.getLast?_append]
        cases hl : (v :: l₃).getLast? with
        | none => simp at hl
        | some w => simp

theorem Spec.ActivePath.reverse {Z : Set α} : ∀ (p : List α), ActivePath E Z p → ActivePath E Z p.reverse := by
  intro p
  induction p with
  | nil => intro h; exact h.elim
  | cons a l ih =>
    intro h
    cases l with
    | nil => trivial
    | cons b l =>
      have h' := ih h.tail
      rw [List.reverse_cons]
      have e : (b :: l).reverse = l.reverse ++ [b] := by simp
      rw [e] at h' ⊢
      rw [List.append_assoc]
      apply active_glue _ _ _ h'
      · exact h.adj.symm
      · intro c hc d hd
        simp at hd; subst hd
        cases l with
        | nil => simp at hc
        | cons e l =>
          simp at hc; subst hc
          exact Open.symm' h.2.1

/-- The pruned-graph criterion is the textbook criterion. -/
theorem dsep_iff_not_connected (hac : Acyclic E) (X Y Z : Set α) (hXZ : ∀ x ∈ X, x ∉ Z) (hYZ : ∀ y ∈ Y, y ∉ Z) :
    DSep E X Y Z ↔ ∀ x ∈ X, ∀ y ∈ Y,
      ¬ Relation.ReflTransGen (Adj (MDG.SepEdge E (X ∪ Y ∪ Z) Z)) x y := by
  constructor
  · intro hd x hx y hy hr
    have hact : ∃ y ∈ Y, ∃ x' ∈ X, ∃ l, ActivePath E Z (y :: l) ∧ (y :: l).getLast? = some x' := by
      rcases active_of_connected hac hx hr with h | ⟨x', hx', l, h1, h2, _⟩
      · exact h
      · exact ⟨y, hy, x', hx', l, h1, h2⟩
    obtain ⟨y', hy', x', hx', l, h1, h2⟩ := hact
    obtain ⟨q, k1, k2, k3, k4⟩ := exists_simple hac _ _ le_rfl (ActivePath.reverse _ h1)
    refine hd q k1 k2 x' ?_ y' ?_ hx' hy'
    · rw [k3, List.head?_reverse, h2]; rfl
    · rw [k4, List.getLast?_reverse]; rfl
  · intro hc p hnd hp x hx y hy hxX hyY
    cases p with
    | nil => exact hp.elim
    | cons a l =>
      simp at hx; subst hx
      have := connected_of_active hac (T := X ∪ Y ∪ Z) (Y := {y}) (fun z hz => .inr hz)
        (fun b hb => by rw [Set.mem_singleton_iff.1 hb]; exact .inl (.inr hyY))
        (fun b hb => by rw [Set.mem_singleton_iff.1 hb]; exact hYZ _ hyY) l a hp
        (fun b hb => by rw [hy] at hb; simpa using hb.symm)
        (fun v _ => ⟨fun _ => hXZ a hxX, fun _ => AnOf.self (.inl (.inl hxX))⟩)
      obtain ⟨y', hy', hr⟩ := this
      rw [Set.mem_singleton_iff.1 hy'] at hr
      exact hc a hxX y hyY hr

end YL
