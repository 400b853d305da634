import Verif.Model.Params
import Mathlib.Tactic.Common
import Mathlib.Data.List.Nodup
import Mathlib.Tactic.FinCases
/-!
C110, C111: `get_params` and `set_params`.
-/
set_option linter.unusedSectionVars false
set_option linter.unusedSimpArgs false
set_option linter.unusedVariables false
namespace YL.Props
open YL.Params

variable {P : Type}

/-! ### Specification -/

/-- a name that can be told apart in `name__rest`: no `__` inside and no `_` at the end -/
def Tame (n : Name) : Prop := ¬ ['_', '_'] <:+: n ++ ['_']

/-- the classes declare every parameter once, with tame names -/
def Declared (h : Heap P) : Prop := ∀ i, (h i).names.Nodup ∧ ∀ n ∈ (h i).names, Tame n

/-- `path` (like `x_model__base__depth`), started at object `i`, means attribute `q` of object `t` -/
inductive At (h : Heap P) : Nat → Name → Nat → Name → Prop where
  | own {i k} : k ∈ (h i).names → At h i k i k
  | sub {i j t k p q} : k ∈ (h i).names → find k (h i).attrs = some (.obj j) → At h j p t q → At h i (join k p) t q

/-! ### Names -/

theorem tame_cons {c : Char} {n : Name} (h : Tame (c :: n)) : Tame n := by
  intro hi
  exact h (hi.trans ⟨[c], [], by simp⟩)

theorem partition_join {n : Name} (hn : Tame n) (k : Name) : partition (join n k) = (n, some k) := by
  induction n with
  | nil => simp [join, partition]
  | cons a n ih =>
    have ih := ih (tame_cons hn)
    cases n with
    | nil =>
      have ha : a ≠ '_' := by
        rintro rfl
        exact hn ⟨[], [], rfl⟩
      simp only [join, List.nil_append] at ih
      simp [join, partition, ha]
    | cons b m =>
      have hab : ¬ (a = '_' ∧ b = '_') := by
        rintro ⟨rfl, rfl⟩
        exact hn ⟨[], m ++ ['_'], rfl⟩
      simp only [join, List.cons_append] at ih ⊢
      rw [partition, if_neg hab, ih]

theorem partition_tame {n : Name} (hn : Tame n) : partition n = (n, none) := by
  induction n with
  | nil => rfl
  | cons a n ih =>
    have ih := ih (tame_cons hn)
    cases n with
    | nil => rfl
    | cons b m =>
      have hab : ¬ (a = '_' ∧ b = '_') := by
        rintro ⟨rfl, rfl⟩
        exact hn ⟨[], m ++ ['_'], rfl⟩
      rw [partition, if_neg hab, ih]

theorem partition_none : ∀ {k : Name}, (partition k).2 = none → (partition k).1 = k
  | [], _ => rfl
  | [_], _ => rfl
  | a :: b :: l, h => by
    by_cases hab : a = '_' ∧ b = '_'
    · simp [partition, hab] at h
    · rw [partition, if_neg hab] at h ⊢
      have := partition_none (k := b :: l) h
      simp [this]

theorem partition_some : ∀ {k p : Name}, (partition k).2 = some p → k = join (partition k).1 p
  | [], _, h => by simp [partition] at h
  | [_], _, h => by simp [partition] at h
  | a :: b :: l, p, h => by
    by_cases hab : a = '_' ∧ b = '_'
    · obtain ⟨rfl, rfl⟩ := hab
      simp [partition] at h
      simp [partition, join, h]
    · rw [partition, if_neg hab] at h ⊢
      have := partition_some (k := b :: l) h
      simp only [join, List.cons_append]
      rw [← join, ← this]

theorem partition_head : ∀ k : Name, (partition (partition k).1).1 = (partition k).1
  | [] => rfl
  | [_] => rfl
  | a :: b :: l => by
    by_cases hab : a = '_' ∧ b = '_'
    · simp [partition, hab]
    · have ih := partition_head (b :: l)
      rw [partition, if_neg hab]
      dsimp only
      cases hm : (partition (b :: l)).1 with
      | nil => rfl
      | cons c m =>
        have hc : c = b := by
          cases l with
          | nil => simp [partition] at hm; exact hm.1.symm
          | cons d l =>
            by_cases hbd : b = '_' ∧ d = '_'
            · simp [partition, hbd] at hm
            · rw [partition, if_neg hbd] at hm
              simp at hm
              exact hm.1.symm
        subst hc
        rw [hm] at ih
        rw [partition, if_neg hab]
        simp [ih]

theorem join_inj {k : Name} : Function.Injective (join k) := by
  intro a b h
  have := List.append_cancel_left h
  simpa using this

/-! ### Dictionaries -/

section Dict
variable {V : Type}

theorem find_put (k k' : Name) (v : V) (d : List (Name × V)) :
    find k' (put k v d) = if k = k' then some v else find k' d := by
  induction d with
  | nil => simp [put, find]
  | cons e d ih =>
    obtain ⟨a, b⟩ := e
    by_cases h : a = k
    · subst h
      by_cases h' : a = k' <;> simp [put, find, h']
    · simp only [put, if_neg h, find, ih]
      by_cases h' : a = k'
      · subst h'
        simp [Ne.symm h]
      · simp [h']

theorem put_same {k : Name} {v : V} {d : List (Name × V)} (h : find k d = some v) : put k v d = d := by
  induction d with
  | nil => simp [find] at h
  | cons e d ih =>
    obtain ⟨a, b⟩ := e
    by_cases hk : a = k
    · subst hk
      simp [find] at h
      simp [put, h]
    · simp only [find, if_neg hk] at h
      simp [put, hk, ih h]

theorem find_none {k : Name} {d : List (Name × V)} : find k d = none ↔ k ∉ d.map Prod.fst := by
  induction d with
  | nil => simp [find]
  | cons e d ih =>
    obtain ⟨a, b⟩ := e
    by_cases hk : a = k
    · simp [find, hk]
    · simp [find, hk, ih, Ne.symm hk]

theorem put_fresh {k : Name} {v : V} {d : List (Name × V)} (h : k ∉ d.map Prod.fst) : put k v d = d ++ [(k, v)] := by
  induction d with
  | nil => rfl
  | cons e d ih =>
    obtain ⟨a, b⟩ := e
    simp only [List.map_cons, List.mem_cons, not_or] at h
    simp [put, Ne.symm h.1, ih h.2]

theorem mem_put {k : Name} {v : V} {d : List (Name × V)} {e : Name × V} (h : e ∈ put k v d) : e ∈ d ∨ e = (k, v) := by
  induction d with
  | nil => simpa [put] using h
  | cons a d ih =>
    obtain ⟨x, y⟩ := a
    by_cases hx : x = k
    · simp only [put, if_pos hx, List.mem_cons] at h
      rcases h with rfl | h
      · exact Or.inr (by rw [hx])
      · exact Or.inl (by simp [h])
    · simp only [put, if_neg hx, List.mem_cons] at h
      rcases h with rfl | h
      · exact Or.inl (by simp)
      · rcases ih h with h | h
        · exact Or.inl (by simp [h])
        · exact Or.inr h

theorem put_ne_nil (k : Name) (v : V) (d : List (Name × V)) : put k v d ≠ [] := by
  cases d with
  | nil => simp [put]
  | cons a d =>
    obtain ⟨x, y⟩ := a
    by_cases hx : x = k <;> simp [put, hx]

theorem put_nodup (k : Name) (v : V) (d : List (Name × V)) (hd : (d.map Prod.fst).Nodup) :
    ((put k v d).map Prod.fst).Nodup := by
  induction d with
  | nil => simp [put]
  | cons a d ih =>
    obtain ⟨x, y⟩ := a
    simp only [List.map_cons, List.nodup_cons] at hd
    by_cases hx : x = k
    · simp only [put, if_pos hx, List.map_cons, List.nodup_cons]
      exact hd
    · simp only [put, if_neg hx, List.map_cons, List.nodup_cons]
      refine ⟨?_, ih hd.2⟩
      intro hm
      obtain ⟨e, he, hex⟩ := List.mem_map.mp hm
      rcases mem_put he with he | rfl
      · exact hd.1 (List.mem_map.mpr ⟨e, he, hex⟩)
      · exact hx hex.symm

theorem update_fresh {e : List (Name × V)} : ∀ {d : List (Name × V)}, (e.map Prod.fst).Nodup →
    (∀ k ∈ e.map Prod.fst, k ∉ d.map Prod.fst) → update d e = d ++ e := by
  induction e with
  | nil => intro d _ _; simp [update]
  | cons a e ih =>
    intro d hn hd
    simp only [List.map_cons, List.nodup_cons] at hn
    have h1 : put a.1 a.2 d = d ++ [a] := put_fresh (hd _ (by simp))
    simp only [update, List.foldl_cons] at ih ⊢
    rw [h1, ih hn.2 ?_]
    · simp
    · intro k hk hk'
      simp only [List.map_append, List.mem_append, List.map_cons, List.map_nil, List.mem_singleton] at hk'
      rcases hk' with hk' | rfl
      · exact hd k (by simp [hk]) hk'
      · exact hn.1 hk

theorem find_append (k : Name) (d e : List (Name × V)) : find k (d ++ e) = (find k d).or (find k e) := by
  induction d with
  | nil => simp [find]
  | cons a d ih =>
    obtain ⟨x, y⟩ := a
    by_cases h : x = k <;> simp [find, h, ih]

theorem find_mem {k : Name} {v : V} {d : List (Name × V)} (h : find k d = some v) : (k, v) ∈ d := by
  induction d with
  | nil => simp [find] at h
  | cons a d ih =>
    obtain ⟨x, y⟩ := a
    by_cases hx : x = k
    · simp [find, hx] at h
      simp [hx, h]
    · simp only [find, if_neg hx] at h
      exact List.mem_cons_of_mem _ (ih h)

theorem mem_find {k : Name} {v : V} {d : List (Name × V)} (hd : (d.map Prod.fst).Nodup) (h : (k, v) ∈ d) :
    find k d = some v := by
  induction d with
  | nil => simp at h
  | cons a d ih =>
    obtain ⟨x, y⟩ := a
    simp only [List.map_cons, List.nodup_cons] at hd
    rcases List.mem_cons.mp h with h | h
    · cases h
      simp [find]
    · have : x ≠ k := by
        rintro rfl
        exact hd.1 (List.mem_map_of_mem (f := Prod.fst) h)
      simp [find, this, ih hd.2 h]

end Dict

/-! ### `get_params` -/

/-- the entries of one name -/
def chunk (nested : Nat → Except Err (Dict P)) (o : Obj P) (key : Name) : Dict P :=
  match find key o.attrs with
  | none => []
  | some (.plain p) => [(key, .plain p)]
  | some (.obj j) =>
    match nested j with
    | .error _ => []
    | .ok d => d.map (fun kv => (join key kv.1, kv.2)) ++ [(key, .obj j)]

/-- the call for this name went well -/
def Fine (nested : Nat → Except Err (Dict P)) (o : Obj P) (key : Name) : Prop :=
  ∃ v, find key o.attrs = some v ∧ ∀ j, v = .obj j → ∃ d, nested j = .ok d

theorem chunk_heads {nested : Nat → Except Err (Dict P)} {o : Obj P} {key : Name} (hk : Tame key) :
    ∀ e ∈ chunk nested o key, (partition e.1).1 = key := by
  intro e he
  unfold chunk at he
  split at he
  · simp at he
  · simp at he
    subst he
    simp [partition_tame hk]
  · split at he
    · simp at he
    · simp only [List.mem_append, List.mem_map, List.mem_singleton] at he
      rcases he with ⟨a, _, rfl⟩ | rfl
      · simp [partition_join hk]
      · simp [partition_tame hk]

theorem chunk_nodup {nested : Nat → Except Err (Dict P)} {o : Obj P} {key : Name} (hk : Tame key)
    (hn : ∀ j d, nested j = .ok d → (d.map Prod.fst).Nodup) : ((chunk nested o key).map Prod.fst).Nodup := by
  unfold chunk
  split
  · simp
  · simp
  · split
    · simp
    · rename_i d hd
      simp only [List.map_append, List.map_map, List.map_cons, List.map_nil]
      rw [List.nodup_append]
      refine ⟨?_, by simp, ?_⟩
      · have : (Prod.fst ∘ fun kv : Name × Val P => (join key kv.1, kv.2)) = join key ∘ Prod.fst := rfl
        rw [this, ← List.map_map]
        exact (hn _ _ hd).map join_inj
      · intro a ha b hb hab
        simp only [List.mem_singleton] at hb
        simp only [List.mem_map] at ha
        obtain ⟨kv, _, rfl⟩ := ha
        have h1 := partition_join hk kv.1
        have h2 := partition_tame hk
        simp only [Function.comp] at hab
        rw [hb] at hab
        rw [← hab] at h2
        rw [h1] at h2
        simp at h2

theorem collect_step {nested : Nat → Except Err (Dict P)} {o : Obj P} {key : Name} {keys : List Name} {out d : Dict P}
    (hk : Tame key) (hn : ∀ j d, nested j = .ok d → (d.map Prod.fst).Nodup)
    (hout : ∀ e ∈ out, (partition e.1).1 ≠ key)
    (h : collect nested true o (key :: keys) out = .ok d) :
    Fine nested o key ∧ collect nested true o keys (out ++ chunk nested o key) = .ok d := by
  have hfresh : ∀ k, (partition k).1 = key → k ∉ out.map Prod.fst := by
    intro k hk' hm
    obtain ⟨e, he, rfl⟩ := List.mem_map.mp hm
    exact hout e he hk'
  unfold collect at h
  cases ha : find key o.attrs with
  | none => simp [ha] at h
  | some v =>
    cases v with
    | plain p =>
      simp only [ha] at h
      refine ⟨⟨_, ha, by simp⟩, ?_⟩
      rw [put_fresh (hfresh _ (by rw [partition_tame hk]))] at h
      simpa [chunk, ha] using h
    | obj j =>
      simp only [ha, if_true] at h
      cases hj : nested j with
      | error e => simp [hj] at h
      | ok dj =>
        simp only [hj] at h
        refine ⟨⟨_, ha, fun j' hj' => ⟨dj, by cases hj'; exact hj⟩⟩, ?_⟩
        have hnd := chunk_nodup (o := o) hk hn
        have hc : chunk nested o key = dj.map (fun kv => (join key kv.1, kv.2)) ++ [(key, .obj j)] := by
          simp [chunk, ha, hj]
        rw [hc] at hnd
        rw [List.map_append, List.nodup_append] at hnd
        rw [update_fresh hnd.1 ?_, put_fresh ?_] at h
        · rw [hc]
          simpa using h
        · simp only [List.map_append, List.mem_append, not_or]
          refine ⟨hfresh _ (by rw [partition_tame hk]), fun hm => hnd.2.2 _ hm key (by simp) rfl⟩
        · intro k hm
          refine hfresh k ?_
          simp only [List.map_map, List.mem_map] at hm
          obtain ⟨kv, _, rfl⟩ := hm
          simp [partition_join hk]

theorem collectParams_ok {nested : Nat → Except Err (Dict P)} {o : Obj P}
    (hn : ∀ j d, nested j = .ok d → (d.map Prod.fst).Nodup) : ∀ (keys : List Name) (out d : Dict P),
    keys.Nodup → (∀ k ∈ keys, Tame k) → (∀ e ∈ out, (partition e.1).1 ∉ keys) → (out.map Prod.fst).Nodup →
    collect nested true o keys out = .ok d →
    d = out ++ keys.flatMap (chunk nested o) ∧ (∀ k ∈ keys, Fine nested o k) ∧ (d.map Prod.fst).Nodup := by
  intro keys
  induction keys with
  | nil =>
    intro out d _ _ _ hnd h
    simp only [collect] at h
    cases h
    simp [hnd]
  | cons key keys ih =>
    intro out d hk ht hout hnd h
    simp only [List.nodup_cons] at hk
    have htk := ht key (by simp)
    obtain ⟨hf, h⟩ := collect_step htk hn (fun e he => fun hh => hout e he (by simp [hh])) h
    have hheads := chunk_heads (nested := nested) (o := o) htk
    have := ih (out ++ chunk nested o key) d hk.2 (fun k hm => ht k (by simp [hm])) ?_ ?_ h
    · refine ⟨by simp [this.1], ?_, this.2.2⟩
      intro k hm
      rcases List.mem_cons.mp hm with rfl | hm
      · exact hf
      · exact this.2.1 k hm
    · intro e he
      rcases List.mem_append.mp he with he | he
      · intro hm
        exact hout e he (by simp [hm])
      · rw [hheads e he]
        exact hk.1
    · rw [List.map_append, List.nodup_append]
      refine ⟨hnd, chunk_nodup htk hn, ?_⟩
      intro a ha b hb hab
      subst hab
      obtain ⟨e, he, rfl⟩ := List.mem_map.mp ha
      obtain ⟨e', he', h'⟩ := List.mem_map.mp hb
      apply hout e he
      rw [← h', hheads e' he']
      simp

theorem getParams_nodup {h : Heap P} (hD : Declared h) : ∀ (fuel : Nat) (i : Nat) (d : Dict P),
    getParams h fuel true i = .ok d → (d.map Prod.fst).Nodup := by
  intro fuel
  induction fuel with
  | zero => intro i d h; simp [getParams] at h
  | succ f ih =>
    intro i d hd
    exact (collectParams_ok (fun j d h => ih j d h) _ [] d (hD i).1 (hD i).2 (by simp) (by simp) hd).2.2

theorem getParams_eq {h : Heap P} (hD : Declared h) {f i : Nat} {d : Dict P} (hd : getParams h (f + 1) true i = .ok d) :
    d = (h i).names.flatMap (chunk (getParams h f true) (h i)) ∧ ∀ k ∈ (h i).names, Fine (getParams h f true) (h i) k := by
  have := collectParams_ok (fun j d h => getParams_nodup hD f j d h) _ [] d (hD i).1 (hD i).2 (by simp) (by simp) hd
  exact ⟨by simpa using this.1, this.2.1⟩

/-- what the entry of one own name is -/
theorem getParams_own {h : Heap P} (hD : Declared h) {f i : Nat} {d : Dict P} (hd : getParams h (f + 1) true i = .ok d)
    {k : Name} (hk : k ∈ (h i).names) : ∃ v, find k (h i).attrs = some v ∧ find k d = some v := by
  obtain ⟨he, hf⟩ := getParams_eq hD hd
  obtain ⟨v, hv, hj⟩ := hf k hk
  refine ⟨v, hv, mem_find (getParams_nodup hD _ _ _ hd) ?_⟩
  rw [he, List.mem_flatMap]
  refine ⟨k, hk, ?_⟩
  cases v with
  | plain p => simp [chunk, hv]
  | obj j =>
    obtain ⟨dj, hdj⟩ := hj j rfl
    simp [chunk, hv, hdj]

theorem find_other {h : Heap P} (hD : Declared h) {f i : Nat} {d : Dict P} (hd : getParams h (f + 1) true i = .ok d)
    {k : Name} (hk : k ∉ (h i).names) (ht : (partition k).1 = k) : find k d = none := by
  rw [find_none]
  intro hm
  obtain ⟨e, he, rfl⟩ := List.mem_map.mp hm
  rw [(getParams_eq hD hd).1, List.mem_flatMap] at he
  obtain ⟨key, hkey, he⟩ := he
  rw [chunk_heads ((hD i).2 key hkey) e he] at ht
  exact hk (ht ▸ hkey)

/-- **C110.** What `get_params()` returns, when it returns: exactly the parameters reachable through the declared names,
written with `__`, each with its current value, each once. -/
theorem C110_get_params {h : Heap P} (hD : Declared h) : ∀ (fuel i : Nat) (d : Dict P),
    getParams h fuel true i = .ok d →
    (d.map Prod.fst).Nodup ∧
    ∀ path v, find path d = some v ↔ ∃ t q, At h i path t q ∧ find q (h t).attrs = some v := by
  intro fuel
  induction fuel with
  | zero => intro i d h; simp [getParams] at h
  | succ f ih =>
    intro i d hd
    have hnd := getParams_nodup hD _ _ _ hd
    refine ⟨hnd, ?_⟩
    obtain ⟨he, hf⟩ := getParams_eq hD hd
    intro path v
    constructor
    · intro hfind
      have hm := find_mem hfind
      rw [he, List.mem_flatMap] at hm
      obtain ⟨key, hkey, hm⟩ := hm
      unfold chunk at hm
      split at hm
      · simp at hm
      · rename_i p hp
        simp only [List.mem_singleton, Prod.mk.injEq] at hm
        obtain ⟨rfl, rfl⟩ := hm
        exact ⟨i, path, .own hkey, hp⟩
      · rename_i j hj
        split at hm
        · simp at hm
        · rename_i dj hdj
          simp only [List.mem_append, List.mem_map, List.mem_singleton, Prod.mk.injEq] at hm
          rcases hm with ⟨⟨a, b⟩, hab, rfl, rfl⟩ | ⟨rfl, rfl⟩
          · obtain ⟨t, q, hat, hq⟩ := ((ih j dj hdj).2 a b).mp (mem_find (getParams_nodup hD _ _ _ hdj) hab)
            exact ⟨t, q, .sub hkey hj hat, hq⟩
          · exact ⟨i, path, .own hkey, hj⟩
    · rintro ⟨t, q, hat, hq⟩
      cases hat with
      | own hk =>
        obtain ⟨w, hw, hw'⟩ := getParams_own hD hd hk
        rw [hw] at hq
        cases hq
        exact hw'
      | sub hk hj hat =>
        rename_i j k p
        obtain ⟨w, hw, hwj⟩ := hf k hk
        rw [hw] at hj
        cases hj
        obtain ⟨dj, hdj⟩ := hwj j rfl
        have := ((ih j dj hdj).2 p v).mpr ⟨t, q, hat, hq⟩
        apply mem_find hnd
        rw [he, List.mem_flatMap]
        refine ⟨k, hk, ?_⟩
        simp only [chunk, hw, hdj, List.mem_append, List.mem_map]
        exact Or.inl ⟨(p, v), find_mem this, rfl⟩

/-! ### `set_params` -/

theorem setAttr_same {h : Heap P} {i : Nat} {k : Name} {v : Val P} (hv : find k (h i).attrs = some v) :
    setAttr h i k v = h := by
  funext j
  by_cases hj : j = i
  · subst hj
    simp [setAttr, put_same hv]
  · simp [setAttr, hj]

theorem setAttr_names (h : Heap P) (i : Nat) (k : Name) (v : Val P) (j : Nat) : (setAttr h i k v j).names = (h j).names := by
  by_cases hj : j = i <;> simp [setAttr, hj]

theorem find_setAttr (h : Heap P) (i : Nat) (k : Name) (v : Val P) (j : Nat) (q : Name) :
    find q (setAttr h i k v j).attrs = if j = i ∧ k = q then some v else find q (h j).attrs := by
  by_cases hj : j = i
  · subst hj
    by_cases hk : k = q <;> simp [setAttr, find_put, hk]
  · simp [setAttr, hj]

theorem assign_prefix {i : Nat} {key : Name} (hk : Tame key) (rest : Dict P) (h : Heap P) (valid : Dict P) {w : Val P}
    (hw : find key valid = some w) : ∀ (d acc : Dict P) (n : List (Name × Dict P)),
    find key n = none → ((acc ++ d).map Prod.fst).Nodup →
    assign i (d.map (fun kv => (join key kv.1, kv.2)) ++ rest) ⟨h, valid, if acc = [] then n else n ++ [(key, acc)]⟩ =
      assign i rest ⟨h, valid, if acc ++ d = [] then n else n ++ [(key, acc ++ d)]⟩ := by
  intro d
  induction d with
  | nil => intro acc n _ _; simp
  | cons e d ih =>
    intro acc n hn hnd
    have hlook : find key (n ++ [(key, acc)]) = some acc := by
      rw [find_append, hn]
      simp [find]
    have hfresh : e.1 ∉ acc.map Prod.fst := by
      intro hm
      rw [List.map_append, List.nodup_append] at hnd
      exact hnd.2.2 _ hm e.1 (by simp) rfl
    have hput : ∀ (m : List (Name × Dict P)) (x y : Dict P), find key m = none → put key y (m ++ [(key, x)]) = m ++ [(key, y)] := by
      intro m x y hm
      induction m with
      | nil => simp [put]
      | cons a m ihm =>
        obtain ⟨a1, a2⟩ := a
        by_cases ha : a1 = key
        · simp [find, ha] at hm
        · simp only [find, if_neg ha] at hm
          simp [put, ha, ihm hm]
    have key1 : putNested key e.1 e.2 (if acc = [] then n else n ++ [(key, acc)]) = n ++ [(key, acc ++ [e])] := by
      by_cases ha : acc = []
      · subst ha
        simp only [if_true, putNested, hn, Option.getD_none, put, List.nil_append]
        rw [put_fresh (find_none.mp hn)]
      · simp only [if_neg ha, putNested, hlook, Option.getD_some]
        rw [hput n acc _ hn, put_fresh hfresh]
    have := ih (acc ++ [e]) n hn (by simpa using hnd)
    simp only [List.map_cons, List.cons_append, assign, partition_join hk, hw, key1]
    simp only [List.append_assoc, List.cons_append, List.nil_append, List.append_eq_nil_iff, List.cons_ne_nil, and_false,
      if_false] at this ⊢
    exact this

/-- the groups the first loop makes of the dictionary `get_params` returned -/
def groups (nested : Nat → Except Err (Dict P)) (o : Obj P) (key : Name) : List (Name × Dict P) :=
  match find key o.attrs with
  | some (.obj j) =>
    match nested j with
    | .ok d => if d = [] then [] else [(key, d)]
    | .error _ => []
  | _ => []

theorem groups_heads {nested : Nat → Except Err (Dict P)} {o : Obj P} {key : Name} :
    ∀ e ∈ groups nested o key, e.1 = key ∧ ∃ j, find key o.attrs = some (.obj j) ∧ nested j = .ok e.2 := by
  intro e he
  unfold groups at he
  split at he
  · rename_i j hj
    split at he
    · rename_i d hd
      split at he
      · simp at he
      · simp at he
        subst he
        exact ⟨rfl, j, hj, hd⟩
    · simp at he
  · simp at he

theorem assign_chunks {h : Heap P} (hD : Declared h) {f i : Nat} {valid : Dict P}
    (hval : getParams h (f + 1) true i = .ok valid) : ∀ (keys : List Name) (n : List (Name × Dict P)),
    keys.Nodup → (∀ k ∈ keys, k ∈ (h i).names) → (∀ e ∈ n, e.1 ∉ keys) →
    assign i (keys.flatMap (chunk (getParams h f true) (h i))) ⟨h, valid, n⟩ =
      (⟨h, valid, n ++ keys.flatMap (groups (getParams h f true) (h i))⟩, none) := by
  intro keys
  induction keys with
  | nil => intro n _ _ _; simp [assign]
  | cons key keys ih =>
    intro n hnd hsub hn
    simp only [List.nodup_cons] at hnd
    have hkey := hsub key (by simp)
    have ht := (hD i).2 key hkey
    obtain ⟨w, hw, hwv⟩ := getParams_own hD hval hkey
    obtain ⟨w', hw', hj⟩ := (getParams_eq hD hval).2 key hkey
    rw [hw] at hw'
    cases hw'
    have hnone : find key n = none := by
      rw [find_none]
      intro hm
      obtain ⟨e, he, rfl⟩ := List.mem_map.mp hm
      exact hn e he (by simp)
    have hn' : ∀ e ∈ n ++ groups (getParams h f true) (h i) key, e.1 ∉ keys := by
      intro e he
      rcases List.mem_append.mp he with he | he
      · intro hm
        exact hn e he (by simp [hm])
      · rw [(groups_heads e he).1]
        exact hnd.1
    have ih' := ih (n ++ groups (getParams h f true) (h i) key) hnd.2 (fun k hk => hsub k (by simp [hk])) hn'
    have own : ∀ (v : Val P) (m : List (Name × Dict P)) (rest : Dict P), w = v →
        assign i ((key, v) :: rest) ⟨h, valid, m⟩ = assign i rest ⟨h, valid, m⟩ := by
      intro v m rest hv
      subst hv
      simp [assign, partition_tame ht, hwv, setAttr_same hw, put_same hwv]
    simp only [List.flatMap_cons]
    cases w with
    | plain p =>
      have hc : chunk (getParams h f true) (h i) key = [(key, .plain p)] := by simp [chunk, hw]
      have hg : groups (getParams h f true) (h i) key = [] := by simp [groups, hw]
      rw [hc, List.cons_append, List.nil_append, own _ _ _ rfl]
      rw [hg] at ih' ⊢
      simpa using ih'
    | obj j =>
      obtain ⟨dj, hdj⟩ := hj j rfl
      have hc : chunk (getParams h f true) (h i) key = dj.map (fun kv => (join key kv.1, kv.2)) ++ [(key, .obj j)] := by
        simp [chunk, hw, hdj]
      have hg : groups (getParams h f true) (h i) key = if dj = [] then [] else [(key, dj)] := by simp [groups, hw, hdj]
      rw [hc, List.append_assoc]
      have hp := assign_prefix (i := i) ht ([(key, .obj j)] ++ keys.flatMap (chunk (getParams h f true) (h i))) h valid hwv dj []
        n hnone (by simpa using getParams_nodup hD _ _ _ hdj)
      simp only [if_true, List.nil_append] at hp
      rw [hp, List.cons_append, List.nil_append, own _ _ _ rfl]
      rw [hg] at ih' ⊢
      by_cases hd0 : dj = []
      · simp only [hd0, if_true] at ih' ⊢
        simpa using ih'
      · simp only [hd0, if_false] at ih' ⊢
        rw [ih']
        simp

/-- **C110.** Setting the parameters that were just read changes nothing, at any depth, and raises nothing. -/
theorem C110_round_trip {h : Heap P} (hD : Declared h) : ∀ (fuel i : Nat) (d : Dict P),
    getParams h fuel true i = .ok d → setParams fuel h i d = (h, none) := by
  intro fuel
  induction fuel with
  | zero => intro i d h; simp [getParams] at h
  | succ f ih =>
    intro i d hd
    cases d with
    | nil => simp [setParams]
    | cons e d =>
      have hs := assign_chunks hD hd (h i).names [] (hD i).1 (fun k hk => hk) (by simp)
      rw [← (getParams_eq hD hd).1] at hs
      simp only [setParams, hd, hs, List.nil_append]
      have : ∀ (n : List (Name × Dict P)), (∀ g ∈ n, ∃ j, find g.1 (e :: d) = some (.obj j) ∧ getParams h f true j = .ok g.2) →
          assignNested (setParams f) (e :: d) n h = (h, none) := by
        intro n
        induction n with
        | nil => intro _; rfl
        | cons g n ihn =>
          intro hg
          obtain ⟨j, hj, hgj⟩ := hg g (by simp)
          obtain ⟨g1, g2⟩ := g
          simp only [assignNested, hj, ih j g2 hgj]
          exact ihn (fun g' hg' => hg g' (by simp [hg']))
      apply this
      intro g hg
      obtain ⟨key, hkey, hg⟩ := List.mem_flatMap.mp hg
      obtain ⟨h1, j, h2, h3⟩ := groups_heads g hg
      obtain ⟨w, hw, hwv⟩ := getParams_own hD hd hkey
      rw [hw] at h2
      cases h2
      exact ⟨j, by rw [h1]; exact hwv, h3⟩

/-- **C110.** `set_params(path=v)` sets exactly the attribute the path means, of exactly the object it leads to. -/
theorem C110_set_path {h : Heap P} (hD : Declared h) {i t : Nat} {path q : Name} (hat : At h i path t q) :
    ∀ (fuel : Nat) (d : Dict P) (v : Val P), getParams h fuel true i = .ok d →
      setParams fuel h i [(path, v)] = (setAttr h t q v, none) := by
  induction hat with
  | own hk =>
    rename_i i k
    intro fuel d v hd
    cases fuel with
    | zero => simp [getParams] at hd
    | succ f =>
      obtain ⟨w, _, hwv⟩ := getParams_own hD hd hk
      simp [setParams, hd, assign, partition_tame ((hD i).2 k hk), hwv, assignNested]
  | sub hk hj _ ih =>
    rename_i i j t k p q _
    intro fuel d v hd
    cases fuel with
    | zero => simp [getParams] at hd
    | succ f =>
      obtain ⟨w, hw, hwv⟩ := getParams_own hD hd hk
      rw [hw] at hj
      cases hj
      obtain ⟨w', hw', hdj⟩ := (getParams_eq hD hd).2 k hk
      rw [hw] at hw'
      cases hw'
      obtain ⟨dj, hdj⟩ := hdj j rfl
      simp [setParams, hd, assign, partition_join ((hD i).2 k hk), hwv, putNested, put, find, assignNested, ih f dj v hdj]

/-- the first loop on own names -/
theorem assign_own {names : List Name} (ht : ∀ k ∈ names, Tame k) (i : Nat) (rest : Dict P) : ∀ (params : Dict P) (s : Loop P),
    (∀ kv ∈ params, kv.1 ∈ names) → (∀ k ∈ names, ∃ w, find k s.valid = some w) →
    ∃ valid', assign i (params ++ rest) s =
      assign i rest ⟨params.foldl (fun h kv => setAttr h i kv.1 kv.2) s.heap, valid', s.nested⟩ ∧
      ∀ k, find k valid' = params.foldl (fun o kv => if kv.1 = k then some kv.2 else o) (find k s.valid) := by
  intro params
  induction params with
  | nil => intro s _ _; exact ⟨s.valid, rfl, fun k => rfl⟩
  | cons e params ih =>
    intro s hp hv
    obtain ⟨w, hw⟩ := hv e.1 (hp e (by simp))
    have hte := ht e.1 (hp e (by simp))
    obtain ⟨valid', h1, h2⟩ := ih { s with heap := setAttr s.heap i e.1 e.2, valid := put e.1 e.2 s.valid }
      (fun kv hkv => hp kv (by simp [hkv])) (by
        intro k hk
        rw [find_put]
        by_cases hek : e.1 = k
        · exact ⟨e.2, by simp [hek]⟩
        · simpa [hek] using hv k hk)
    refine ⟨valid', ?_, ?_⟩
    · obtain ⟨e1, e2⟩ := e
      simp only [List.cons_append, assign, partition_tame hte, hw, List.foldl_cons]
      exact h1
    · intro k
      rw [h2 k]
      simp only [List.foldl_cons]
      rw [find_put]

/-- **C110.** Several own parameters at once: all are set, in order, and nothing else. -/
theorem C110_set_own {h : Heap P} (hD : Declared h) {f i : Nat} {d : Dict P} (hd : getParams h (f + 1) true i = .ok d)
    (params : Dict P) (hp : ∀ kv ∈ params, kv.1 ∈ (h i).names) :
    setParams (f + 1) h i params = (params.foldl (fun h kv => setAttr h i kv.1 kv.2) h, none) := by
  cases params with
  | nil => simp [setParams]
  | cons e params =>
    obtain ⟨valid', h1, _⟩ := assign_own (hD i).2 i [] (e :: params) ⟨h, d, []⟩ hp
      (fun k hk => by obtain ⟨w, _, hw⟩ := getParams_own hD hd hk; exact ⟨w, hw⟩)
    rw [List.append_nil] at h1
    rw [setParams, hd]
    dsimp only
    rw [h1]
    simp [assign, assignNested]

/-- **C111.** A name that is not a parameter raises `ValueError`; the parameters before it in the call are already set,
the nested ones before it are not. -/
theorem C111_unknown_name {h : Heap P} (hD : Declared h) {f i : Nat} {d : Dict P} (hd : getParams h (f + 1) true i = .ok d)
    (params rest : Dict P) (hp : ∀ kv ∈ params, kv.1 ∈ (h i).names) (k : Name) (v : Val P)
    (hk : (partition k).1 ∉ (h i).names) :
    setParams (f + 1) h i (params ++ (k, v) :: rest) = (params.foldl (fun h kv => setAttr h i kv.1 kv.2) h, some .value) := by
  obtain ⟨valid', h1, h2⟩ := assign_own (hD i).2 i ((k, v) :: rest) params ⟨h, d, []⟩ hp
    (fun k hk => by obtain ⟨w, _, hw⟩ := getParams_own hD hd hk; exact ⟨w, hw⟩)
  have hnone : find (partition k).1 valid' = none := by
    rw [h2]
    dsimp only
    rw [find_other hD hd hk (partition_head k)]
    clear h1 h2
    induction params with
    | nil => rfl
    | cons e params ih =>
      have : e.1 ≠ (partition k).1 := fun hh => hk (hh ▸ hp e (by simp))
      simp only [List.foldl_cons, if_neg this]
      exact ih (fun kv hkv => hp kv (by simp [hkv]))
  have hcons : ∃ e l, params ++ (k, v) :: rest = e :: l := by
    cases params with
    | nil => exact ⟨_, _, rfl⟩
    | cons a b => exact ⟨_, _, rfl⟩
  obtain ⟨e, l, hel⟩ := hcons
  rw [hel] at h1 ⊢
  rw [setParams, hd]
  dsimp only
  rw [h1]
  simp [assign, hnone]

/-! ### Many parameters at once -/

/-- `h'` differs from `h` in plain values only -/
def Similar (h h' : Heap P) : Prop :=
  (∀ t, (h' t).names = (h t).names) ∧
  ∀ t q, find q (h' t).attrs = find q (h t).attrs ∨
    (∃ x, find q (h t).attrs = some (.plain x)) ∧ ∃ y, find q (h' t).attrs = some (.plain y)

theorem Similar.refl (h : Heap P) : Similar h h := ⟨fun _ => rfl, fun _ _ => Or.inl rfl⟩

theorem Similar.trans {h g k : Heap P} (a : Similar h g) (b : Similar g k) : Similar h k := by
  refine ⟨fun t => (b.1 t).trans (a.1 t), fun t q => ?_⟩
  rcases a.2 t q with ha | ⟨hx, hy⟩
  · rcases b.2 t q with hb | ⟨⟨x, hx⟩, hy⟩
    · exact Or.inl (hb.trans ha)
    · exact Or.inr ⟨⟨x, by rw [← ha, hx]⟩, hy⟩
  · rcases b.2 t q with hb | ⟨_, hy'⟩
    · obtain ⟨y, hy⟩ := hy
      exact Or.inr ⟨hx, ⟨y, by rw [hb, hy]⟩⟩
    · exact Or.inr ⟨hx, hy'⟩

theorem Similar.obj {h h' : Heap P} (a : Similar h h') {t j : Nat} {q : Name} :
    find q (h' t).attrs = some (.obj j) ↔ find q (h t).attrs = some (.obj j) := by
  rcases a.2 t q with ha | ⟨⟨x, hx⟩, ⟨y, hy⟩⟩
  · rw [ha]
  · simp [hx, hy]

theorem Similar.at {h h' : Heap P} (a : Similar h h') {i t : Nat} {p q : Name} : At h' i p t q ↔ At h i p t q := by
  constructor
  · intro hat
    induction hat with
    | own hk => exact .own (by rwa [← a.1])
    | sub hk hj _ ih => exact .sub (by rwa [← a.1]) (a.obj.mp hj) ih
  · intro hat
    induction hat with
    | own hk => exact .own (by rwa [a.1])
    | sub hk hj _ ih => exact .sub (by rwa [a.1]) (a.obj.mpr hj) ih

theorem Similar.declared {h h' : Heap P} (a : Similar h h') (hD : Declared h) : Declared h' := by
  intro i
  rw [a.1]
  exact hD i

theorem collect_total {nested : Nat → Except Err (Dict P)} {o : Obj P} : ∀ (keys : List Name) (out : Dict P),
    (∀ k ∈ keys, Fine nested o k) → ∃ d, collect nested true o keys out = .ok d := by
  intro keys
  induction keys with
  | nil => intro out _; exact ⟨out, rfl⟩
  | cons key keys ih =>
    intro out hf
    obtain ⟨v, hv, hj⟩ := hf key (by simp)
    have hf' : ∀ k ∈ keys, Fine nested o k := fun k hk => hf k (by simp [hk])
    cases v with
    | plain p =>
      simp only [collect, hv]
      exact ih _ hf'
    | obj j =>
      obtain ⟨dj, hdj⟩ := hj j rfl
      simp only [collect, hv, hdj, if_true]
      exact ih _ hf'

theorem Similar.getParams {h h' : Heap P} (a : Similar h h') (hD : Declared h) : ∀ (f i : Nat) (d : Dict P),
    getParams h f true i = .ok d → ∃ d', getParams h' f true i = .ok d' := by
  intro f
  induction f with
  | zero => intro i d hd; simp [YL.Params.getParams] at hd
  | succ f ih =>
    intro i d hd
    apply collect_total
    intro k hk
    rw [a.1] at hk
    obtain ⟨v, hv, hj⟩ := (getParams_eq hD hd).2 k hk
    rcases a.2 i k with ha | ⟨_, ⟨y, hy⟩⟩
    · refine ⟨v, by rw [ha, hv], fun j hj' => ?_⟩
      obtain ⟨dj, hdj⟩ := hj j hj'
      exact ih j dj hdj
    · exact ⟨_, hy, by simp⟩

/-- parameters of the estimator itself (no `__`) -/
def isOwn (kv : Name × Val P) : Bool := (partition kv.1).2.isNone

def addNested (n : List (Name × Dict P)) (kv : Name × Val P) : List (Name × Dict P) :=
  match (partition kv.1).2 with
  | none => n
  | some p => putNested (partition kv.1).1 p kv.2 n

theorem assign_split (i : Nat) : ∀ (params : Dict P) (s : Loop P),
    (∀ kv ∈ params, (find (partition kv.1).1 s.valid).isSome) →
    assign i params s = (⟨(params.filter isOwn).foldl (fun h kv => setAttr h i kv.1 kv.2) s.heap,
      (params.filter isOwn).foldl (fun d kv => put kv.1 kv.2 d) s.valid, params.foldl addNested s.nested⟩, none) := by
  intro params
  induction params with
  | nil => intro s _; rfl
  | cons e params ih =>
    intro s hv
    obtain ⟨k, v⟩ := e
    obtain ⟨w, hw⟩ := Option.isSome_iff_exists.mp (hv (k, v) (by simp))
    dsimp only at hw
    cases hp : (partition k).2 with
    | some p =>
      simp only [assign, hw, hp, List.filter_cons, isOwn, List.foldl_cons, addNested, Option.isNone_some]
      exact ih _ (fun kv hkv => hv kv (by simp [hkv]))
    | none =>
      rw [partition_none hp] at hw
      simp only [assign, hw, hp, List.filter_cons, isOwn, List.foldl_cons, addNested, Option.isNone_none, if_true,
        partition_none hp]
      refine ih _ (fun kv hkv => ?_)
      have := hv kv (by simp [hkv])
      dsimp only
      rw [find_put]
      split
      · rfl
      · exact this

/-- what the groups are -/
theorem addNested_spec : ∀ (params : Dict P) (n : List (Name × Dict P)),
    (n.map Prod.fst).Nodup → (∀ g ∈ n, (g.2.map Prod.fst).Nodup) →
    ((params.foldl addNested n).map Prod.fst).Nodup ∧
    (∀ g ∈ params.foldl addNested n, (g.2.map Prod.fst).Nodup) ∧
    (∀ key sub p v, find key (params.foldl addNested n) = some sub → find p sub = some v →
      (∃ kv ∈ params, partition kv.1 = (key, some p) ∧ kv.2 = v) ∨ ∃ sub', find key n = some sub' ∧ find p sub' = some v) ∧
    (∀ key p, ((∃ kv ∈ params, partition kv.1 = (key, some p)) ∨ ∃ sub', find key n = some sub' ∧ (find p sub').isSome) →
      ∃ sub, find key (params.foldl addNested n) = some sub ∧ (find p sub).isSome) := by
  intro params
  induction params with
  | nil =>
    intro n h1 h2
    refine ⟨h1, h2, fun key sub p v hs hp => Or.inr ⟨sub, hs, hp⟩, ?_⟩
    rintro key p (⟨kv, hkv, _⟩ | ⟨sub, hs, hp⟩)
    · simp at hkv
    · exact ⟨sub, hs, hp⟩
  | cons e params ih =>
    intro n h1 h2
    have hsub : ∀ key, (((find key n).getD []).map Prod.fst).Nodup := by
      intro key
      cases hf : find key n with
      | none => simp
      | some sub => exact h2 (key, sub) (find_mem hf)
    have h1' : ((addNested n e).map Prod.fst).Nodup := by
      unfold addNested
      split
      · exact h1
      · exact put_nodup _ _ _ h1
    have h2' : ∀ g ∈ addNested n e, (g.2.map Prod.fst).Nodup := by
      unfold addNested
      split
      · exact h2
      · rename_i p _
        intro g hg
        rcases mem_put hg with hg | rfl
        · exact h2 g hg
        · exact put_nodup _ _ _ (hsub _)
    have hfind : ∀ key, find key (addNested n e) =
        match (partition e.1).2 with
        | none => find key n
        | some p => if (partition e.1).1 = key then some (put p e.2 ((find (partition e.1).1 n).getD [])) else find key n := by
      intro key
      unfold addNested
      split
      · rename_i h; simp [h]
      · rename_i h
        simp only [putNested, h, find_put]
    obtain ⟨a1, a2, a3, a4⟩ := ih (addNested n e) h1' h2'
    simp only [List.foldl_cons]
    refine ⟨a1, a2, ?_, ?_⟩
    · intro key sub p v hs hp
      rcases a3 key sub p v hs hp with ⟨kv, hkv, hh⟩ | ⟨sub', hs', hp'⟩
      · exact Or.inl ⟨kv, by simp [hkv], hh⟩
      · rw [hfind] at hs'
        cases he : (partition e.1).2 with
        | none => simp only [he] at hs'; exact Or.inr ⟨sub', hs', hp'⟩
        | some q =>
          simp only [he] at hs'
          by_cases hk : (partition e.1).1 = key
          · rw [if_pos hk] at hs'
            cases hs'
            rw [find_put] at hp'
            by_cases hq : q = p
            · rw [if_pos hq] at hp'
              cases hp'
              exact Or.inl ⟨e, by simp, by rw [← hk, ← hq, ← he], rfl⟩
            · rw [if_neg hq, hk] at hp'
              cases hn : find key n with
              | none => simp [hn, find] at hp'
              | some sub' => rw [hn] at hp'; exact Or.inr ⟨sub', rfl, hp'⟩
          · rw [if_neg hk] at hs'
            exact Or.inr ⟨sub', hs', hp'⟩
    · intro key p hh
      apply a4
      by_cases hlast : ∃ kv ∈ params, partition kv.1 = (key, some p)
      · exact Or.inl hlast
      · right
        rw [hfind]
        have hcase : partition e.1 = (key, some p) ∨ ∃ sub', find key n = some sub' ∧ (find p sub').isSome := by
          rcases hh with ⟨kv, hkv, hpart⟩ | hh
          · rcases List.mem_cons.mp hkv with rfl | hkv
            · exact Or.inl hpart
            · exact absurd ⟨kv, hkv, hpart⟩ hlast
          · exact Or.inr hh
        rcases hcase with he | ⟨sub', hs', hp'⟩
        · simp only [he, if_true]
          exact ⟨_, rfl, by simp [find_put]⟩
        · cases he : (partition e.1).2 with
          | none => exact ⟨sub', hs', hp'⟩
          | some q =>
            dsimp only
            by_cases hk : (partition e.1).1 = key
            · rw [if_pos hk, hk, hs']
              refine ⟨_, rfl, ?_⟩
              simp only [Option.getD_some, find_put]
              split
              · rfl
              · exact hp'
            · rw [if_neg hk]
              exact ⟨sub', hs', hp'⟩

/-- own parameters set one after the other -/
theorem foldl_setAttr (i : Nat) : ∀ (own : Dict P) (h : Heap P),
    (∀ t, ((own.foldl (fun h kv => setAttr h i kv.1 kv.2) h) t).names = (h t).names) ∧
    ∀ t q, (find q ((own.foldl (fun h kv => setAttr h i kv.1 kv.2) h) t).attrs = find q (h t).attrs ∧
        ∀ kv ∈ own, ¬ (t = i ∧ kv.1 = q)) ∨
      ∃ kv ∈ own, t = i ∧ kv.1 = q ∧ find q ((own.foldl (fun h kv => setAttr h i kv.1 kv.2) h) t).attrs = some kv.2 := by
  intro own
  induction own with
  | nil => intro h; exact ⟨fun _ => rfl, fun _ _ => Or.inl ⟨rfl, by simp⟩⟩
  | cons e own ih =>
    intro h
    obtain ⟨a, b⟩ := ih (setAttr h i e.1 e.2)
    simp only [List.foldl_cons]
    refine ⟨fun t => by rw [a, setAttr_names], fun t q => ?_⟩
    rcases b t q with ⟨b1, b2⟩ | ⟨kv, hkv, hh⟩
    · rw [b1, find_setAttr]
      by_cases hc : t = i ∧ e.1 = q
      · rw [if_pos hc]
        exact Or.inr ⟨e, by simp, hc.1, hc.2, rfl⟩
      · rw [if_neg hc]
        refine Or.inl ⟨rfl, ?_⟩
        intro kv hkv
        rcases List.mem_cons.mp hkv with rfl | hkv
        · exact hc
        · exact b2 kv hkv
    · exact Or.inr ⟨kv, by simp [hkv], hh⟩

/-- **C110.** Many parameters at once, own and nested, in any order: every attribute some path of the call means gets the
value of one such path (with one path to it: its value), every other attribute of every object stays. -/
theorem C110_set_many : ∀ (fuel : Nat) (h : Heap P), Declared h → ∀ (i : Nat) (d params : Dict P),
    getParams h fuel true i = .ok d →
    (∀ kv ∈ params, (∃ t q x, At h i kv.1 t q ∧ find q (h t).attrs = some (.plain x)) ∧ ∃ y, kv.2 = .plain y) →
    ∃ h', setParams fuel h i params = (h', none) ∧ Similar h h' ∧
      ∀ t q, (find q (h' t).attrs = find q (h t).attrs ∧ ∀ kv ∈ params, ¬ At h i kv.1 t q) ∨
        ∃ kv ∈ params, At h i kv.1 t q ∧ find q (h' t).attrs = some kv.2 := by
  intro fuel
  induction fuel with
  | zero => intro h _ i d params hd; simp [getParams] at hd
  | succ f ih =>
    intro h hD i d params hd hp
    cases params with
    | nil => exact ⟨h, by simp [setParams], Similar.refl h, fun t q => Or.inl ⟨rfl, by simp⟩⟩
    | cons e l =>
      generalize hparams : e :: l = params at *
      -- every path starts with an own name
      have hhead : ∀ kv ∈ params, (partition kv.1).1 ∈ (h i).names ∧
          ((partition kv.1).2 = none → kv.1 ∈ (h i).names ∧ ∃ x, find kv.1 (h i).attrs = some (.plain x)) ∧
          (∀ p, (partition kv.1).2 = some p → ∃ j t q x, find (partition kv.1).1 (h i).attrs = some (.obj j) ∧ At h j p t q ∧
            find q (h t).attrs = some (.plain x)) := by
        intro kv hkv
        obtain ⟨⟨t, q, x, hat, hx⟩, _⟩ := hp kv hkv
        generalize hk : kv.1 = k at hat ⊢
        cases hat with
        | own hm =>
          rw [partition_tame ((hD i).2 _ hm)]
          exact ⟨hm, fun _ => ⟨hm, x, hx⟩, by simp⟩
        | sub hm hj hat =>
          rename_i j k p
          rw [partition_join ((hD i).2 _ hm)]
          refine ⟨hm, by simp, ?_⟩
          intro p' hp'
          cases hp'
          exact ⟨j, t, q, x, hj, hat, hx⟩
      have ha := assign_split i params ⟨h, d, []⟩ (by
        intro kv hkv
        obtain ⟨w, _, hw⟩ := getParams_own hD hd (hhead kv hkv).1
        dsimp only
        rw [hw]
        rfl)
      have hset : setParams (f + 1) h i params = assignNested (setParams f)
          ((params.filter isOwn).foldl (fun d kv => put kv.1 kv.2 d) d) (params.foldl addNested [])
          ((params.filter isOwn).foldl (fun h kv => setAttr h i kv.1 kv.2) h) := by
        rw [← hparams] at ha ⊢
        simp only [setParams, hd, ha]
      clear ha
      obtain ⟨g1, g2, g3, g4⟩ := addNested_spec params [] (by simp) (by simp)
      obtain ⟨o1, o2⟩ := foldl_setAttr i (params.filter isOwn) h
      generalize hg0 : (params.filter isOwn).foldl (fun h kv => setAttr h i kv.1 kv.2) h = g0 at *
      generalize hn : params.foldl addNested [] = n at *
      generalize hval : (params.filter isOwn).foldl (fun d kv => put kv.1 kv.2 d) d = valid at *
      have hown : ∀ kv ∈ params.filter isOwn, kv ∈ params ∧ (partition kv.1).2 = none := by
        intro kv hkv
        obtain ⟨a, b⟩ := List.mem_filter.mp hkv
        exact ⟨a, by simpa [isOwn] using b⟩
      have hsim0 : Similar h g0 := by
        refine ⟨o1, fun t q => ?_⟩
        rcases o2 t q with ⟨hh, _⟩ | ⟨kv, hkv, rfl, rfl, hh⟩
        · exact Or.inl hh
        · obtain ⟨hkv, hnone⟩ := hown kv hkv
          obtain ⟨_, hx⟩ := (hhead kv hkv).2.1 hnone
          obtain ⟨y, hy⟩ := (hp kv hkv).2
          exact Or.inr ⟨hx, ⟨y, by rw [hh, hy]⟩⟩
      have hvalid : ∀ key j, key ∈ (h i).names → find key (h i).attrs = some (.obj j) → find key valid = some (.obj j) := by
        intro key j hkey hj
        obtain ⟨w, hw, hwv⟩ := getParams_own hD hd hkey
        rw [hj] at hw
        cases hw
        rw [← hval]
        have : ∀ (own : Dict P) (d : Dict P), (∀ kv ∈ own, kv.1 ≠ key) → find key d = some (.obj j) →
            find key (own.foldl (fun d kv => put kv.1 kv.2 d) d) = some (.obj j) := by
          intro own
          induction own with
          | nil => intro d _ h; exact h
          | cons a own iho =>
            intro d h1 h2
            apply iho _ (fun kv hkv => h1 kv (by simp [hkv]))
            rw [find_put, if_neg (h1 a (by simp))]
            exact h2
        apply this _ _ ?_ hwv
        rintro kv hkv rfl
        obtain ⟨hkv, hnone⟩ := hown kv hkv
        obtain ⟨_, x, hx⟩ := (hhead kv hkv).2.1 hnone
        rw [hj] at hx
        cases hx
      -- what is known of a group
      have hgroup : ∀ gr ∈ n, gr.1 ∈ (h i).names ∨ gr.2 = [] := by
        intro gr hgr
        cases hs : gr.2 with
        | nil => exact Or.inr rfl
        | cons a b =>
          left
          rcases g3 gr.1 gr.2 a.1 a.2 (mem_find g1 hgr) (by simp [hs, find]) with ⟨kv, hkv, hpart, _⟩ | ⟨_, h0, _⟩
          · have := (hhead kv hkv).1
            rwa [hpart] at this
          · simp [find] at h0
      have hmem : ∀ gr ∈ n, ∀ a ∈ gr.2, ∃ kv ∈ params, partition kv.1 = (gr.1, some a.1) ∧ kv.2 = a.2 := by
        intro gr hgr a ha
        rcases g3 gr.1 gr.2 a.1 a.2 (mem_find g1 hgr) (mem_find (g2 gr hgr) ha) with hh | ⟨_, h0, _⟩
        · exact hh
        · simp [find] at h0
      have hne : ∀ gr ∈ n, gr.2 ≠ [] := by
        have : ∀ (ps : Dict P) (m : List (Name × Dict P)), (∀ gr ∈ m, gr.2 ≠ []) → ∀ gr ∈ ps.foldl addNested m, gr.2 ≠ [] := by
          intro ps
          induction ps with
          | nil => intro m hm; exact hm
          | cons a ps ihp =>
            intro m hm
            apply ihp
            unfold addNested
            split
            · exact hm
            · intro gr hgr
              rcases mem_put hgr with hgr | rfl
              · exact hm gr hgr
              · exact put_ne_nil _ _ _
        intro gr hgr
        exact this params [] (by simp) gr (by rw [hn]; exact hgr)
      have hobj : ∀ gr ∈ n, ∃ j, gr.1 ∈ (h i).names ∧ find gr.1 (h i).attrs = some (.obj j) := by
        intro gr hgr
        obtain ⟨a, ha⟩ := List.exists_mem_of_ne_nil _ (hne gr hgr)
        obtain ⟨kv, hkv, hpart, _⟩ := hmem gr hgr a ha
        obtain ⟨j, _, _, _, hj, _⟩ := (hhead kv hkv).2.2 a.1 (by rw [hpart])
        rw [hpart] at hj
        have := (hhead kv hkv).1
        rw [hpart] at this
        exact ⟨j, this, hj⟩
      -- the second loop
      have hloop : ∀ (m : List (Name × Dict P)) (g : Heap P), (∀ gr ∈ m, gr ∈ n) → Similar h g →
          ∃ h', assignNested (setParams f) valid m g = (h', none) ∧ Similar h h' ∧
            ∀ t q, (find q (h' t).attrs = find q (g t).attrs ∧
                ∀ gr ∈ m, ∀ j, find gr.1 (h i).attrs = some (.obj j) → ∀ a ∈ gr.2, ¬ At h j a.1 t q) ∨
              ∃ gr ∈ m, ∃ j, find gr.1 (h i).attrs = some (.obj j) ∧ ∃ a ∈ gr.2, At h j a.1 t q ∧
                find q (h' t).attrs = some a.2 := by
        intro m
        induction m with
        | nil => intro g _ hs; exact ⟨g, rfl, hs, fun t q => Or.inl ⟨rfl, by simp⟩⟩
        | cons gr m ihm =>
          intro g hm hs
          have hgr := hm gr (by simp)
          obtain ⟨j, hkey, hj⟩ := hobj gr hgr
          have hfine := (getParams_eq hD hd).2 gr.1 hkey
          obtain ⟨w, hw, hdj⟩ := hfine
          rw [hj] at hw
          cases hw
          obtain ⟨dj, hdj⟩ := hdj j rfl
          obtain ⟨dj', hdj'⟩ := hs.getParams hD f j dj hdj
          obtain ⟨g', hg', hsim', heff⟩ := ih g (hs.declared hD) j dj' gr.2 hdj' (by
            intro a ha
            obtain ⟨kv, hkv, hpart, hva⟩ := hmem gr hgr a ha
            obtain ⟨j', t, q, x, hj', hat, hx⟩ := (hhead kv hkv).2.2 a.1 (by rw [hpart])
            rw [hpart, hj] at hj'
            cases hj'
            refine ⟨?_, by rw [← hva]; exact (hp kv hkv).2⟩
            rcases hs.2 t q with he | ⟨_, y, hy⟩
            · exact ⟨t, q, x, hs.at.mpr hat, by rw [he, hx]⟩
            · exact ⟨t, q, y, hs.at.mpr hat, hy⟩)
          obtain ⟨h', hh', hsim'', heff'⟩ := ihm g' (fun x hx => hm x (by simp [hx])) (hs.trans hsim')
          refine ⟨h', ?_, hsim'', ?_⟩
          · obtain ⟨k1, k2⟩ := gr
            simp only [assignNested, hvalid k1 j hkey hj, hg']
            exact hh'
          · intro t q
            rcases heff' t q with ⟨e1, e2⟩ | ⟨gr', hgr', hh⟩
            · rcases heff t q with ⟨e3, e4⟩ | ⟨a, ha, hat, hv⟩
              · refine Or.inl ⟨e1.trans e3, ?_⟩
                intro gr' hgr' j' hj' a ha hat
                rcases List.mem_cons.mp hgr' with rfl | hgr'
                · rw [hj] at hj'
                  cases hj'
                  exact e4 a ha (hs.at.mpr hat)
                · exact e2 gr' hgr' j' hj' a ha hat
              · exact Or.inr ⟨gr, by simp, j, hj, a, ha, hs.at.mp hat, by rw [e1, hv]⟩
            · exact Or.inr ⟨gr', by simp [hgr'], hh⟩
      obtain ⟨h', hh', hsim, heff⟩ := hloop n g0 (fun _ hx => hx) hsim0
      refine ⟨h', by rw [hset, hh'], hsim, ?_⟩
      intro t q
      rcases heff t q with ⟨e1, e2⟩ | ⟨gr, hgr, j, hj, a, ha, hat, hv⟩
      · rcases o2 t q with ⟨e3, e4⟩ | ⟨kv, hkv, rfl, rfl, hh⟩
        · refine Or.inl ⟨e1.trans e3, ?_⟩
          intro kv hkv hat
          generalize hk : kv.1 = k at hat
          cases hat with
          | own hm =>
            have : (partition kv.1).2 = none := by rw [hk, partition_tame ((hD _).2 _ hm)]
            exact e4 kv (List.mem_filter.mpr ⟨hkv, by simp [isOwn, this]⟩) ⟨rfl, hk⟩
          | sub hm hj hat =>
            rename_i j k p
            have hpart : partition kv.1 = (k, some p) := by rw [hk, partition_join ((hD i).2 _ hm)]
            obtain ⟨sub, hs1, hs2⟩ := g4 k p (Or.inl ⟨kv, hkv, hpart⟩)
            obtain ⟨v, hv⟩ := Option.isSome_iff_exists.mp hs2
            exact e2 (k, sub) (find_mem hs1) j hj (p, v) (find_mem hv) hat
        · obtain ⟨hkv, hnone⟩ := hown kv hkv
          exact Or.inr ⟨kv, hkv, .own ((hhead kv hkv).2.1 hnone).1, by rw [e1, hh]⟩
      · obtain ⟨kv, hkv, hpart, hva⟩ := hmem gr hgr a ha
        have hk : kv.1 = join gr.1 a.1 := by
          have := partition_some (k := kv.1) (p := a.1) (by rw [hpart])
          rwa [hpart] at this
        have hm := (hhead kv hkv).1
        rw [hpart] at hm
        refine Or.inr ⟨kv, hkv, ?_, by rw [hv, hva]⟩
        rw [hk]
        exact .sub hm hj hat

/-- **C110.** Replacing a nested estimator and setting one of its parameters in the same call: the parameter goes to the new
estimator, whichever comes first in the call. -/
theorem C110_replace {h : Heap P} (hD : Declared h) {f i j t : Nat} {a p q : Name} {d d' : Dict P} {v : Val P}
    (hd : getParams h (f + 1) true i = .ok d) (ha : a ∈ (h i).names)
    (hat : At (setAttr h i a (.obj j)) j p t q) (hd' : getParams (setAttr h i a (.obj j)) f true j = .ok d') :
    setParams (f + 1) h i [(a, .obj j), (join a p, v)] = (setAttr (setAttr h i a (.obj j)) t q v, none) ∧
    setParams (f + 1) h i [(join a p, v), (a, .obj j)] = (setAttr (setAttr h i a (.obj j)) t q v, none) := by
  have hD' : Declared (setAttr h i a (.obj j)) := by
    intro k
    rw [setAttr_names]
    exact hD k
  have ht := (hD i).2 a ha
  obtain ⟨w, _, hwv⟩ := getParams_own hD hd ha
  have hset := C110_set_path hD' hat f d' v hd'
  constructor
  · simp [setParams, hd, assign, partition_tame ht, partition_join ht, hwv, find_put, putNested, put, find, assignNested, hset]
  · simp [setParams, hd, assign, partition_tame ht, partition_join ht, hwv, find_put, putNested, put, find, assignNested, hset]

/-- **C111.** `name__rest` for a parameter whose value has no parameters raises `AttributeError`; nothing was set. -/
theorem C111_plain_value {h : Heap P} (hD : Declared h) {f i : Nat} {a p : Name} {d : Dict P} {v : Val P} {x : P}
    (hd : getParams h (f + 1) true i = .ok d) (ha : a ∈ (h i).names) (hx : find a (h i).attrs = some (.plain x)) :
    setParams (f + 1) h i [(join a p, v)] = (h, some .attribute) := by
  obtain ⟨w, hw, hwv⟩ := getParams_own hD hd ha
  rw [hx] at hw
  cases hw
  simp [setParams, hd, assign, partition_join ((hD i).2 a ha), hwv, putNested, put, find, assignNested]

theorem collect_missing {nested : Nat → Except Err (Dict P)} {deep : Bool} {o : Obj P} {a : Name}
    (hx : find a o.attrs = none) : ∀ (keys : List Name) (out : Dict P), a ∈ keys →
    ∃ e, collect nested deep o keys out = .error e := by
  intro keys
  induction keys with
  | nil => intro out h; simp at h
  | cons key keys ih =>
    intro out hm
    by_cases hk : key = a
    · subst hk
      exact ⟨.attribute, by simp [collect, hx]⟩
    · have hm' : a ∈ keys := by
        rcases List.mem_cons.mp hm with h | h
        · exact absurd h.symm hk
        · exact h
      cases hf : find key o.attrs with
      | none => exact ⟨.attribute, by simp [collect, hf]⟩
      | some w =>
        cases w with
        | plain x =>
          simp only [collect, hf]
          exact ih _ hm'
        | obj j =>
          simp only [collect, hf]
          cases deep with
          | true =>
            simp only [if_true]
            cases hj : nested j with
            | error e => exact ⟨e, rfl⟩
            | ok dj => exact ih _ hm'
          | false =>
            simp only [Bool.false_eq_true, if_false]
            exact ih _ hm'

/-- **C111.** An estimator that does not keep one of its constructor's arguments under its name can neither be read nor set:
`get_params` raises for both values of `deep`, and `set_params` of anything raises before it changes anything. -/
theorem C111_missing_attribute {h : Heap P} {i : Nat} {a : Name} (ha : a ∈ (h i).names)
    (hx : find a (h i).attrs = none) (fuel : Nat) (deep : Bool) :
    (∃ e, getParams h fuel deep i = .error e) ∧
    ∀ (kv : Name × Val P) (params : Dict P), ∃ e, setParams fuel h i (kv :: params) = (h, some e) := by
  have : ∀ deep, ∃ e, getParams h fuel deep i = .error e := by
    intro deep
    cases fuel with
    | zero => exact ⟨.recursion, rfl⟩
    | succ f => exact collect_missing hx _ _ ha
  refine ⟨this deep, ?_⟩
  intro kv params
  obtain ⟨e, he⟩ := this true
  cases fuel with
  | zero => exact ⟨.recursion, rfl⟩
  | succ f => exact ⟨e, by simp [setParams, he]⟩

/-- **C111, refuted.** `SLearner` (its constructor has `*args` and `**kwargs`) and `CausalForest` (its constructor passes
`n_estimators` and others on, without keeping them) are such estimators: their parameters can neither be read nor set. -/
theorem C111_classes_refuted (h : Heap P) (i : Nat)
    (hc : ((h i).names = sLearnerNames ∧ (h i).attrs.map Prod.fst = sLearnerAttrs) ∨
      ((h i).names = causalForestNames ∧ (h i).attrs.map Prod.fst = causalForestAttrs)) (fuel : Nat) (deep : Bool) :
    (∃ e, getParams h fuel deep i = .error e) ∧
    ∀ (kv : Name × Val P) (params : Dict P), ∃ e, setParams fuel h i (kv :: params) = (h, some e) := by
  rcases hc with ⟨h1, h2⟩ | ⟨h1, h2⟩
  · refine C111_missing_attribute (a := "kwargs".toList) ?_ ?_ fuel deep
    · rw [h1]; decide
    · rw [find_none, h2]; decide
  · refine C111_missing_attribute (a := "n_estimators".toList) ?_ ?_ fuel deep
    · rw [h1]; decide
    · rw [find_none, h2]; decide

theorem at_last {h : Heap P} {i t : Nat} {path q : Name} (hat : At h i path t q) : path = q ∨ ∃ pre, path = pre ++ '_' :: '_' :: q := by
  induction hat with
  | own _ => exact Or.inl rfl
  | sub _ _ _ ih =>
    rename_i k _ _ _ _ _
    right
    rcases ih with rfl | ⟨pre, rfl⟩
    · exact ⟨k, rfl⟩
    · exact ⟨k ++ '_' :: '_' :: pre, by simp [join]⟩

theorem isSeed_at {h : Heap P} {i t : Nat} {path : Name} (hat : At h i path t "random_state".toList) : isSeed path = true := by
  rcases at_last hat with rfl | ⟨pre, rfl⟩
  · simp [isSeed]
  · have : "__random_state".toList <:+ pre ++ '_' :: '_' :: "random_state".toList := ⟨pre, by rfl⟩
    simp only [isSeed, Bool.or_eq_true]
    exact Or.inr (List.isSuffixOf_iff_suffix.mpr this)

theorem seeds_spec (draw : Nat → Val P) : ∀ (keys : List Name) (n : Nat), keys.Nodup →
    (∀ kv ∈ seeds draw keys n, kv.1 ∈ keys ∧ isSeed kv.1 = true) ∧
    (∀ k ∈ keys, isSeed k = true → ∃ v, (k, v) ∈ seeds draw keys n) ∧
    ∃ num : Name → Nat, (∀ kv ∈ seeds draw keys n, kv.2 = draw (num kv.1) ∧ n ≤ num kv.1) ∧
      ∀ kv ∈ seeds draw keys n, ∀ kv' ∈ seeds draw keys n, num kv.1 = num kv'.1 → kv.1 = kv'.1 := by
  intro keys
  induction keys with
  | nil => intro n _; exact ⟨by simp [seeds], by simp, fun _ => 0, by simp [seeds], by simp [seeds]⟩
  | cons k keys ih =>
    intro n hnd
    simp only [List.nodup_cons] at hnd
    by_cases hk : isSeed k = true
    · obtain ⟨a, b, num, c, e⟩ := ih (n + 1) hnd.2
      simp only [seeds, hk, if_true]
      have hne : ∀ kv ∈ seeds draw keys (n + 1), kv.1 ≠ k := fun kv hkv hh => hnd.1 (hh ▸ (a kv hkv).1)
      refine ⟨?_, ?_, fun x => if x = k then n else num x, ?_, ?_⟩
      · intro kv hkv
        rcases List.mem_cons.mp hkv with rfl | hkv
        · exact ⟨by simp, hk⟩
        · exact ⟨by simp [(a kv hkv).1], (a kv hkv).2⟩
      · intro k' hk' hs
        rcases List.mem_cons.mp hk' with rfl | hk'
        · exact ⟨draw n, by simp⟩
        · obtain ⟨v, hv⟩ := b k' hk' hs
          exact ⟨v, by simp [hv]⟩
      · intro kv hkv
        rcases List.mem_cons.mp hkv with rfl | hkv
        · simp
        · obtain ⟨c1, c2⟩ := c kv hkv
          simp only [if_neg (hne kv hkv)]
          exact ⟨c1, by omega⟩
      · intro kv hkv kv' hkv' hh
        rcases List.mem_cons.mp hkv with rfl | hkv <;> rcases List.mem_cons.mp hkv' with rfl | hkv'
        · rfl
        · simp only [if_true, if_neg (hne kv' hkv')] at hh
          have := (c kv' hkv').2
          omega
        · simp only [if_true, if_neg (hne kv hkv)] at hh
          have := (c kv hkv).2
          omega
        · simp only [if_neg (hne kv hkv), if_neg (hne kv' hkv')] at hh
          exact e kv hkv kv' hkv' hh
    · obtain ⟨a, b, num, c, e⟩ := ih n hnd.2
      simp only [seeds, hk, if_false]
      refine ⟨fun kv hkv => ⟨by simp [(a kv hkv).1], (a kv hkv).2⟩, ?_, num, c, e⟩
      intro k' hk' hs
      rcases List.mem_cons.mp hk' with rfl | hk'
      · exact absurd hs hk
      · exact b k' hk' hs

/-- **C110.** How a forest seeds the copy of its base estimator: every `random_state` at any depth gets a draw of its own,
and every attribute no seed name leads to stays. -/
theorem C110_seeds {h : Heap P} (hD : Declared h) {fuel i : Nat} {d : Dict P} (hd : getParams h fuel true i = .ok d)
    (draw : Nat → Val P) (hdraw : ∀ n, ∃ y, draw n = .plain y)
    (hplain : ∀ path t q v, At h i path t q → isSeed path = true → find q (h t).attrs = some v → ∃ x, v = .plain x) :
    ∃ h' : Heap P, reseed fuel h i draw = (h', none) ∧ ∃ num : Name → Nat,
      (∀ path t v, At h i path t "random_state".toList → find "random_state".toList (h t).attrs = some v →
        ∃ path', At h i path' t "random_state".toList ∧
          find "random_state".toList (h' t).attrs = some (draw (num path'))) ∧
      (∀ p ∈ d.map Prod.fst, ∀ p' ∈ d.map Prod.fst, isSeed p = true → isSeed p' = true → num p = num p' → p = p') ∧
      ∀ t q, (∀ path, At h i path t q → isSeed path = false) → find q (h' t).attrs = find q (h t).attrs := by
  obtain ⟨hnd, hval⟩ := C110_get_params hD fuel i d hd
  obtain ⟨a, b, num, c, e⟩ := seeds_spec draw (d.map Prod.fst) 0 hnd
  obtain ⟨h', hh', _, heff⟩ := C110_set_many fuel h hD i d (seeds draw (d.map Prod.fst) 0) hd (by
    intro kv hkv
    obtain ⟨a1, a2⟩ := a kv hkv
    refine ⟨?_, by rw [(c kv hkv).1]; exact hdraw _⟩
    obtain ⟨en, hen, hek⟩ := List.mem_map.mp a1
    have := mem_find hnd (show (en.1, en.2) ∈ d from hen)
    rw [hek] at this
    obtain ⟨t, q, hat, hq⟩ := (hval kv.1 en.2).mp this
    obtain ⟨x, hx⟩ := hplain kv.1 t q en.2 hat a2 hq
    exact ⟨t, q, x, hat, by rw [hq, hx]⟩)
  refine ⟨h', by simp [reseed, hd, hh'], num, ?_, ?_, ?_⟩
  · intro path t v hat hv
    have hin : path ∈ d.map Prod.fst := List.mem_map.mpr ⟨(path, v), find_mem ((hval path v).mpr ⟨t, _, hat, hv⟩), rfl⟩
    obtain ⟨w, hw⟩ := b path hin (isSeed_at hat)
    rcases heff t "random_state".toList with ⟨_, h2⟩ | ⟨kv, hkv, hat', hv'⟩
    · exact absurd hat (h2 (path, w) hw)
    · exact ⟨kv.1, hat', by rw [hv', (c kv hkv).1]⟩
  · intro p hp p' hp' hs hs' hh
    obtain ⟨w, hw⟩ := b p hp hs
    obtain ⟨w', hw'⟩ := b p' hp' hs'
    exact e _ hw _ hw' hh
  · intro t q hq
    rcases heff t q with ⟨h1, _⟩ | ⟨kv, hkv, hat', _⟩
    · exact h1
    · have := (a kv hkv).2
      rw [hq kv.1 hat'] at this
      cases this

/-! ### Examples -/

/-- `DoubleML(x_model=E, y_model=E', cf_fold=1)` with two nested estimators (1, 2) that have `depth` and `random_state` -/
def sampleHeap : Heap Nat := fun i =>
  if i = 0 then ⟨["cf_fold", "x_model", "y_model"].map String.toList,
    [("cf_fold".toList, .plain 1), ("x_model".toList, .obj 1), ("y_model".toList, .obj 2)]⟩
  else if i = 1 then ⟨["depth", "random_state"].map String.toList, [("depth".toList, .plain 3), ("random_state".toList, .plain 7)]⟩
  else if i = 2 then ⟨["depth", "random_state"].map String.toList, [("random_state".toList, .plain 8), ("depth".toList, .plain 5)]⟩
  else ⟨[], []⟩

theorem tame_of {n : Name} (h : (List.range (n.length + 1)).all (fun k => !(['_', '_'].isPrefixOf ((n ++ ['_']).drop k)))) :
    Tame n := by
  rintro ⟨s, t, hst⟩
  have hlen : s.length < n.length + 1 := by
    have := congrArg List.length hst
    simp at this
    omega
  have := List.all_eq_true.mp h s.length (List.mem_range.mpr hlen)
  rw [← hst] at this
  simp at this

theorem sample_declared : Declared sampleHeap := by
  intro i
  by_cases h0 : i = 0
  · subst h0
    refine ⟨by decide, ?_⟩
    intro n hn
    fin_cases hn <;> exact tame_of (by decide)
  · by_cases h1 : i = 1
    · subst h1
      refine ⟨by decide, ?_⟩
      intro n hn
      fin_cases hn <;> exact tame_of (by decide)
    · by_cases h2 : i = 2
      · subst h2
        refine ⟨by decide, ?_⟩
        intro n hn
        fin_cases hn <;> exact tame_of (by decide)
      · simp [sampleHeap, h0, h1, h2]

/-- the parameters are read with their paths -/
example : (getParams sampleHeap 5 true 0).toOption.map (fun d => d.map fun kv => String.ofList kv.1) =
    some ["cf_fold", "x_model__depth", "x_model__random_state", "x_model", "y_model__depth", "y_model__random_state",
      "y_model"] := by decide +kernel

/-- a path of the example -/
example : At sampleHeap 0 "y_model__depth".toList 2 "depth".toList :=
  .sub (k := "y_model".toList) (p := "depth".toList) (j := 2) (by decide) (by decide) (.own (by decide))

/-- setting it -/
example : (setParams 5 sampleHeap 0 [("y_model__depth".toList, .plain 9), ("cf_fold".toList, .plain 2)]).2 = none ∧
    find "depth".toList ((setParams 5 sampleHeap 0 [("y_model__depth".toList, .plain 9),
      ("cf_fold".toList, .plain 2)]).1 2).attrs = some (.plain 9) := by decide +kernel

/-- `set_params(x_model__depth=9, x_model=E')`: the new estimator gets the 9, the old one keeps its 3 -/
example : At (setAttr sampleHeap 0 "x_model".toList (.obj 2)) 2 "depth".toList 2 "depth".toList ∧
    (getParams (setAttr sampleHeap 0 "x_model".toList (.obj 2)) 4 true 2).toOption.isSome ∧
    find "depth".toList ((setParams 5 sampleHeap 0 [("x_model__depth".toList, .plain 9),
      ("x_model".toList, .obj 2)]).1 2).attrs = some (.plain 9) ∧
    find "depth".toList ((setParams 5 sampleHeap 0 [("x_model__depth".toList, .plain 9),
      ("x_model".toList, .obj 2)]).1 1).attrs = some (.plain 3) :=
  ⟨.own (by decide), by decide +kernel, by decide +kernel, by decide +kernel⟩

/-- seeding the example: both nested seeds get draws of their own -/
example : find "random_state".toList ((reseed 5 sampleHeap 0 (fun n => .plain (100 + n))).1 1).attrs = some (.plain 100) ∧
    find "random_state".toList ((reseed 5 sampleHeap 0 (fun n => .plain (100 + n))).1 2).attrs = some (.plain 101) := by
  decide +kernel

/-- the two classes are there -/
example : ∃ h : Heap Nat, (h 0).names = sLearnerNames ∧ (h 0).attrs.map Prod.fst = sLearnerAttrs :=
  ⟨fun _ => ⟨sLearnerNames, sLearnerAttrs.map fun k => (k, .plain 0)⟩, rfl, by simp [List.map_map, Function.comp_def]⟩

/-- **C111, refuted.** `set_params` is not all or nothing: `set_params(cf_fold=2, folds=3)` raises and has set `cf_fold`. -/
theorem C111_atomic_refuted : ∃ (h : Heap Nat) (params : Dict Nat), Declared h ∧
    (setParams 5 h 0 params).2 = some .value ∧
    find "cf_fold".toList (h 0).attrs = some (.plain 1) ∧
    find "cf_fold".toList ((setParams 5 h 0 params).1 0).attrs = some (.plain 2) :=
  ⟨sampleHeap, [("cf_fold".toList, .plain 2), ("folds".toList, .plain 3)], sample_declared, by decide +kernel,
    by decide +kernel, by decide +kernel⟩

end YL.Props
