import Verif.Model.Utils
import Mathlib.Data.List.Flatten

/-!
# C49, C53, C55: utils/_common.py
-/

set_option linter.unusedSectionVars false

namespace YL.Props

open YL Utils

/-! ### C49: to_list and join_list -/

/-- **C49**: applying `to_list` to its own answer changes nothing. -/
theorem C49_to_list_idempotent (ws : Char → Bool) (v r : PArg (List Char)) (h : toList ws v = .ok r) : toList ws r = .ok r := by
  cases v <;> simp only [toList, Except.ok.injEq, reduceCtorEq] at h <;> subst h <;> rfl

/-- the items an argument stands for -/
def items (ws : Char → Bool) : PArg (List Char) → List (List Char)
  | .none => []
  | .list l => l
  | .tuple l => l
  | .str s => parseNames ws s
  | .other => []

/-- **C49**: `join_list` concatenates the items of its arguments in order, and fails exactly when one of them is neither
`None` nor list, tuple or string. -/
theorem C49_join_list (ws : Char → Bool) (args : List (PArg (List Char))) :
    joinList ws args = if PArg.other ∈ args then .error .value else .ok ((args.map (items ws)).flatten) := by
  induction args with
  | nil => rfl
  | cons a as ih =>
    unfold joinList
    rw [ih]
    by_cases h : PArg.other ∈ as
    · rw [if_pos h, if_pos (by simp [h])]
    · rw [if_neg h]
      cases a <;> simp [h, items]

theorem splitOn_no_sep {c : Char} {s : List Char} : ∀ w ∈ splitOn c s, c ∉ w := by
  induction s with
  | nil => simp [splitOn]
  | cons a s ih =>
    unfold splitOn
    split
    · intro w hw
      rcases List.mem_cons.1 hw with rfl | hw
      · simp
      · exact ih w hw
    · rename_i hac
      split
      · intro w hw
        simp only [List.mem_singleton] at hw
        subst hw
        simpa using fun h => hac h.symm
      · rename_i w ws hws
        rw [hws] at ih
        intro w' hw'
        rcases List.mem_cons.1 hw' with rfl | hw'
        · have := ih w (by simp)
          simp only [List.mem_cons, not_or]
          exact ⟨fun h => hac h.symm, this⟩
        · exact ih w' (by simp [hw'])

theorem splitOn_append {c : Char} {w s : List Char} (hw : c ∉ w) : splitOn c (w ++ c :: s) = w :: splitOn c s := by
  induction w with
  | nil => simp [splitOn]
  | cons a w ih =>
    simp only [List.mem_cons, not_or] at hw
    rw [List.cons_append, splitOn, if_neg (fun h => hw.1 h.symm), ih hw.2]

theorem splitOn_single {c : Char} {w : List Char} (hw : c ∉ w) : splitOn c w = [w] := by
  induction w with
  | nil => rfl
  | cons a w ih =>
    simp only [List.mem_cons, not_or] at hw
    rw [splitOn, if_neg (fun h => hw.1 h.symm), ih hw.2]

theorem strip_pad {ws : Char → Bool} {l w r : List Char} (hl : ∀ c ∈ l, ws c) (hr : ∀ c ∈ r, ws c) (hw : strip ws w = w) (hne : w ≠ []) :
    strip ws (l ++ w ++ r) = w := by
  have h1 : w.dropWhile ws = w := by
    unfold strip at hw
    have hlen := congrArg List.length hw
    rw [List.length_reverse] at hlen
    have a1 : ((w.dropWhile ws).reverse.dropWhile ws).length ≤ (w.dropWhile ws).length := by
      simpa using (List.dropWhile_suffix ws (l := (w.dropWhile ws).reverse)).length_le
    have a2 := (List.dropWhile_suffix ws (l := w)).length_le
    exact (List.dropWhile_suffix ws).eq_of_length (by omega)
  have h2 : w.reverse.dropWhile ws = w.reverse := by
    unfold strip at hw
    rw [h1] at hw
    rw [← List.reverse_reverse (w.reverse.dropWhile ws), hw]
  unfold strip
  have e1 : (l ++ w ++ r).dropWhile ws = w ++ r := by
    rw [List.append_assoc, List.dropWhile_append_of_pos hl]
    cases w with
    | nil => exact absurd rfl hne
    | cons a w =>
      have ha : ¬ ws a = true := by
        intro ha
        rw [List.dropWhile_cons_of_pos ha] at h1
        have := (List.dropWhile_suffix ws (l := w)).length_le
        rw [h1] at this
        simp only [List.length_cons] at this
        omega
      rw [List.cons_append, List.dropWhile_cons_of_neg ha]
  rw [e1, List.reverse_append, List.dropWhile_append_of_pos (by simpa using hr), h2, List.reverse_reverse]

/-- the strings that spell a list of names: the names in order, separated by commas, with any white space around them and
possibly empty entries -/
inductive Spells (ws : Char → Bool) : List (List Char) → List Char → Prop where
  | blank {l} : (∀ c ∈ l, ws c) → Spells ws [] l
  | last {l w r} : (∀ c ∈ l, ws c) → (∀ c ∈ r, ws c) → Spells ws [w] (l ++ w ++ r)
  | skip {l ns s} : (∀ c ∈ l, ws c) → Spells ws ns s → Spells ws ns (l ++ ',' :: s)
  | next {l w r ns s} : (∀ c ∈ l, ws c) → (∀ c ∈ r, ws c) → Spells ws ns s → Spells ws (w :: ns) (l ++ w ++ r ++ ',' :: s)

theorem strip_blank {ws : Char → Bool} {l : List Char} (hl : ∀ c ∈ l, ws c) : strip ws l = [] := by
  unfold strip
  have : l.dropWhile ws = [] := by
    induction l with
    | nil => rfl
    | cons a l ih => rw [List.dropWhile_cons_of_pos (hl a (by simp))]; exact ih (fun c hc => hl c (by simp [hc]))
  rw [this]
  rfl

/-- **C49**: `to_list` on a string recovers the names it spells, whatever the white space and empty entries, provided the names are
not empty, contain no comma and do not begin or end with white space. -/
theorem C49_parse (ws : Char → Bool) (hc : ws ',' = false) {ns : List (List Char)} {s : List Char} (h : Spells ws ns s)
    (hn : ∀ w ∈ ns, w ≠ [] ∧ ',' ∉ w ∧ strip ws w = w) : toList ws (.str s) = .ok (.list ns) := by
  have hcomma : ∀ l : List Char, (∀ c ∈ l, ws c) → ',' ∉ l := fun l hl hm => by
    have := hl _ hm
    rw [hc] at this
    cases this
  have key : parseNames ws s = ns := by
    induction h with
    | blank hl =>
      unfold parseNames
      rw [splitOn_single (hcomma _ hl)]
      simp [strip_blank hl]
    | @last l w r hl hr =>
      obtain ⟨h1, h2, h3⟩ := hn w (by simp)
      unfold parseNames
      rw [splitOn_single (by simp [hcomma _ hl, hcomma _ hr, h2]), List.map_singleton, strip_pad hl hr h3 h1]
      simp [List.length_pos_iff.2 h1]
    | @skip l ns s hl _ ih =>
      unfold parseNames at ih ⊢
      rw [splitOn_append (hcomma _ hl)]
      simp only [List.map_cons, strip_blank hl]
      rw [List.filter_cons_of_neg (by simp)]
      exact ih hn
    | @next l w r ns s hl hr _ ih =>
      obtain ⟨h1, h2, h3⟩ := hn w (by simp)
      unfold parseNames at ih ⊢
      rw [splitOn_append (by simp [hcomma _ hl, hcomma _ hr, h2])]
      simp only [List.map_cons, strip_pad hl hr h3 h1]
      rw [List.filter_cons_of_pos (by simp [List.length_pos_iff.2 h1])]
      rw [ih (fun w hw => hn w (by simp [hw]))]
  simp only [toList, key]

theorem strip_strip (ws : Char → Bool) (s : List Char) : strip ws (strip ws s) = strip ws s := by
  have h1 : ∀ t : List Char, (t.dropWhile ws).dropWhile ws = t.dropWhile ws := by
    intro t
    induction t with
    | nil => rfl
    | cons a t ih =>
      by_cases h : ws a
      · rw [List.dropWhile_cons_of_pos h]; exact ih
      · rw [List.dropWhile_cons_of_neg h, List.dropWhile_cons_of_neg h]
  -- the stripped string does not begin with white space
  have h2 : (strip ws s).dropWhile ws = strip ws s := by
    unfold strip
    generalize hu : s.dropWhile ws = u
    have hu' : u.dropWhile ws = u := by rw [← hu]; exact h1 s
    have hpre : ((u.reverse.dropWhile ws).reverse) <+: u := by
      have := List.reverse_prefix.2 (List.dropWhile_suffix ws (l := u.reverse))
      rwa [List.reverse_reverse] at this
    obtain ⟨t, ht⟩ := hpre
    generalize hp : (u.reverse.dropWhile ws).reverse = p at *
    cases p with
    | nil => rfl
    | cons a p =>
      by_cases ha : ws a
      · rw [← ht, List.cons_append, List.dropWhile_cons_of_pos ha] at hu'
        have := (List.dropWhile_suffix ws (l := p ++ t)).length_le
        rw [hu'] at this
        simp only [List.length_cons] at this
        omega
      · rw [List.dropWhile_cons_of_neg ha]
  show (((strip ws s).dropWhile ws).reverse.dropWhile ws).reverse = strip ws s
  rw [h2]
  unfold strip
  rw [List.reverse_reverse, h1]

/-- **C49**: the names found in a string are never empty, contain no comma and carry no white space at their ends. -/
theorem C49_parse_clean (ws : Char → Bool) (s : List Char) :
    ∃ ns, toList ws (.str s) = .ok (.list ns) ∧ ∀ w ∈ ns, w ≠ [] ∧ ',' ∉ w ∧ strip ws w = w := by
  refine ⟨_, rfl, fun w hw => ?_⟩
  unfold parseNames at hw
  rw [List.mem_filter, List.mem_map] at hw
  obtain ⟨⟨u, hu, rfl⟩, hpos⟩ := hw
  refine ⟨by intro h; rw [h] at hpos; simp at hpos, ?_, strip_strip ws u⟩
  intro hm
  have h0 := splitOn_no_sep u hu
  apply h0
  unfold strip at hm
  rw [List.mem_reverse] at hm
  have := (List.dropWhile_suffix ws).mem hm
  rw [List.mem_reverse] at this
  exact (List.dropWhile_suffix ws).mem this

/-- a concrete string with spaces and an empty entry -/
example : Spells (fun c => c = ' ') [['a'], ['b', 'c']] [' ', 'a', ',', ' ', ',', 'b', 'c', ' '] :=
  .next (l := [' ']) (w := ['a']) (r := []) (by simp) (by simp)
    (.skip (l := [' ']) (by simp) (.last (l := []) (w := ['b', 'c']) (r := [' ']) (by simp) (by simp)))

example : toList (fun c => c = ' ') (.str [' ', 'a', ',', ' ', ',', 'b', 'c', ' ']) = .ok (.list [['a'], ['b', 'c']]) := by decide

example : joinList (fun c => c = ' ') [.none, .str ['a', ',', 'b'], .tuple [['c']], .list [['a']]] = .ok [['a'], ['b'], ['c'], ['a']] := by decide

/-! ### C55: to_snake_case and to_camel_case -/

section
variable {up : Char → Bool} {lower : Char → List Char}

theorem snakeLoop_lower (hl : ∀ c, up c → ∀ d ∈ lower c, up d = false) (last : Option Bool) (s : List Char) (hu : up '_' = false) :
    ∀ d ∈ snakeLoop up lower last s, up d = false := by
  induction s generalizing last with
  | nil => simp [snakeLoop]
  | cons c s ih =>
    intro d hd
    unfold snakeLoop at hd
    rcases List.mem_append.1 hd with hd | hd
    · split at hd
      · rename_i hc
        rcases List.mem_append.1 hd with hd | hd
        · split at hd
          · simp only [List.mem_singleton] at hd
            rw [hd]; exact hu
          · simp at hd
        · exact hl c hc d hd
      · simp only [List.mem_singleton] at hd
        rename_i hc
        rw [hd]; simpa using hc
    · exact ih _ d hd

theorem snakeLoop_id {s : List Char} (h : ∀ d ∈ s, up d = false) (last : Option Bool) : snakeLoop up lower last s = s := by
  induction s generalizing last with
  | nil => rfl
  | cons c s ih =>
    have hc : up c = false := h c (by simp)
    simp [snakeLoop, hc, ih (fun d hd => h d (by simp [hd]))]

/-- **C55**: if lower-casing an upper case character gives no upper case character, then `to_snake_case` contains no upper case
character, does not begin with an underscore, and applying it again changes nothing. -/
theorem C55_snake (hl : ∀ c, up c → ∀ d ∈ lower c, up d = false) (hu : up '_' = false) (s : List Char) :
    (∀ d ∈ snake up lower s, up d = false) ∧ (snake up lower s).head? ≠ some '_' ∧ snake up lower (snake up lower s) = snake up lower s := by
  have h1 : ∀ d ∈ snake up lower s, up d = false := fun d hd =>
    snakeLoop_lower hl none s hu d ((List.dropWhile_suffix _).mem hd)
  have h2 : (snake up lower s).head? ≠ some '_' := by
    unfold snake
    generalize snakeLoop up lower none s = t
    induction t with
    | nil => simp
    | cons a t ih =>
      by_cases ha : a = '_'
      · rw [List.dropWhile_cons_of_pos (by simpa using ha)]; exact ih
      · rw [List.dropWhile_cons_of_neg (by simpa using ha)]; simpa using ha
  refine ⟨h1, h2, ?_⟩
  have : snake up lower (snake up lower s) = (snake up lower s).dropWhile (fun c => decide (c = '_')) := by
    show (snakeLoop up lower none (snake up lower s)).dropWhile _ = _
    rw [snakeLoop_id h1]
  rw [this]
  cases hs : snake up lower s with
  | nil => rfl
  | cons a t =>
    rw [hs] at h2
    rw [List.dropWhile_cons_of_neg (by simpa using h2)]

/-- the ASCII characters satisfy the hypotheses of `C55_snake` -/
theorem ascii_lower (c : Char) : c.isUpper → ∀ d ∈ [c.toLower], d.isUpper = false := by
  intro h d hd
  simp only [List.mem_singleton] at hd
  subst hd
  unfold Char.toLower
  have hc : 'A'.val ≤ c.val ∧ c.val ≤ 'Z'.val := by
    simpa [Char.isUpper] using h
  have h1 : (65 : Nat) ≤ c.val.toNat := UInt32.le_iff_toNat_le.1 hc.1
  have h2 : c.val.toNat ≤ 90 := UInt32.le_iff_toNat_le.1 hc.2
  rw [dif_pos ⟨hc.1, hc.2⟩]
  have h3 : (c.val + 32).toNat = c.val.toNat + 32 := by
    rw [UInt32.toNat_add]
    show (c.val.toNat + 32) % 4294967296 = _
    omega
  simp only [Char.isUpper, decide_eq_false_iff_not, UInt32.le_iff_toNat_le]
  rintro ⟨-, h4⟩
  have h5 : (c.val + 32).toNat ≤ 90 := h4
  omega

/-- **C55 (limit)**: with an upper case character that has no lower case form (Python has such characters, e.g. the mathematical
bold letters) `to_snake_case` is not idempotent: every application adds an underscore. -/
theorem C55_snake_refuted : ∃ (up : Char → Bool) (lower : Char → List Char) (s : List Char), up '_' = false ∧
    snake up lower s = ['a', '_', 'X'] ∧ snake up lower (snake up lower s) = ['a', '_', '_', 'X'] :=
  ⟨fun c => decide (c = 'X'), fun c => [c], ['a', 'X'], by decide, by decide, by decide⟩

/-- words joined by underscores -/
def joinWords : List (List Char) → List Char
  | [] => []
  | [w] => w
  | w :: ws => w ++ '_' :: joinWords ws

theorem splitOn_joinWords {ws : List (List Char)} (hne : ws ≠ []) (h : ∀ w ∈ ws, '_' ∉ w) : splitOn '_' (joinWords ws) = ws := by
  induction ws with
  | nil => exact absurd rfl hne
  | cons w ws ih =>
    cases ws with
    | nil => exact splitOn_single (h w (by simp))
    | cons w' ws =>
      show splitOn '_' (w ++ '_' :: joinWords (w' :: ws)) = _
      rw [splitOn_append (h w (by simp)), ih (by simp) (fun u hu => h u (by simp [hu]))]

/-- **C55**: `to_snake_case(to_camel_case(s)) = s` for snake case names: words of lower case letters joined by single
underscores, all but the last of at least two letters. `cap c` is the capital letter of `c`. -/
theorem C55_roundtrip {cased : Char → Bool} {title : Char → List Char} (cap : Char → Char) {ws : List (List Char)} (hne : ws ≠ [])
    (hw : ∀ w ∈ ws, w ≠ [] ∧ ∀ c ∈ w, c ≠ '_' ∧ cased c = true ∧ up c = false ∧ lower c = [c] ∧ title c = [cap c] ∧ up (cap c) = true ∧
      lower (cap c) = [c])
    (h2 : ∀ w ∈ ws.dropLast, 2 ≤ w.length) :
    snake up lower (camel cased title lower (joinWords ws)) = joinWords ws := by
  have hcamel : camel cased title lower (joinWords ws) = (ws.map (titleLoop cased title lower false)).flatten := by
    unfold camel
    rw [splitOn_joinWords hne (fun w hm hu => ((hw w hm).2 _ hu).1 rfl)]
  have htail : ∀ w : List Char, (∀ c ∈ w, cased c = true ∧ lower c = [c]) → titleLoop cased title lower true w = w := by
    intro w
    induction w with
    | nil => intro _; rfl
    | cons c w ih =>
      intro h
      have := h c (by simp)
      simp [titleLoop, this.1, this.2, ih (fun d hd => h d (by simp [hd]))]
  have htitle : ∀ (c : Char) (w : List Char), (∀ d ∈ c :: w, cased d = true ∧ lower d = [d]) → title c = [cap c] →
      titleLoop cased title lower false (c :: w) = cap c :: w := by
    intro c w h hc
    have := h c (by simp)
    simp [titleLoop, this.1, hc, htail w (fun d hd => h d (by simp [hd]))]
  have hsuffix : ∀ (w : List Char) (last : Option Bool) (rest : List Char), w ≠ [] → (∀ c ∈ w, up c = false) →
      snakeLoop up lower last (w ++ rest) = w ++ snakeLoop up lower (some false) rest := by
    intro w
    induction w with
    | nil => intro _ _ h; exact absurd rfl h
    | cons c w ih =>
      intro last rest _ h
      have hc := h c (by simp)
      rw [List.cons_append, snakeLoop, hc]
      cases w with
      | nil => simp
      | cons d w =>
        rw [ih (some false) rest (by simp) (fun e he => h e (by simp [he]))]
        simp
  -- after a word of at least two letters the flag is false, so the next capital gets its underscore
  have main : ∀ ws : List (List Char), ws ≠ [] →
      (∀ w ∈ ws, w ≠ [] ∧ ∀ c ∈ w, c ≠ '_' ∧ cased c = true ∧ up c = false ∧ lower c = [c] ∧ title c = [cap c] ∧ up (cap c) = true ∧
        lower (cap c) = [c]) → (∀ w ∈ ws.dropLast, 2 ≤ w.length) → ∀ last : Option Bool,
      snakeLoop up lower last (ws.map (titleLoop cased title lower false)).flatten =
        (if last = some false then ['_'] else []) ++ joinWords ws := by
    intro ws
    induction ws with
    | nil => intro h; exact absurd rfl h
    | cons w ws ih =>
      intro _ hw h2 last
      obtain ⟨hwne, hwc⟩ := hw w (by simp)
      cases w with
      | nil => exact absurd rfl hwne
      | cons c w =>
        have hc := hwc c (by simp)
        have hcl : ∀ d ∈ c :: w, cased d = true ∧ lower d = [d] := fun d hd => ⟨(hwc d hd).2.1, (hwc d hd).2.2.2.1⟩
        rw [List.map_cons, List.flatten_cons, htitle c w hcl hc.2.2.2.2.1, List.cons_append, snakeLoop, hc.2.2.2.2.2.1]
        simp only [if_true, hc.2.2.2.2.2.2]
        cases ws with
        | nil =>
          simp only [List.map_nil, List.flatten_nil, List.append_nil, joinWords]
          rw [snakeLoop_id (fun d hd => (hwc d (by simp [hd])).2.2.1)]
          simp
        | cons w' ws =>
          have hlen : 2 ≤ (c :: w).length := h2 (c :: w) (by simp)
          have hwn : w ≠ [] := by
            intro h
            rw [h] at hlen
            simp at hlen
          rw [hsuffix w _ _ hwn (fun d hd => (hwc d (by simp [hd])).2.2.1)]
          rw [ih (by simp) (fun u hu => hw u (by simp [hu])) (fun u hu => h2 u (by
            rw [List.dropLast_cons_cons]; simp [hu])) (some false)]
          simp [joinWords]
  unfold snake
  rw [hcamel, main ws hne hw h2 none]
  simp only [reduceCtorEq, if_false, List.nil_append]
  cases ws with
  | nil => exact absurd rfl hne
  | cons w ws =>
    obtain ⟨hwne, hwc⟩ := hw w (by simp)
    cases w with
    | nil => exact absurd rfl hwne
    | cons c w =>
      have hc := (hwc c (by simp)).1
      cases ws with
      | nil => simp only [joinWords]; rw [List.dropWhile_cons_of_neg (by simpa using hc)]
      | cons w' ws => simp only [joinWords, List.cons_append]; rw [List.dropWhile_cons_of_neg (by simpa using hc)]

end

/-- **C55 (limits)**: one-letter words are lost on the way back, and `to_camel_case` is not idempotent (it lowers inner
capitals). -/
theorem C55_limits :
    snake Char.isUpper (fun c => [c.toLower]) (camel Char.isAlpha (fun c => [c.toUpper]) (fun c => [c.toLower]) "a_b".toList) = "ab".toList ∧
    camel Char.isAlpha (fun c => [c.toUpper]) (fun c => [c.toLower]) "foo_bar".toList = "FooBar".toList ∧
    camel Char.isAlpha (fun c => [c.toUpper]) (fun c => [c.toLower]) "FooBar".toList = "Foobar".toList := by
  decide

example : snake Char.isUpper (fun c => [c.toLower]) "__CausalForestDML".toList = "causal_forest_dml".toList := by decide

/-- the hypotheses of `C55_roundtrip` hold for ASCII words -/
example : snake Char.isUpper (fun c => [c.toLower]) (camel Char.isAlpha (fun c => [c.toUpper]) (fun c => [c.toLower]) (joinWords ["ab".toList, "c".toList])) =
    joinWords ["ab".toList, "c".toList] :=
  C55_roundtrip Char.toUpper (by decide) (by decide) (by decide)

/-! ### C53: unfitted objects -/

section
variable {D R Q : Type}

theorem upliftFit_fail {fc fg fq fs : D → Except Err R} {o : UpliftObj R} {d : D} {e : Err} (h : (upliftFit fc fg fq fs o d).2 = .error e) :
    (upliftFit fc fg fq fs o d).1.tag = o.tag := by
  unfold upliftFit at h ⊢
  repeat' split
  all_goals first | rfl | simp_all

/-- **C53**: as long as no `fit` has succeeded, whatever calls were made, every getter raises the "not fitted" error. -/
theorem C53_unfitted (fc fg fq fs : D → Except Err R) (ds : List D)
    (h : ∀ d ∈ ds, ∀ o, ∃ e, (upliftFit fc fg fq fs o d).2 = .error e) (field : UpliftObj R → Option R) :
    upliftGet field (upliftAfter fc fg fq fs ds) () = .error .value := by
  have htag : (upliftAfter fc fg fq fs ds).tag = .absent := by
    unfold upliftAfter
    have gen : ∀ (ds : List D) (o : UpliftObj R), (∀ d ∈ ds, ∀ o, ∃ e, (upliftFit fc fg fq fs o d).2 = .error e) →
        (ds.foldl (fun o d => (upliftFit fc fg fq fs o d).1) o).tag = o.tag := by
      intro ds
      induction ds with
      | nil => intro o _; rfl
      | cons d ds ih =>
        intro o h
        rw [List.foldl_cons, ih _ (fun d hd => h d (by simp [hd]))]
        obtain ⟨e, he⟩ := h d (by simp) o
        exact upliftFit_fail he
    exact gen ds _ h
  simp [upliftGet, checkFitted, htag, Tag.truthy]

/-- **C53**: after a successful `fit` the getters answer with the curves of that data, whatever happened before. -/
theorem C53_fitted (fc fg fq fs : D → Except Err R) (ds : List D) (d : D) (h : ∃ o, (upliftFit fc fg fq fs o d).2 = .ok ()) :
    upliftGet UpliftObj.cumlift (upliftAfter fc fg fq fs (ds ++ [d])) () = fc d ∧
    upliftGet UpliftObj.gain (upliftAfter fc fg fq fs (ds ++ [d])) () = fg d ∧
    upliftGet UpliftObj.qini (upliftAfter fc fg fq fs (ds ++ [d])) () = fq d := by
  obtain ⟨o, ho⟩ := h
  unfold upliftAfter
  rw [List.foldl_append, List.foldl_cons, List.foldl_nil]
  generalize ds.foldl _ _ = o'
  unfold upliftFit at ho ⊢
  cases hc : fc d with
  | error e => simp [hc] at ho
  | ok c => cases hg : fg d with
    | error e => simp [hc, hg] at ho
    | ok g => cases hq : fq d with
      | error e => simp [hc, hg, hq] at ho
      | ok q => cases hs : fs d with
        | error e => simp [hc, hg, hq, hs] at ho
        | ok s => simp [upliftGet, checkFitted, Tag.truthy]

/-- **C53 (crash point)**: when a second `fit` fails after the first curve was computed, the object stays "fitted" and answers
with the first curve of the new data and the gain curve of the old data. -/
theorem C53_failed_refit (fc fg fq fs : D → Except Err R) {a b : D} {c : R} {e : Err} (ha : ∃ o, (upliftFit fc fg fq fs o a).2 = .ok ())
    (hc : fc b = .ok c) (hg : fg b = .error e) :
    upliftGet UpliftObj.cumlift (upliftAfter fc fg fq fs [a, b]) () = .ok c ∧
    upliftGet UpliftObj.gain (upliftAfter fc fg fq fs [a, b]) () = fg a := by
  obtain ⟨-, h2, -⟩ := C53_fitted fc fg fq fs [] a ha
  have e1 : upliftAfter fc fg fq fs [a, b] = (upliftFit fc fg fq fs (upliftAfter fc fg fq fs [a]) b).1 := rfl
  have e2 : (upliftAfter fc fg fq fs [a]).tag = .bool true := by
    obtain ⟨o, ho⟩ := ha
    show (upliftFit fc fg fq fs _ a).1.tag = _
    unfold upliftFit at ho ⊢
    cases h1 : fc a with
    | error e => simp [h1] at ho
    | ok c => cases hg : fg a with
      | error e => simp [h1, hg] at ho
      | ok g => cases hq : fq a with
        | error e => simp [h1, hg, hq] at ho
        | ok q => cases hs : fs a with
          | error e => simp [h1, hg, hq, hs] at ho
          | ok s => rfl
  have e3 : (upliftFit fc fg fq fs (upliftAfter fc fg fq fs [a]) b).1 = { upliftAfter fc fg fq fs [a] with cumlift := some c } := by
    unfold upliftFit
    rw [hc, hg]
  rw [e1, e3]
  constructor
  · simp [upliftGet, checkFitted, e2, Tag.truthy]
  · rw [← h2]
    simp [upliftGet, checkFitted, e2, Tag.truthy]

example : (upliftFit (D := Nat) (R := Nat) .ok .ok .ok .ok ⟨none, none, none, .absent⟩ 3).2 = .ok () ∧
    upliftGet UpliftObj.gain (upliftAfter (D := Nat) (R := Nat) .ok .ok .ok .ok [3]) () = .ok 3 ∧
    upliftGet UpliftObj.gain (upliftAfter (D := Nat) (R := Nat) .ok .ok .ok .ok []) () = .error .value := ⟨rfl, rfl, rfl⟩

end

end YL.Props
