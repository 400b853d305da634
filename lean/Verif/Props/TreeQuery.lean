import Verif.Model.TreeQuery
import Verif.Props.CEInterp

/-!
# C167: `apply` and `decision_path` of grown trees, for dense and sparse data
-/

set_option linter.unusedSectionVars false

namespace YL.Spec

open YL YL.Tree YL.TreeQ

variable {K V : Type} [Field K] [LinearOrder K]

/-- the value of a row at a covariate -/
def cellOf (row : List K) (f : Nat) : K := row.getD f 0

/-- a tree as `fit` leaves it: children come after their parents, `max_depth` steps lead every row to its leaf, and no covariate beyond the last is tested -/
structure TreeFits (nodes : List (Node K V)) (depth width : Nat) : Prop where
  pos : 0 < nodes.length
  kids : ∀ (i : Nat) (n : Node K V), nodes[i]? = some n → (n.left = none ∧ n.right = none) ∨
    ∃ l r, n.left = some l ∧ n.right = some r ∧ i < l ∧ i < r ∧ l < nodes.length ∧ r < nodes.length
  deep : ∀ q, walk nodes q depth 0 = apply nodes q
  tests : ∀ (i : Nat) (n : Node K V), nodes[i]? = some n → n.left ≠ none → n.feature < width

/-- the dense matrix a CSR matrix stands for: entries for the same place are added up -/
def denseOf (c : Csr K) : List (List K) :=
  c.rows.map (fun r => (List.range c.width).map (fun f => ((r.filter (fun e => decide (e.1 = f))).map (fun e => e.2)).sum))

/-- a CSR matrix: the columns exist -/
def CsrOk (c : Csr K) : Prop := ∀ r ∈ c.rows, ∀ e ∈ r, e.1 < c.width

/-- ... in canonical form: no place has two entries -/
def Canonical (c : Csr K) : Prop := ∀ r ∈ c.rows, (r.map (fun e => e.1)).Nodup

/-- the way of a row: it begins at the root, ends in the leaf of the row, and consists of exactly the nodes the row passes through, each once and in order -/
structure IsWay (nodes : List (Node K V)) (q : Nat → K) (l : List Nat) : Prop where
  start : l.head? = some 0
  finish : l.getLast? = some (apply nodes q)
  exactly : ∀ j, j ∈ l ↔ reaches nodes q j = true
  order : l.Pairwise (· < ·)

end YL.Spec

namespace YL.Props

open YL YL.Crit YL.Tree YL.TreeQ YL.Spec

variable {K V : Type} [Field K] [LinearOrder K] [IsStrictOrderedRing K]

/-- writing a list into the buffer -/
def writeAll : List Nat → List Nat → Nat → Except Fault (List Nat × Nat)
  | [], buf, k => .ok (buf, k)
  | v :: l, buf, k => match store buf k v with
    | .error e => .error e
    | .ok buf => writeAll l buf (k + 1)

/-- writing several lists, noting where each ends -/
def emit : List (List Nat) → List Nat → Nat → List Nat → Except Fault (List Nat × List Nat)
  | [], buf, _, ptr => .ok (buf, ptr)
  | p :: ps, buf, k, ptr => match writeAll p buf k with
    | .error e => .error e
    | .ok (buf, k) => emit ps buf k (ptr ++ [k])

/-- the ends of lists laid one after the other -/
def ends : Nat → List (List Nat) → List Nat
  | _, [] => []
  | k, p :: ps => (k + p.length) :: ends (k + p.length) ps

theorem writeAll_ok (l : List Nat) : ∀ (buf : List Nat) (k : Nat), k + l.length ≤ buf.length →
    writeAll l buf k = .ok (buf.take k ++ l ++ buf.drop (k + l.length), k + l.length) := by
  induction l with
  | nil => intro buf k _; simp [writeAll]
  | cons v l ih =>
    intro buf k h
    rw [List.length_cons] at h
    have hk : k < buf.length := by omega
    simp only [writeAll, store, if_pos hk]
    rw [ih _ _ (by rw [List.length_set]; omega)]
    have e : k + (l.length + 1) = k + 1 + l.length := by omega
    rw [List.length_cons, e]
    congr 2
    have h1 : (buf.set k v).take (k + 1) = buf.take k ++ [v] := by
      rw [List.take_add_one, List.take_set_of_le (le_refl k)]
      simp [hk]
    rw [h1, List.drop_set_of_lt (by omega)]
    simp

theorem emit_ok (D : Nat) (ps : List (List Nat)) : ∀ (buf : List Nat) (k : Nat) (ptr : List Nat), (∀ p ∈ ps, p.length ≤ 1 + D) →
    k + ps.length * (1 + D) ≤ buf.length →
    emit ps buf k ptr = .ok (buf.take k ++ ps.flatten ++ buf.drop (k + ps.flatten.length), ptr ++ ends k ps) := by
  induction ps with
  | nil => intro buf k ptr _ _; simp [emit, ends]
  | cons p ps ih =>
    intro buf k ptr hp h
    have h1 := hp p List.mem_cons_self
    rw [List.length_cons, Nat.add_mul, Nat.one_mul] at h
    have hw := writeAll_ok p buf k (by omega)
    simp only [emit, hw]
    have hlen : (buf.take k ++ p ++ buf.drop (k + p.length)).length = buf.length := by
      simp only [List.length_append, List.length_take, List.length_drop]
      omega
    rw [ih _ _ _ (fun a ha => hp a (List.mem_cons_of_mem _ ha)) (by rw [hlen]; omega)]
    have hpre : (buf.take k ++ p).length = k + p.length := by
      simp only [List.length_append, List.length_take]
      omega
    have t1 : (buf.take k ++ p ++ buf.drop (k + p.length)).take (k + p.length) = buf.take k ++ p := by
      rw [← hpre, List.take_left']
      rfl
    have t2 : (buf.take k ++ p ++ buf.drop (k + p.length)).drop (k + p.length + ps.flatten.length) =
        buf.drop (k + p.length + ps.flatten.length) := by
      rw [← hpre, List.drop_append, hpre, List.drop_drop]
      have : k + p.length + ps.flatten.length - (k + p.length) = ps.flatten.length := by omega
      rw [this, List.drop_of_length_le (by rw [hpre]; omega)]
      simp
    rw [t1, t2]
    simp only [List.flatten_cons, List.length_append, ends, List.append_assoc, List.singleton_append]
    rw [Nat.add_assoc]

theorem ends_getLast (ps : List (List Nat)) : ∀ k, (k :: ends k ps).getLastD 0 = k + ps.flatten.length := by
  induction ps with
  | nil => intro k; simp [ends]
  | cons p ps ih =>
    intro k
    have := ih (k + p.length)
    simp only [ends]
    rw [List.getLastD_cons] at this
    rw [List.getLastD_cons, List.getLastD_cons]
    simp only [List.flatten_cons, List.length_append]
    rw [this]
    omega

theorem ends_get (ps : List (List Nat)) : ∀ (k : Nat) (pre post : List Nat), pre.length = k → ∀ (i : Nat) (p : List Nat), ps[i]? = some p →
    ∃ a b, (k :: ends k ps)[i]? = some a ∧ (k :: ends k ps)[i + 1]? = some b ∧ a ≤ b ∧ (((pre ++ ps.flatten ++ post).drop a).take (b - a)) = p := by
  induction ps with
  | nil => intro k pre post _ i p h; simp at h
  | cons q ps ih =>
    intro k pre post hk i p h
    cases i with
    | zero =>
      simp only [List.getElem?_cons_zero, Option.some.injEq] at h
      subst h
      refine ⟨k, k + q.length, rfl, rfl, by omega, ?_⟩
      rw [List.append_assoc, ← hk, List.drop_left, List.flatten_cons, List.append_assoc]
      have : pre.length + q.length - pre.length = q.length := by omega
      rw [this, List.take_left]
    | succ i =>
      simp only [List.getElem?_cons_succ] at h
      obtain ⟨a, b, h1, h2, h3, h4⟩ := ih (k + q.length) (pre ++ q) post (by simp [hk]) i p h
      refine ⟨a, b, h1, h2, h3, ?_⟩
      rw [← h4]
      simp [List.append_assoc]

theorem ends_length (ps : List (List Nat)) : ∀ k, (ends k ps).length = ps.length := by
  induction ps with
  | nil => intro k; rfl
  | cons p ps ih => intro k; simp [ends, ih]

theorem denseCell_eq {row : List K} {f : Nat} (h : f < row.length) : denseCell row f = .ok (cellOf row f) := by
  unfold denseCell cellOf
  rw [List.getElem?_eq_getElem h, List.getD_eq_getElem?_getD, List.getElem?_eq_getElem h]
  rfl

/-- the walks of the compiled code are the abstract ones -/
theorem seek_eq {nodes : List (Node K V)} (hF : Forward nodes) {width : Nat}
    (ht : ∀ (i : Nat) (n : Node K V), nodes[i]? = some n → n.left ≠ none → n.feature < width) {cell : Nat → Except Fault K} {q : Nat → K}
    (hc : ∀ f, f < width → cell f = .ok (q f)) : ∀ (fuel i : Nat), nodes.length - i ≤ fuel → i < nodes.length →
    seek nodes cell fuel i = .ok (walk nodes q fuel i) := by
  intro fuel
  induction fuel with
  | zero => intro i h1 h2; omega
  | succ fuel ih =>
    intro i h1 h2
    have hget : nodes[i]? = some nodes[i] := List.getElem?_eq_getElem h2
    rcases hF i _ hget with ⟨hl, hr⟩ | ⟨l, r, hl, hr, l1, l2, l3, l4⟩
    · unfold seek walk
      simp only [hget, hl]
    · have hf := hc _ (ht i _ hget (by rw [hl]; simp))
      unfold seek walk
      simp only [hget, hl, hr, hf]
      split
      · exact ih _ (by omega) l3
      · exact ih _ (by omega) l4

theorem trace_eq {nodes : List (Node K V)} (hF : Forward nodes) {width : Nat}
    (ht : ∀ (i : Nat) (n : Node K V), nodes[i]? = some n → n.left ≠ none → n.feature < width) {cell : Nat → Except Fault K} {q : Nat → K}
    (hc : ∀ f, f < width → cell f = .ok (q f)) : ∀ (fuel i : Nat) (buf : List Nat) (k : Nat), nodes.length - i ≤ fuel → i < nodes.length →
    trace nodes cell fuel i buf k = writeAll (pathFrom nodes q fuel i) buf k := by
  intro fuel
  induction fuel with
  | zero => intro i buf k h1 h2; omega
  | succ fuel ih =>
    intro i buf k h1 h2
    have hget : nodes[i]? = some nodes[i] := List.getElem?_eq_getElem h2
    rcases hF i _ hget with ⟨hl, hr⟩ | ⟨l, r, hl, hr, l1, l2, l3, l4⟩
    · unfold trace pathFrom
      simp only [hget, hl, writeAll]
      cases store buf k i <;> rfl
    · have hf := hc _ (ht i _ hget (by rw [hl]; simp))
      unfold trace pathFrom
      simp only [hget, hl, hr, hf, writeAll]
      cases store buf k i with
      | error e => rfl
      | ok buf' =>
        simp only
        split
        · exact ih _ _ _ (by omega) l3
        · exact ih _ _ _ (by omega) l4

/-- the way is no longer than the number of steps to the leaf, and ascends -/
theorem pathFrom_short {nodes : List (Node K V)} (hF : Forward nodes) (q : Nat → K) : ∀ (D fuel i : Nat), i < nodes.length →
    (∃ n, nodes[walk nodes q D i]? = some n ∧ n.left = none) → (pathFrom nodes q fuel i).length ≤ 1 + D := by
  intro D
  induction D with
  | zero =>
    rintro fuel i h ⟨n, hn, hl⟩
    simp only [walk] at hn
    cases fuel with
    | zero => simp [pathFrom]
    | succ fuel =>
      unfold pathFrom
      simp [hn, hl]
  | succ D ih =>
    rintro fuel i h ⟨n, hn, hl⟩
    have hget : nodes[i]? = some nodes[i] := List.getElem?_eq_getElem h
    cases fuel with
    | zero => simp [pathFrom]
    | succ fuel =>
      rcases hF i _ hget with ⟨hl', hr'⟩ | ⟨l, r, hl', hr', l1, l2, l3, l4⟩
      · unfold pathFrom
        simp [hget, hl']
      · unfold walk at hn
        simp only [hget, hl', hr'] at hn
        unfold pathFrom
        simp only [hget, hl', hr', List.length_cons]
        split
        · rename_i hc
          rw [if_pos hc] at hn
          have := ih fuel l l3 ⟨n, hn, hl⟩
          omega
        · rename_i hc
          rw [if_neg hc] at hn
          have := ih fuel r l4 ⟨n, hn, hl⟩
          omega

theorem pathFrom_shape {nodes : List (Node K V)} (hF : Forward nodes) (q : Nat → K) : ∀ (fuel i : Nat), i < nodes.length →
    nodes.length - i ≤ fuel → (pathFrom nodes q fuel i).Pairwise (· < ·) ∧ (∀ j ∈ pathFrom nodes q fuel i, i ≤ j) ∧
    (pathFrom nodes q fuel i).head? = some i ∧ (pathFrom nodes q fuel i).getLast? = some (walk nodes q fuel i) := by
  intro fuel
  induction fuel with
  | zero => intro i h1 h2; omega
  | succ fuel ih =>
    intro i h1 h2
    have hget : nodes[i]? = some nodes[i] := List.getElem?_eq_getElem h1
    rcases hF i _ hget with ⟨hl, hr⟩ | ⟨l, r, hl, hr, l1, l2, l3, l4⟩
    · unfold pathFrom walk
      simp [hget, hl]
    · have key : ∀ c, i < c → c < nodes.length → (i :: pathFrom nodes q fuel c).Pairwise (· < ·) ∧ (∀ j ∈ i :: pathFrom nodes q fuel c, i ≤ j) ∧
          (i :: pathFrom nodes q fuel c).head? = some i ∧ (i :: pathFrom nodes q fuel c).getLast? = some (walk nodes q fuel c) := by
        intro c c1 c2
        obtain ⟨a1, a2, a3, a4⟩ := ih c c2 (by omega)
        refine ⟨List.pairwise_cons.2 ⟨fun j hj => by have := a2 j hj; omega, a1⟩, ?_, rfl, ?_⟩
        · intro j hj
          rcases List.mem_cons.1 hj with rfl | hj
          · exact le_refl _
          · have := a2 j hj; omega
        · cases hp : pathFrom nodes q fuel c with
          | nil => rw [hp] at a3; simp at a3
          | cons b t => rw [List.getLast?_cons_cons, ← hp]; exact a4
      unfold pathFrom walk
      simp only [hget, hl, hr]
      split
      · exact key l l1 l3
      · exact key r l2 l4

theorem walk_last {nodes : List (Node K V)} (hF : Forward nodes) (q : Nat → K) : ∀ (fuel i : Nat), nodes.length - i ≤ fuel + 1 → i < nodes.length →
    walk nodes q (fuel + 1) i = walk nodes q fuel i := by
  intro fuel
  induction fuel with
  | zero =>
    intro i h1 h2
    have hget : nodes[i]? = some nodes[i] := List.getElem?_eq_getElem h2
    rcases hF i _ hget with ⟨hl, hr⟩ | ⟨l, r, hl, hr, l1, l2, l3, l4⟩
    · unfold walk; simp [hget, hl]
    · omega
  | succ fuel ih =>
    intro i h1 h2
    have hget : nodes[i]? = some nodes[i] := List.getElem?_eq_getElem h2
    rcases hF i _ hget with ⟨hl, hr⟩ | ⟨l, r, hl, hr, l1, l2, l3, l4⟩
    · unfold walk; simp [hget, hl]
    · have e : ∀ k, walk nodes q (k + 1) i = if q nodes[i].feature ≤ nodes[i].threshold then walk nodes q k l else walk nodes q k r := by
        intro k
        conv_lhs => unfold walk
        simp only [hget, hl, hr]
      rw [e, e, ih l (by omega) l3, ih r (by omega) l4]

theorem way_of {nodes : List (Node K V)} {depth width : Nat} (h : TreeFits nodes depth width) (q : Nat → K) : IsWay nodes q (decisionPath nodes q) := by
  obtain ⟨a1, a2, a3, a4⟩ := pathFrom_shape h.kids q nodes.length 0 h.pos (by omega)
  obtain ⟨_, _, _, _, _, b6⟩ := pathFrom_spec h.kids q nodes.length 0 (by omega) h.pos
  refine ⟨a3, a4, fun j => ?_, a1⟩
  unfold decisionPath
  rw [b6]
  unfold reaches
  rw [List.any_eq_true]
  have hp := h.pos
  constructor
  · rintro ⟨k, hk, e⟩
    by_cases hkl : k = nodes.length
    · refine ⟨nodes.length - 1, List.mem_range.2 (by omega), ?_⟩
      rw [decide_eq_true_eq, ← e, hkl, ← walk_last h.kids q (nodes.length - 1) 0 (by omega) hp]
      congr 1
      omega
    · exact ⟨k, List.mem_range.2 (by omega), by simpa using e⟩
  · rintro ⟨k, hk, e⟩
    rw [decide_eq_true_eq] at e
    exact ⟨k, (List.mem_range.1 hk).le, e⟩

theorem way_length {nodes : List (Node K V)} {depth width : Nat} (h : TreeFits nodes depth width) (q : Nat → K) : (decisionPath nodes q).length ≤ 1 + depth := by
  refine pathFrom_short h.kids q depth nodes.length 0 h.pos ?_
  obtain ⟨⟨n, a, b, -⟩, -⟩ := pathFrom_spec h.kids q nodes.length 0 (by omega) h.pos
  rw [h.deep q]
  exact ⟨n, a, b⟩

theorem denseLoop_eq {nodes : List (Node K V)} {depth width : Nat} (h : TreeFits nodes depth width) (rows : List (List K)) (hw : ∀ r ∈ rows, width ≤ r.length) :
    ∀ buf k ptr, denseLoop nodes rows buf k ptr = emit (rows.map (fun r => decisionPath nodes (cellOf r))) buf k ptr := by
  induction rows with
  | nil => intro buf k ptr; rfl
  | cons r rows ih =>
    intro buf k ptr
    have hr := hw r List.mem_cons_self
    have ht := trace_eq h.kids h.tests (cell := denseCell r) (q := cellOf r) (fun f hf => denseCell_eq (by omega)) nodes.length 0 buf k (by omega) h.pos
    simp only [denseLoop, List.map_cons, emit, ht]
    rw [show decisionPath nodes (cellOf r) = pathFrom nodes (cellOf r) nodes.length 0 from rfl]
    cases writeAll (pathFrom nodes (cellOf r) nodes.length 0) buf k with
    | error e => rfl
    | ok p => exact ih (fun a ha => hw a (List.mem_cons_of_mem _ ha)) _ _ _

/-- what `emit` makes of an empty buffer of the right size -/
theorem emit_matrix (D : Nat) (ps : List (List Nat)) (hp : ∀ p ∈ ps, p.length ≤ 1 + D) :
    ∃ buf ptr, emit ps (List.replicate (ps.length * (1 + D)) 0) 0 [0] = .ok (buf, ptr) ∧ ptr.length = ps.length + 1 ∧ ptr[0]? = some 0 ∧
      ptr[ps.length]? = some (buf.take (ptr.getLastD 0)).length ∧
      ∀ (i : Nat) (p : List Nat), ps[i]? = some p → ∃ a b, ptr[i]? = some a ∧ ptr[i + 1]? = some b ∧ a ≤ b ∧
        ((buf.take (ptr.getLastD 0)).drop a).take (b - a) = p := by
  have h := emit_ok D ps (List.replicate (ps.length * (1 + D)) 0) 0 [0] hp (by simp)
  have hlen : ps.flatten.length ≤ ps.length * (1 + D) := by
    clear h
    induction ps with
    | nil => simp
    | cons p ps ih =>
      have h1 := hp p List.mem_cons_self
      have h2 := ih (fun a ha => hp a (List.mem_cons_of_mem _ ha))
      rw [List.flatten_cons, List.length_append, List.length_cons, Nat.add_mul, Nat.one_mul]
      omega
  have hl := ends_getLast ps 0
  have ht : ((List.replicate (ps.length * (1 + D)) 0).take 0 ++ ps.flatten ++
      (List.replicate (ps.length * (1 + D)) 0).drop (0 + ps.flatten.length)).take (([0] ++ ends 0 ps).getLastD 0) = ps.flatten := by
    rw [List.singleton_append, hl, List.take_zero, List.nil_append, Nat.zero_add, List.take_left]
  refine ⟨_, _, h, by simp [ends_length], rfl, ?_, ?_⟩
  · rw [ht]
    have : ([0] ++ ends 0 ps).getLast? = some ps.flatten.length := by
      rw [List.singleton_append]
      rw [List.getLastD_eq_getLast?, ] at hl
      rw [List.getLast?_cons] at hl ⊢
      simp only [Option.getD_some, Nat.zero_add] at hl
      rw [hl]
    rw [List.getLast?_eq_getElem?] at this
    rw [← this]
    congr 1
    simp [ends_length]
  · intro i p hi
    rw [ht]
    obtain ⟨a, b, h1, h2, h3, h4⟩ := ends_get ps 0 [] [] rfl i p hi
    exact ⟨a, b, h1, h2, h3, by simpa using h4⟩

/-- **C167**: `apply` of a fitted tree ends without a fault and gives each row the number of its leaf -/
theorem C167_apply {nodes : List (Node K V)} {depth width : Nat} (h : TreeFits nodes depth width) (rows : List (List K))
    (hw : ∀ r ∈ rows, width ≤ r.length) : applyDense nodes rows = .ok (rows.map (fun r => apply nodes (cellOf r))) := by
  induction rows with
  | nil => rfl
  | cons r rows ih =>
    have hr := hw r List.mem_cons_self
    have hs := seek_eq h.kids h.tests (cell := denseCell r) (q := cellOf r) (fun f hf => denseCell_eq (by omega)) nodes.length 0 (by omega) h.pos
    simp only [applyDense, hs, ih (fun a ha => hw a (List.mem_cons_of_mem _ ha))]
    rfl

/-- **C167**: `decision_path` of a fitted tree stays inside its buffer of `n * (1 + max_depth)` numbers, and row `i` of the indicator matrix — the columns
`indices[indptr[i]:indptr[i+1]]` — is the way of row `i`; `indptr` covers `indices` from 0 to its end -/
theorem C167_path {nodes : List (Node K V)} {depth width : Nat} (h : TreeFits nodes depth width) (rows : List (List K))
    (hw : ∀ r ∈ rows, width ≤ r.length) : ∃ indices indptr, pathsDense nodes depth rows = .ok (indices, indptr) ∧
      indptr.length = rows.length + 1 ∧ indptr[0]? = some 0 ∧ indptr[rows.length]? = some indices.length ∧
      ∀ (i : Nat) (r : List K), rows[i]? = some r → ∃ a b, indptr[i]? = some a ∧ indptr[i + 1]? = some b ∧ a ≤ b ∧
        IsWay nodes (cellOf r) ((indices.drop a).take (b - a)) := by
  obtain ⟨buf, ptr, h1, h2, h3, h4, h5⟩ := emit_matrix depth (rows.map (fun r => decisionPath nodes (cellOf r))) (by
    intro p hp
    obtain ⟨r, -, rfl⟩ := List.mem_map.1 hp
    exact way_length h _)
  rw [List.length_map] at h1 h2 h4
  refine ⟨buf.take (ptr.getLastD 0), ptr, ?_, h2, h3, h4, ?_⟩
  · unfold pathsDense
    rw [denseLoop_eq h rows hw, h1]
  · intro i r hi
    obtain ⟨a, b, g1, g2, g3, g4⟩ := h5 i (decisionPath nodes (cellOf r)) (by rw [List.getElem?_map, hi]; rfl)
    exact ⟨a, b, g1, g2, g3, g4 ▸ way_of h _⟩

/-! ### sparse data -/

/-- the value of a sparse row at a covariate -/
def entry (r : List (Nat × K)) (f : Nat) : K := ((r.filter (fun e => decide (e.1 = f))).map (fun e => e.2)).sum

/-- loading a row: its entries are seen, the others are left as they were -/
theorem load_spec (i : Nat) (row : List (Nat × K)) : ∀ (s : Scratch K) (w : Nat), s.mark.length = w → s.cells.length = w → (∀ e ∈ row, e.1 < w) →
    (row.map (fun e => e.1)).Nodup → ∃ s', load i row s = .ok s' ∧ s'.mark.length = w ∧ s'.cells.length = w ∧
      (∀ f, f < w → f ∈ row.map (fun e => e.1) → sparseCell s' i f = .ok (entry row f)) ∧
      (∀ f, f ∉ row.map (fun e => e.1) → s'.mark[f]? = s.mark[f]? ∧ s'.cells[f]? = s.cells[f]?) ∧
      (∀ f ∈ row.map (fun e => e.1), s'.mark[f]? = some (some i)) := by
  induction row with
  | nil => intro s w h1 h2 _ _; exact ⟨s, rfl, h1, h2, by simp, by simp, by simp⟩
  | cons e row ih =>
    intro s w h1 h2 hb hn
    obtain ⟨c, v⟩ := e
    have hc : c < w := hb (c, v) List.mem_cons_self
    rw [List.map_cons, List.nodup_cons] at hn
    obtain ⟨s', g1, g2, g3, g4, g5, g6⟩ := ih ⟨s.mark.set c (some i), s.cells.set c v⟩ w (by simpa using h1) (by simpa using h2)
      (fun e he => hb e (List.mem_cons_of_mem _ he)) hn.2
    have hmc : s'.mark[c]? = some (some i) ∧ s'.cells[c]? = some v := by
      obtain ⟨a, b⟩ := g5 c hn.1
      rw [a, b]
      simp [h1, h2, hc]
    have hrest : row.filter (fun e => decide (e.1 = c)) = [] := by
      rw [List.filter_eq_nil_iff]
      intro e he hd
      rw [decide_eq_true_eq] at hd
      exact hn.1 (hd ▸ List.mem_map.2 ⟨e, he, rfl⟩)
    refine ⟨s', ?_, g2, g3, ?_, ?_, ?_⟩
    · simp only [TreeQ.load]
      rw [if_pos ⟨by omega, by omega⟩]
      exact g1
    · intro f hf hm
      by_cases hfc : f = c
      · subst hfc
        unfold sparseCell
        simp [hmc.1, hmc.2, entry, hrest]
      · have hm' : f ∈ row.map (fun e => e.1) := by
          rw [List.map_cons, List.mem_cons] at hm
          exact hm.resolve_left hfc
        rw [g4 f hf hm']
        unfold entry
        have : ¬ c = f := fun e => hfc e.symm
        simp [this]
    · intro f hm
      rw [List.map_cons, List.mem_cons, not_or] at hm
      obtain ⟨a, b⟩ := g5 f hm.2
      have hcf : c ≠ f := fun e => hm.1 e.symm
      rw [a, b]
      simp [hcf]
    · intro f hm
      rw [List.map_cons, List.mem_cons] at hm
      rcases hm with rfl | hm
      · exact hmc.1
      · exact g6 f hm

theorem entry_absent {r : List (Nat × K)} {f : Nat} (h : f ∉ r.map (fun e => e.1)) : entry r f = 0 := by
  unfold entry
  have : r.filter (fun e => decide (e.1 = f)) = [] := by
    rw [List.filter_eq_nil_iff]
    intro e he hd
    rw [decide_eq_true_eq] at hd
    exact h (hd ▸ List.mem_map.2 ⟨e, he, rfl⟩)
  rw [this]
  rfl

/-- loading row `i` into arrays that hold no mark of a later row makes every covariate readable, and leaves no mark of a row after `i` -/
theorem load_cells (i : Nat) (row : List (Nat × K)) (s : Scratch K) (w : Nat) (h1 : s.mark.length = w) (h2 : s.cells.length = w) (hb : ∀ e ∈ row, e.1 < w)
    (hn : (row.map (fun e => e.1)).Nodup) (hm : ∀ (f m : Nat), s.mark[f]? = some (some m) → m < i) :
    ∃ s', load i row s = .ok s' ∧ s'.mark.length = w ∧ s'.cells.length = w ∧ (∀ f, f < w → sparseCell s' i f = .ok (entry row f)) ∧
      ∀ (f m : Nat), s'.mark[f]? = some (some m) → m < i + 1 := by
  obtain ⟨s', g1, g2, g3, g4, g5, g6⟩ := load_spec i row s w h1 h2 hb hn
  refine ⟨s', g1, g2, g3, ?_, ?_⟩
  · intro f hf
    by_cases hin : f ∈ row.map (fun e => e.1)
    · exact g4 f hf hin
    · rw [entry_absent hin]
      have hget : s'.mark[f]? = some (s'.mark[f]'(by omega)) := List.getElem?_eq_getElem (by omega)
      unfold sparseCell
      rw [hget]
      simp only
      rw [if_neg]
      intro e
      rw [e, (g5 f hin).1] at hget
      have := hm f i hget
      omega
  · intro f m hfm
    by_cases hin : f ∈ row.map (fun e => e.1)
    · rw [g6 f hin] at hfm
      simp only [Option.some.injEq] at hfm
      omega
    · rw [(g5 f hin).1] at hfm
      have := hm f m hfm
      omega

theorem cellOf_dense (w : Nat) (r : List (Nat × K)) (f : Nat) (h : f < w) : cellOf ((List.range w).map (entry r)) f = entry r f := by
  unfold cellOf
  simp [List.getD_eq_getElem?_getD, h]

theorem sparseApplyLoop_eq {nodes : List (Node K V)} {depth width : Nat} (h : TreeFits nodes depth width) (rows : List (List (Nat × K))) :
    ∀ (i : Nat) (s : Scratch K), s.mark.length = width → s.cells.length = width → (∀ r ∈ rows, ∀ e ∈ r, e.1 < width) →
    (∀ r ∈ rows, (r.map (fun e => e.1)).Nodup) → (∀ (f m : Nat), s.mark[f]? = some (some m) → m < i) →
    sparseApplyLoop nodes i rows s = applyDense nodes (rows.map (fun r => (List.range width).map (entry r))) := by
  induction rows with
  | nil => intro i s _ _ _ _ _; rfl
  | cons r rows ih =>
    intro i s h1 h2 hb hn hm
    obtain ⟨s', g1, g2, g3, g4, g5⟩ := load_cells i r s width h1 h2 (hb r List.mem_cons_self) (hn r List.mem_cons_self) hm
    have hs := seek_eq h.kids h.tests (cell := sparseCell s' i) (q := cellOf ((List.range width).map (entry r)))
      (fun f hf => by rw [g4 f hf, cellOf_dense width r f hf]) nodes.length 0 (by omega) h.pos
    have hd := seek_eq h.kids h.tests (cell := denseCell ((List.range width).map (entry r))) (q := cellOf ((List.range width).map (entry r)))
      (fun f hf => denseCell_eq (by simpa using hf)) nodes.length 0 (by omega) h.pos
    have hrec := ih (i + 1) s' g2 g3 (fun a ha => hb a (List.mem_cons_of_mem _ ha)) (fun a ha => hn a (List.mem_cons_of_mem _ ha)) g5
    simp only [sparseApplyLoop, g1, hs, List.map_cons, applyDense, hd, hrec]

theorem sparseLoop_eq {nodes : List (Node K V)} {depth width : Nat} (h : TreeFits nodes depth width) (rows : List (List (Nat × K))) :
    ∀ (i : Nat) (s : Scratch K) (buf : List Nat) (k : Nat) (ptr : List Nat), s.mark.length = width → s.cells.length = width →
    (∀ r ∈ rows, ∀ e ∈ r, e.1 < width) → (∀ r ∈ rows, (r.map (fun e => e.1)).Nodup) → (∀ (f m : Nat), s.mark[f]? = some (some m) → m < i) →
    sparseLoop nodes i rows s buf k ptr = denseLoop nodes (rows.map (fun r => (List.range width).map (entry r))) buf k ptr := by
  induction rows with
  | nil => intro i s buf k ptr _ _ _ _ _; rfl
  | cons r rows ih =>
    intro i s buf k ptr h1 h2 hb hn hm
    obtain ⟨s', g1, g2, g3, g4, g5⟩ := load_cells i r s width h1 h2 (hb r List.mem_cons_self) (hn r List.mem_cons_self) hm
    have hs := trace_eq h.kids h.tests (cell := sparseCell s' i) (q := cellOf ((List.range width).map (entry r)))
      (fun f hf => by rw [g4 f hf, cellOf_dense width r f hf]) nodes.length 0 buf k (by omega) h.pos
    have hd := trace_eq h.kids h.tests (cell := denseCell ((List.range width).map (entry r))) (q := cellOf ((List.range width).map (entry r)))
      (fun f hf => denseCell_eq (by simpa using hf)) nodes.length 0 buf k (by omega) h.pos
    simp only [sparseLoop, g1, hs, List.map_cons, denseLoop, hd]
    cases writeAll (pathFrom nodes (cellOf ((List.range width).map (entry r))) nodes.length 0) buf k with
    | error e => rfl
    | ok p => exact ih (i + 1) s' p.1 p.2 _ g2 g3 (fun a ha => hb a (List.mem_cons_of_mem _ ha)) (fun a ha => hn a (List.mem_cons_of_mem _ ha)) g5

/-- **C167**: for a CSR matrix in canonical form `apply` and `decision_path` give what they give for the dense matrix, whatever the uninitialised scratch array holds -/
theorem C167_sparse {nodes : List (Node K V)} {depth : Nat} {c : Csr K} (h : TreeFits nodes depth c.width) (hc : CsrOk c) (hn : Canonical c) (junk : Nat → K) :
    applySparse nodes junk c = applyDense nodes (denseOf c) ∧ pathsSparse nodes depth junk c = pathsDense nodes depth (denseOf c) := by
  have hm : ∀ (f m : Nat), (List.replicate c.width (none : Option Nat))[f]? = some (some m) → m < 0 := by
    intro f m e
    rw [List.getElem?_replicate] at e
    split at e <;> simp at e
  constructor
  · exact sparseApplyLoop_eq h c.rows 0 _ (by simp) (by simp) hc hn hm
  · unfold pathsSparse pathsDense
    have := sparseLoop_eq h c.rows 0 ⟨List.replicate c.width none, (List.range c.width).map junk⟩ (List.replicate (c.rows.length * (1 + depth)) 0) 0 [0]
      (by simp) (by simp) hc hn hm
    rw [this]
    have hl : (denseOf c).length = c.rows.length := by simp [denseOf]
    rw [hl]
    rfl

/-- with two entries for one place the last one counts, while the matrix holds their sum: the row ends in another leaf -/
theorem C167_duplicates_refuted : ∃ (nodes : List (Node ℚ ℚ)) (c : Csr ℚ), TreeFits nodes 1 c.width ∧ CsrOk c ∧
    ∀ junk, applySparse nodes junk c = .ok [1] ∧ applyDense nodes (denseOf c) = .ok [2] := by
  refine ⟨[⟨some 1, some 2, 0, 3, 0, 2, 0⟩, ⟨none, none, 0, 0, 0, 1, 0⟩, ⟨none, none, 0, 0, 0, 1, 0⟩], ⟨1, [[(0, 2), (0, 2)]]⟩, ⟨by decide, ?_, ?_, ?_⟩, ?_, ?_⟩
  · intro i n h
    match i, h with
    | 0, h => simp at h; subst h; exact .inr ⟨1, 2, rfl, rfl, by decide, by decide, by decide, by decide⟩
    | 1, h => simp at h; subst h; exact .inl ⟨rfl, rfl⟩
    | 2, h => simp at h; subst h; exact .inl ⟨rfl, rfl⟩
    | n + 3, h => simp at h
  · intro q
    simp only [apply, walk, List.length_cons, List.length_nil]
    by_cases hq : q 0 ≤ 3 <;> simp [hq]
  · intro i n h hl
    match i, h with
    | 0, h => simp at h; subst h; decide
    | 1, h => simp at h; subst h; exact absurd rfl hl
    | 2, h => simp at h; subst h; exact absurd rfl hl
    | n + 3, h => simp at h
  · intro r hr e he
    simp only [List.mem_singleton] at hr
    subst hr
    simp only [List.mem_cons, List.not_mem_nil, or_false, or_self] at he
    subst he
    decide
  · intro junk
    refine ⟨?_, by decide +kernel⟩
    simp [applySparse, sparseApplyLoop, TreeQ.load, seek, sparseCell]
    norm_num

/-! ### the trees `fit` builds -/

section Built

variable {A M : Type} [AddCommGroup M]

theorem scan_among (P : Params A K) (C : Criterion A M K V) (x : A → Nat → K) (f : Nat) (l : List A) : ∀ (fuel p : Nat) (c : Crit M) (best : Option (K × Split K)),
    ∀ b, (scan P C x f l fuel p c best).2 = some b → b.2.feature = f ∨ best = some b := by
  intro fuel
  induction fuel with
  | zero => intro p c best b h; exact .inr h
  | succ fuel ih =>
    intro p c best b h
    unfold scan at h
    split at h
    · simp only at h
      split at h
      · split at h
        · exact ih _ _ _ _ h
        · split at h
          · exact ih _ _ _ _ h
          · split at h
            · rcases ih _ _ _ _ h with h | h
              · exact .inl h
              · simp only [Option.some.injEq] at h
                subst h
                exact .inl rfl
            · exact ih _ _ _ _ h
      · exact ih _ _ _ _ h
    · exact .inr h

/-- a node is split along one of the covariates drawn for it -/
theorem nodeSplit_among (P : Params A K) (C : Criterion A M K V) (x : A → Nat → K) (feats : List Nat) (l : List A) (imp : K) (s : Found A K)
    (h : nodeSplit P C x feats l imp = some s) : s.split.feature ∈ feats := by
  have key : ∀ (fs : List Nat) (st : List A × Crit M × Option (K × Split K)) (b : K × Split K), (fs.foldl (visit P C x) st).2.2 = some b →
      b.2.feature ∈ fs ∨ st.2.2 = some b := by
    intro fs
    induction fs with
    | nil => intro st b hb; exact .inr hb
    | cons f fs ih =>
      intro st b hb
      rw [List.foldl_cons] at hb
      rcases ih _ _ hb with hb | hb
      · exact .inl (List.mem_cons_of_mem _ hb)
      · unfold visit at hb
        simp only at hb
        split at hb
        · exact .inr hb
        · rcases scan_among P C x f _ _ _ _ _ b hb with hb | hb
          · exact .inl (hb ▸ List.mem_cons_self)
          · exact .inr hb
  unfold nodeSplit at h
  split at h
  · cases h
  · rename_i l' c v s' he
    simp only [Option.some.injEq] at h
    subst h
    rcases key feats _ (v, s') (by rw [he]) with h | h
    · exact h
    · cases h

theorem splitOf_among (P : Params A K) (C : Criterion A M K V) (x : A → Nat → K) (draw : Nat → List Nat) (id : Nat) (r : Rec A K) (s : Found A K)
    (h : splitOf P C x draw id r = some s) : s.split.feature ∈ draw id := by
  unfold splitOf at h
  split at h
  · cases h
  · split at h
    · cases h
    · rename_i s' hs
      split at h
      · cases h
      · simp only [Option.some.injEq] at h
        subst h
        exact nodeSplit_among _ _ _ _ _ _ _ hs

/-- **C167**: every tree the depth-first builder makes is as the queries need it, if only covariates that exist are drawn -/
theorem C167_built {P : Params A K} {C : Criterion A M K V} (hP : SoundParams P) (hC : SoundCriterion C) (x : A → Nat → K) (w : A → K) (draw : Nat → List Nat)
    (train : List A) (width : Nat) (hd : ∀ i, ∀ f ∈ draw i, f < width) : TreeFits (build P C x w draw train).1 (build P C x w draw train).2 width := by
  have e := build_eq (V := V) hP hC x w draw train
  refine ⟨?_, ?_, (C82_depth hP hC x w draw train).2.1, ?_⟩
  · rw [e]
    simp only [T.flat_length]
    exact T.size_pos _
  · rw [e]
    intro i n hi
    have := flat_forward _ _ 0 i n hi
    simpa [T.flat_length] using this
  · intro i n hi hn
    obtain ⟨hlt, _⟩ := List.getElem?_eq_some_iff.mp hi
    obtain ⟨r, n', h1, h2, h3, h4, _⟩ := build_node hP hC x w draw train hlt
    rw [hi] at h1
    cases h1
    obtain ⟨f1, f2, f3, f4⟩ := h4
    cases hs : splitOf P C x draw i r with
    | none => rw [hs] at f4; exact absurd f4.1 hn
    | some s =>
      rw [hs] at f4
      rw [f4.2.2.1]
      exact hd i _ (splitOf_among _ _ _ _ _ _ _ hs)

/-- **C167**: … and so is every tree of the best-first builder -/
theorem C167_best_first {P : Params A K} {C : List A → Criterion A M K V} {x : A → Nat → K} {draw : Nat → List Nat} {pick : List (Front A K) → Nat}
    (hpick : SoundHeap pick) (maxLeaf : Nat) (train : List A) (width : Nat) (hd : ∀ i, ∀ f ∈ draw i, f < width) :
    TreeFits (buildBest P C x draw pick maxLeaf train).1 (buildBest P C x draw pick maxLeaf train).2 width := by
  obtain ⟨G, sp, dd, e, hI, _, _⟩ := buildBest_spec (P := P) (C := C) (x := x) (draw := draw) hpick maxLeaf train
  rw [e]
  have back : ∀ (i : Nat) (n : Node K V), (G.map (fun p => p.2))[i]? = some n → ∃ r, G[i]? = some (r, n) := by
    intro i n hi
    rw [List.getElem?_map] at hi
    cases hg : G[i]? with
    | none => rw [hg] at hi; cases hi
    | some rn =>
      obtain ⟨r, n'⟩ := rn
      rw [hg] at hi
      cases hi
      exact ⟨r, rfl⟩
  have hpos : 0 < (G.map (fun p => p.2)).length := by simpa using root_lt hI
  have hkids : Forward (G.map (fun p => p.2)) := by
    intro i n hi
    obtain ⟨r, hg⟩ := back i n hi
    rcases hI.shape i r n hg with hh | ⟨s, l, nl, nr, s1, s2, s3, s4, s5, s6, _⟩
    · exact Or.inl hh
    · right
      have l1 := (List.getElem?_eq_some_iff.mp s5).1
      have l2 := (List.getElem?_eq_some_iff.mp s6).1
      exact ⟨l, l + 1, s2, s3, s4, by omega, by simpa using l1, by simpa using l2⟩
  have step : ∀ (q : Nat → K) (k : Nat) (i : Nat) (r : Rec A K) (n : Node K V), G[i]? = some (r, n) → dd ≤ r.depth + k →
      ∃ n', (G.map (fun p => p.2))[walk (G.map (fun p => p.2)) q k i]? = some n' ∧ n'.left = none := by
    intro q k
    induction k with
    | zero =>
      intro i r n hg hk
      refine ⟨n, by simp [walk, hg], ?_⟩
      rcases hI.shape i r n hg with hh | ⟨s, l, nl, nr, s1, s2, s3, s4, s5, s6, _⟩
      · exact hh.1
      · have := hI.deep l _ nl s5 (by simp)
        simp only [leftRec] at this
        omega
    | succ k ih =>
      intro i r n hg hk
      have hn : (G.map (fun p => p.2))[i]? = some n := by simp [hg]
      rcases hI.shape i r n hg with hh | ⟨s, l, nl, nr, s1, s2, s3, s4, s5, s6, _⟩
      · refine ⟨n, ?_, hh.1⟩
        unfold walk
        simp only [hn, hh.1]
      · unfold walk
        simp only [hn, s2, s3]
        split
        · exact ih l _ nl s5 (by simp only [leftRec]; omega)
        · exact ih (l + 1) _ nr s6 (by simp only [rightRec]; omega)
  refine ⟨hpos, hkids, ?_, ?_⟩
  · intro q
    obtain ⟨n0, hroot⟩ := hI.first
    obtain ⟨n1, hn1, hl1⟩ := step q dd 0 _ n0 hroot (by omega)
    obtain ⟨⟨n2, hn2, hl2, -⟩, -⟩ := pathFrom_spec hkids q (G.map (fun p => p.2)).length 0 (by omega) hpos
    unfold apply
    generalize hL : (G.map (fun p => p.2)).length = L at hn2 ⊢
    have stay : ∀ (a b : Nat), a ≤ b → (∃ n, (G.map (fun p => p.2))[walk (G.map (fun p => p.2)) q a 0]? = some n ∧ n.left = none) →
        walk (G.map (fun p => p.2)) q b 0 = walk (G.map (fun p => p.2)) q a 0 := by
      rintro a b hab ⟨n, hn, hl⟩
      have := walk_add (nodes := G.map (fun p => p.2)) q a (b - a) 0
      rw [walk_at_leaf hn hl] at this
      rw [← this]
      congr 1
      omega
    rcases Nat.le_total dd L with hle | hle
    · exact (stay dd L hle ⟨n1, hn1, hl1⟩).symm
    · exact stay L dd hle ⟨n2, hn2, hl2⟩
  · intro i n hi hn
    obtain ⟨r, hg⟩ := back i n hi
    rcases hI.shape i r n hg with hh | ⟨s, l, nl, nr, s1, s2, s3, s4, s5, s6, s7, _⟩
    · exact absurd hh.1 hn
    · rw [s7]
      exact hd i _ (splitOf_among _ _ _ _ _ _ _ s1)

end Built

/-! ### Non-vacuity -/

/-- a tree with one split -/
def oneSplit : List (Node ℚ ℚ) := [⟨some 1, some 2, 1, 3, 0, 2, 0⟩, ⟨none, none, 0, 0, 0, 1, 0⟩, ⟨none, none, 0, 0, 0, 1, 0⟩]

example : pathsDense oneSplit 1 [[0, 1], [0, 5], [0, 3]] = .ok ([0, 1, 0, 2, 0, 1], [0, 2, 4, 6]) := by decide +kernel

/-- the mark of row 0 does not leak into row 1 -/
example : applySparse oneSplit (fun _ => 9) ⟨2, [[(1, 5)], [(0, 7)]]⟩ = .ok [2, 1] := by decide +kernel

/-- the hypotheses are needed: with a depth that is too small the buffer overflows, with a narrow row a cell outside is read -/
example : pathsDense oneSplit 0 [[0, 1]] = .error .outside ∧ applyDense oneSplit [[(0 : ℚ)]] = .error .outside := by decide +kernel

end YL.Props
