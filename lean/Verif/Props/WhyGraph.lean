import Verif.Model.WhyGraph
import Verif.Props.Identify
import Verif.Props.IV

/-!
# C128, C129: the causal graph of `Why` and the validity of the roles found by discovery
-/

set_option linter.unusedSectionVars false

namespace YL.Props

open YL Why WhyGraph Spec LatentNames

/-! ### C128 -/

section
variable {C : Type}

/-- what the user expects of the graph made from the roles: treatments cause the outcome, adjustments and covariates cause both, instruments
cause the treatments (the picture drawn by `plot_causal_graph`) -/
def ExpectedEdge (adj cov ins : Option (List C)) (u v : Label) : Prop :=
  (u = .treatments ∧ v = .outcome) ∨
  (u = .adjustments ∧ (∃ a l, adj = some (a :: l)) ∧ (v = .treatments ∨ v = .outcome)) ∨
  (u = .covariates ∧ (∃ a l, cov = some (a :: l)) ∧ (v = .treatments ∨ v = .outcome)) ∨
  (u = .instruments ∧ (∃ a l, ins = some (a :: l)) ∧ v = .treatments)

theorem present_iff {o : Option (List C)} : present o = true ↔ ∃ a l, o = some (a :: l) := by
  cases o with
  | none => simp [present]
  | some l => cases l <;> simp [present]

theorem parent_roleDict (adj cov ins : Option (List C)) (u v : Label) :
    Parent (roleDict adj cov ins) u v ↔
      (v = .adjustments ∧ present adj = true ∧ (u = .treatments ∨ u = .outcome)) ∨
      (v = .covariates ∧ present cov = true ∧ (u = .treatments ∨ u = .outcome)) ∨
      (v = .instruments ∧ present ins = true ∧ u = .treatments) := by
  unfold Parent roleDict
  cases present adj <;> cases present cov <;> cases present ins <;> cases u <;> cases v <;> simp

/-- **C128**: without a discovered matrix the call returns a graph, and apart from the missing link between treatments and outcome its
links are the expected ones - but every link is drawn in the opposite direction. -/
theorem C128_links (adj cov ins : Option (List C)) :
    ∃ g, causalGraph false adj cov ins = .ok g ∧
      ∀ u v, Parent g.causation u v ↔ ExpectedEdge adj cov ins v u ∧ ¬ (v = .treatments ∧ u = .outcome) := by
  refine ⟨_, rfl, fun u v => ?_⟩
  show Parent (roleDict adj cov ins) u v ↔ _
  rw [parent_roleDict]
  simp only [present_iff, ExpectedEdge]
  cases u <;> cases v <;> simp

/-- **C128, refuted**: whatever the roles, the returned graph has no causal path from the treatments to the outcome, and every role that is
present appears as an effect of the treatments and of the outcome instead of a cause. -/
theorem C128_refuted (adj cov ins : Option (List C)) :
    ∃ g, causalGraph false adj cov ins = .ok g ∧ ¬ Reach (Parent g.causation) .treatments .outcome ∧
      ¬ (∀ u v, Parent g.causation u v ↔ ExpectedEdge adj cov ins u v) ∧
      (present adj = true → Parent g.causation .outcome .adjustments ∧ ¬ Parent g.causation .adjustments .treatments) ∧
      (present cov = true → Parent g.causation .outcome .covariates ∧ ¬ Parent g.causation .covariates .treatments) ∧
      (present ins = true → Parent g.causation .treatments .instruments ∧ ¬ Parent g.causation .instruments .treatments) := by
  refine ⟨_, rfl, ?_, ?_, ?_, ?_, ?_⟩
  · intro h
    rcases Relation.ReflTransGen.cases_tail h with h | ⟨w, _, h⟩
    · cases h
    · have := (parent_roleDict adj cov ins _ _).1 h
      simp at this
  · intro h
    have h1 := (h .treatments .outcome).2 (.inl ⟨rfl, rfl⟩)
    have := (parent_roleDict adj cov ins _ _).1 h1
    simp at this
  all_goals
    intro hp
    constructor
    · exact (parent_roleDict adj cov ins _ _).2 (by simp [hp])
    · intro h
      have := (parent_roleDict adj cov ins _ _).1 h
      simp at this

/-- **C128, refuted** after causal discovery: the call always raises `TypeError`. -/
theorem C128_discovery_refuted (adj cov ins : Option (List C)) : causalGraph true adj cov ins = .error .type := rfl

example : present (some [1, 2]) = true ∧ present (none : Option (List Nat)) = false ∧
    roleDict (some [1]) (some [2]) (some [3]) =
      [(.adjustments, [.treatments, .outcome]), (.covariates, [.treatments, .outcome]), (.instruments, [.treatments])] := by decide

end

/-! ### C129 -/

section
variable {K : Type} [AddCommGroup K] [LinearOrder K] {n : Nat}

/-- A set that contains the outside causes of all treatments, no outcome and no effect of a treatment satisfies the back-door criterion. -/
theorem parents_backdoor {β : Type} [DecidableEq β] {E : β → β → Prop} (hac : Acyclic E) {X Y S : Set β} (hXY : ∀ x ∈ X, x ∉ Y)
    (hpar : ∀ x ∈ X, ∀ u, E u x → u ∉ X → u ∈ S) (hS : ∀ s ∈ S, s ∉ Y ∧ ∀ x ∈ X, ¬ Reach E x s) : BackDoor E X Y S := by
  refine ⟨hS, ?_⟩
  rw [dsep_iff_not_connected (acyclic_cutOut hac _)]
  · intro x hx y hy hr
    have hiso : ∀ w, ¬ Adj (MDG.SepEdge (CutOut E X) (X ∪ Y ∪ S) S) x w := by
      rintro w (hw | hw)
      · exact hw.1.2 hx
      · exact hw.2.1 (hpar x hx w hw.1.1 hw.1.2)
    rcases Relation.ReflTransGen.cases_head hr with rfl | ⟨w, hw, _⟩
    · exact hXY _ hx hy
    · exact hiso w hw
  · intro x hx hs; exact (hS x hs).2 x hx .refl
  · intro y hy hs; exact (hS y hs).1 hy

/-- **C129**, method `dfs`: when every treatment is a cause of the outcome, the covariates satisfy the back-door criterion in the discovered
graph exactly when no other variable lies between a treatment and the outcome. -/
theorem C129_dfs (W : Mat n K) (hac : Acyclic (PosEdge W)) {C : Type} [DecidableEq C] {names : Fin n → C} (hn : Function.Injective names)
    (y : Fin n) (ts : List (Fin n)) (hy : y ∉ ts) (hc : ∀ t ∈ ts, Reach (PosEdge W) t y) :
    ∃ cov, ciDfs W names (names y) (ts.map names) = .ok (cov, []) ∧
      (BackDoor (PosEdge W) {t | t ∈ ts} {y} {i | names i ∈ cov} ↔
        ¬ ∃ m, m ≠ y ∧ m ∉ ts ∧ Reach (PosEdge W) m y ∧ ∃ t ∈ ts, Reach (PosEdge W) t m) := by
  obtain ⟨cov, ins, h0, -, -, h1, h2⟩ := C59_dfs W hn y ts
  have hins : ins = [] := by
    apply List.eq_nil_iff_forall_not_mem.2
    intro i hi
    obtain ⟨_, _, ⟨t, ht, hr⟩, hno⟩ := (h2 i).1 hi
    exact hno (hr.trans (hc t ht))
  subst hins
  refine ⟨cov.map names, h0, ?_⟩
  have hset : ({i | names i ∈ cov.map names} : Set (Fin n)) = {i | i ∈ cov} := by
    ext i
    simp only [Set.mem_setOf_eq, List.mem_map]
    exact ⟨fun ⟨j, hj, e⟩ => hn e ▸ hj, fun h => ⟨i, h, rfl⟩⟩
  rw [hset]
  constructor
  · rintro ⟨hb, -⟩ ⟨m, m1, m2, m3, t, ht, m4⟩
    exact (hb m ((h1 m).2 ⟨m1, m2, m3⟩)).2 t ht m4
  · intro hm
    refine parents_backdoor hac (fun x hx e => hy (by rw [Set.mem_singleton_iff.1 e] at hx; exact hx)) (fun x hx u hu hux => ?_) (fun s hs => ?_)
    · refine (h1 u).2 ⟨?_, hux, (Relation.ReflTransGen.single hu).trans (hc x hx)⟩
      rintro rfl
      exact hac u (Relation.TransGen.head' hu (hc x hx))
    · obtain ⟨s1, s2, s3⟩ := (h1 s).1 hs
      exact ⟨s1, fun x hx hr => hm ⟨s, s1, s2, s3, x, hx, hr⟩⟩

/-- x → m → y and z → x, z → y: the mediator m is a covariate, which violates the criterion -/
example : Acyclic (PosEdge (![![0, 1, 0, 1], ![0, 0, 1, 0], ![0, 0, 0, 1], ![0, 0, 0, 0]] : Mat 4 Int)) ∧
    ciDfs (![![0, 1, 0, 1], ![0, 0, 1, 0], ![0, 0, 0, 1], ![0, 0, 0, 0]] : Mat 4 Int) (![10, 11, 12, 13] : Fin 4 → Nat) 13 [11] =
      .ok ([10, 12], []) := by
  refine ⟨?_, by decide +kernel⟩
  have hlt : ∀ i j, PosEdge (![![0, 1, 0, 1], ![0, 0, 1, 0], ![0, 0, 0, 1], ![0, 0, 0, 0]] : Mat 4 Int) i j → i < j := by
    unfold PosEdge; decide
  intro a ha
  have : ∀ b, Reach1 (PosEdge (![![0, 1, 0, 1], ![0, 0, 1, 0], ![0, 0, 0, 1], ![0, 0, 0, 0]] : Mat 4 Int)) a b → a < b := by
    intro b hb
    induction hb with
    | single h => exact hlt _ _ h
    | tail _ h ih => exact ih.trans (hlt _ _ h)
  exact lt_irrefl _ (this a ha)

/-- **C129, refuted** for `dfs`: with x → m → y and the confounder z of x and y, the mediator m becomes a covariate, and the covariates do not
satisfy the back-door criterion, although {z} does. -/
theorem C129_dfs_refuted :
    let W := (![![0, 1, 0, 1], ![0, 0, 1, 0], ![0, 0, 0, 1], ![0, 0, 0, 0]] : Mat 4 Int)
    ciDfs W (![10, 11, 12, 13] : Fin 4 → Nat) 13 [11] = .ok ([10, 12], []) ∧
    ¬ BackDoor (PosEdge W) {1} {3} {0, 2} ∧ BackDoor (PosEdge W) {1} {3} {0} := by
  intro W
  have hlt : ∀ i j, PosEdge W i j → i < j := by unfold PosEdge; decide
  have hlt' : ∀ i j, Reach (PosEdge W) i j → i ≤ j := by
    intro i j h
    induction h with
    | refl => exact le_refl _
    | tail _ h ih => exact ih.trans (hlt _ _ h).le
  have hac : Acyclic (PosEdge W) := by
    intro a ha
    obtain ⟨b, h1, h2⟩ := Relation.TransGen.tail'_iff.1 ha
    exact absurd (hlt _ _ h2) (not_lt.2 (hlt' _ _ h1))
  refine ⟨by decide +kernel, fun h => ?_, ?_⟩
  · refine (h.1 2 (by simp)).2 1 rfl (.single ?_)
    unfold PosEdge; decide
  · refine parents_backdoor hac (by simp) ?_ ?_
    · rintro x rfl u hu -
      have : ∀ u, PosEdge W u 1 → u = 0 := by unfold PosEdge; decide
      exact this u hu
    · rintro s rfl
      refine ⟨by simp, ?_⟩
      rintro x rfl h
      have := hlt' _ _ h
      revert this; decide

end

section
variable {α : Type} [DecidableEq α] [LatentNames α] [CharNames α] {K : Type} [AddCommGroup K] [LinearOrder K] {n : Nat}

/-- the dictionary of a discovered graph lists the direct and indirect causes -/
theorem parent_matrix2dict {W : Mat n K} {names : Fin n → α} (hn : Function.Injective names) (u : α) (j : Fin n) :
    Parent (Discovery.matrix2dict W names) u (names j) ↔ ∃ i, u = names i ∧ i ≠ j ∧ Reach (MatEdge W) i j := by
  unfold Parent Discovery.matrix2dict
  constructor
  · rintro ⟨ps, hps, hu⟩
    obtain ⟨k, -, hk⟩ := List.mem_map.1 hps
    simp only [Prod.mk.injEq] at hk
    obtain ⟨h1, rfl⟩ := hk
    obtain rfl := hn h1
    obtain ⟨i, hi, rfl⟩ := List.mem_map.1 hu
    simp only [List.mem_filter, List.mem_finRange, true_and, decide_eq_true_eq] at hi
    rw [mem_dfsTargets] at hi
    exact ⟨i, rfl, hi⟩
  · rintro ⟨i, rfl, hi⟩
    refine ⟨_, List.mem_map.2 ⟨j, List.mem_finRange j, rfl⟩, List.mem_map.2 ⟨i, ?_, rfl⟩⟩
    simp only [List.mem_filter, List.mem_finRange, true_and, decide_eq_true_eq]
    rw [mem_dfsTargets]
    exact hi

theorem keys_matrix2dict {W : Mat n K} {names : Fin n → α} : Causation.keys (Discovery.matrix2dict W names) = (List.finRange n).map names := by
  simp [Causation.keys, Discovery.matrix2dict, Function.comp_def]

theorem parent_right {W : Mat n K} {names : Fin n → α} {u v : α} (h : Parent (Discovery.matrix2dict W names) u v) : ∃ j, v = names j := by
  obtain ⟨ps, hps, -⟩ := h
  obtain ⟨k, -, hk⟩ := List.mem_map.1 hps
  simp only [Prod.mk.injEq] at hk
  exact ⟨k, hk.1.symm⟩

theorem isDict_matrix2dict {W : Mat n K} {names : Fin n → α} (hn : Function.Injective names) : IsDict (Discovery.matrix2dict W names) := by
  constructor
  · have := keys_matrix2dict (W := W) (names := names)
    unfold Causation.keys at this
    rw [this]
    exact (List.nodup_finRange n).map hn
  · intro kv hkv
    obtain ⟨k, -, rfl⟩ := List.mem_map.1 hkv
    exact ((List.nodup_finRange n).filter _).map hn

theorem isDiagram_matrix2dict {W : Mat n K} (hac : Acyclic (MatEdge W)) {names : Fin n → α} (hn : Function.Injective names)
    (hU : ∀ i k, names i ≠ U k) : IsDiagram (Discovery.matrix2dict W names) [] U := by
  refine ⟨?_, by simp, fun k => ⟨?_, ?_, by rintro u (h | h) <;> simp at h⟩⟩
  · have key : ∀ u v, Reach1 (Parent (Discovery.matrix2dict W names)) u v → ∃ i j, u = names i ∧ v = names j ∧ Reach1 (MatEdge W) i j := by
      intro u v h
      induction h with
      | single h =>
        obtain ⟨j, rfl⟩ := parent_right h
        obtain ⟨i, rfl, hne, hr⟩ := (parent_matrix2dict hn _ _).1 h
        exact ⟨i, j, rfl, rfl, (Relation.reflTransGen_iff_eq_or_transGen.1 hr).resolve_left (fun e => hne e.symm)⟩
      | tail _ h ih =>
        obtain ⟨j, rfl⟩ := parent_right h
        obtain ⟨i, hi, hne, hr⟩ := (parent_matrix2dict hn _ _).1 h
        obtain ⟨i0, j0, rfl, e, h0⟩ := ih
        obtain rfl := hn (e.symm.trans hi)
        exact ⟨i0, j, rfl, rfl, h0.trans_left hr⟩
    intro a ha
    obtain ⟨i, j, e1, e2, h⟩ := key a a ha
    obtain rfl := hn (e1.symm.trans e2)
    exact hac i h
  · have := keys_matrix2dict (W := W) (names := names)
    unfold Causation.keys at this
    rw [this]
    intro h
    obtain ⟨i, -, h⟩ := List.mem_map.1 h
    exact hU i k h
  · rintro ⟨u, h | h⟩
    · obtain ⟨j, e⟩ := parent_right h
      exact hU j k e.symm
    · obtain ⟨j, rfl⟩ := parent_right h
      obtain ⟨i, e, -⟩ := (parent_matrix2dict hn _ _).1 h
      exact hU i k e.symm

/-- no instrument of a treatment that causes the outcome survives the closure -/
theorem getIV_closure {W : Mat n K} (hac : Acyclic (MatEdge W)) {names : Fin n → α} (hn : Function.Injective names)
    (hU : ∀ i k, names i ≠ U k) {t y : Fin n} (hty : t ≠ y) (hr : Reach (MatEdge W) t y) {r : Option (List α)}
    (hok : getIV (CG.init (Discovery.matrix2dict W names)) (names t) (names y) = .ok r) : r.getD [] = [] := by
  have hdi := isDiagram_matrix2dict hac hn hU
  have hE := C08_explicit_faithful_partial _ _ hdi
  apply List.eq_nil_iff_forall_not_mem.2
  intro z hz
  obtain ⟨hp, hno⟩ := (mem_getIV hdi (isDict_matrix2dict hn) hok z).1 hz
  obtain ⟨i, rfl, hit, hri⟩ := (parent_matrix2dict hn _ _).1 hp
  have hiy : i ≠ y := by
    rintro rfl
    rcases Relation.reflTransGen_iff_eq_or_transGen.1 hr with e | h
    · exact hty e.symm
    · exact hac t (h.trans_left hri)
  refine hno ⟨names i, names i, fun e => hiy (hn e), .single ⟨?_, ?_⟩, .refl, rfl⟩
  · exact (hE.observed _ _ (hU i)).2 ((parent_matrix2dict hn _ _).2 ⟨i, rfl, hiy, hri.trans hr⟩)
  · intro e; exact hty (hn (Set.mem_singleton_iff.1 e)).symm

/-- **C129**: with a causal model no instrument is ever reported when the first treatment causes the outcome: the dictionary lists indirect
causes too, so every cause of the treatment appears as a direct cause of the outcome. -/
theorem C129_no_instruments {W : Mat n K} (hac : Acyclic (MatEdge W)) {names : Fin n → α} (hn : Function.Injective names)
    (hU : ∀ i k, names i ≠ U k) {t y : Fin n} (ts : List (Fin n)) (hty : t ≠ y) (hr : Reach (MatEdge W) t y)
    {ord : List α → List α} {method : CMod.Method} {cov : List (WhyGraph.Cov α)} {ins : Option (List α)}
    (hok : ciModel ord W names (names y) ((t :: ts).map names) method = .ok (cov, ins)) : ins.getD [] = [] := by
  have : ins = modelIV (CG.init (Discovery.matrix2dict W names)) (names y) ((t :: ts).map names) := by
    unfold ciModel at hok
    simp only at hok
    split at hok
    · cases hok
    · split at hok
      · cases hok
      · simp only [Except.ok.injEq, Prod.mk.injEq] at hok; exact hok.2.symm
  rw [this]
  unfold modelIV tryIV
  simp only [List.map_cons]
  cases h : getIV (CG.init (Discovery.matrix2dict W names)) (names t) (names y) with
  | error e => rfl
  | ok r =>
    have h0 := getIV_closure hac hn hU hty hr h
    have he : Why.isEmpty (r.map (others (names y) (names t :: ts.map names))) = true := by
      cases r with
      | none => rfl
      | some l =>
        have : l = [] := h0
        subst this
        rfl
    simp only
    have hrest : ∀ l, restIV (CG.init (Discovery.matrix2dict W names)) (names y) (names t :: ts.map names) l
        (r.map (others (names y) (names t :: ts.map names))) = .ok (r.map (others (names y) (names t :: ts.map names))) := by
      intro l
      cases l with
      | nil => rfl
      | cons x xs => simp only [restIV, he, if_true]
    rw [hrest]
    cases r with
    | none => rfl
    | some l =>
      have : l = [] := h0
      subst this
      rfl


/-- `identify` with the back-door method on a new model -/
theorem identify_backdoor (ord : List α → List α) (g : CG α) (ts : List α) (y : α) (hts : ts ≠ []) (hy : CharNames.chars y ≠ []) (a : Adjust)
    (hk : ∀ v ∈ ts ++ [y], v ∈ g.causation.keys) :
    (CMod.identify ord (CMod.CM.new g) (.list ts) (.name y) (.backdoor a)).1 =
      match getBackdoorSet ord g ts [y] a with
      | .error e => .error e
      | .ok b => .ok [.backdoor b] := by
  have h1 : (CMod.Arg.list ts : CMod.Arg α).truthy = true := by cases ts with | nil => exact absurd rfl hts | cons => rfl
  have h2 : (CMod.Arg.name y : CMod.Arg α).truthy = true := by
    unfold CMod.Arg.truthy
    cases h : CharNames.chars y with | nil => exact absurd h hy | cons => simp [h]
  have h3 : checkNodes g.causation.keys (ts ++ [y]) = .ok () := checkNodes_of hk
  simp only [CMod.identify, h1, h2, Bool.and_self, if_true, CMod.CM.new, CMod.Arg.wrapped, h3, CMod.backdoor]
  rcases getBackdoorSet ord g ts [y] a with e | (_ | ⟨r, p⟩)
  · rfl
  · rfl
  · cases r <;> rfl

/-- **C129**, method `("backdoor", "simple")` with a causal model: if some treatment has a cause, the call answers; the covariates are exactly
the direct and indirect causes of the treatments other than treatments, outcome and reported instruments, each once. If every
treatment causes the outcome, there are no instruments, and the covariates satisfy the back-door criterion in the discovered graph
unless one of them is itself an effect of a treatment. -/
theorem C129_simple {W : Mat n K} (hac : Acyclic (MatEdge W)) {names : Fin n → α} (hn : Function.Injective names)
    (hU : ∀ i k, names i ≠ U k) (ord : List α → List α) {y : Fin n} (hyc : CharNames.chars (names y) ≠ []) {ts : List (Fin n)} (hy : y ∉ ts)
    (hroot : ∃ t ∈ ts, ∃ i, MatEdge W i t) :
    ∃ (cov : List α) (ins : Option (List α)),
      ciModel ord W names (names y) (ts.map names) (.backdoor .simple) = .ok (cov.map Cov.name, ins) ∧ cov.Nodup ∧
      (∀ c, c ∈ cov ↔ ∃ i, c = names i ∧ i ≠ y ∧ i ∉ ts ∧ (∃ t ∈ ts, Reach (MatEdge W) i t) ∧ c ∉ ins.getD []) ∧
      ((∀ t ∈ ts, Reach (MatEdge W) t y) → ins.getD [] = [] ∧
        ((∀ i, names i ∈ cov → ∀ t ∈ ts, ¬ Reach (MatEdge W) t i) →
          BackDoor (MatEdge W) {t | t ∈ ts} {y} {i | names i ∈ cov})) := by
  set c := Discovery.matrix2dict W names with hc
  have hdi : IsDiagram c [] U := isDiagram_matrix2dict hac hn hU
  have hD : IsDict c := isDict_matrix2dict hn
  have hkeys : ∀ i, names i ∈ Causation.keys c := fun i => by
    rw [hc, keys_matrix2dict]; exact List.mem_map_of_mem (List.mem_finRange i)
  have htsne : ts.map names ≠ [] := by
    obtain ⟨t, ht, _⟩ := hroot
    intro h
    rw [List.map_eq_nil_iff] at h
    subst h; cases ht
  have hget : ∀ t, Causation.get c (names t) = [] ↔ ∀ i, ¬ MatEdge W i t := by
    intro t
    rw [List.eq_nil_iff_forall_not_mem]
    constructor
    · intro h i hi
      refine h (names i) ((Causation.parent_iff hD.1 _ _).1 ((parent_matrix2dict hn _ _).2 ⟨i, rfl, ?_, .single hi⟩))
      rintro rfl
      exact hac i (.single hi)
    · intro h z hz
      obtain ⟨i, rfl, hne, hr⟩ := (parent_matrix2dict hn _ _).1 ((Causation.parent_iff hD.1 _ _).2 hz)
      rcases Relation.ReflTransGen.cases_tail hr with e | ⟨w, _, hw⟩
      · exact hne e.symm
      · exact h w hw
  have hbd : getBackdoorSet ord (CG.init c) (ts.map names) [names y] .simple =
      .ok (some (.names ((ts.map names).flatMap (fun t => Causation.get c t)),
        backdoorProb (ts.map names) [names y] ((ts.map names).flatMap (fun t => Causation.get c t)))) := by
    have hX : ∀ x ∈ ts.map names, x ∈ Causation.keys c := by
      intro x hx
      obtain ⟨t, -, rfl⟩ := List.mem_map.1 hx
      exact hkeys t
    obtain ⟨gm, g1, g2, g3⟩ := removeOutgoing_explicit hD hdi hX
    unfold getBackdoorSet
    have hck : checkNodes (CG.init c).causation.keys ([names y] ++ ts.map names) = .ok () := by
      apply checkNodes_of
      intro v hv
      rcases List.mem_append.1 hv with hv | hv
      · rw [List.mem_singleton.1 hv]; exact hkeys y
      · exact hX v hv
    rw [hck]
    simp only [g1]
    have hall : (ts.map names).all (fun t => (CG.init c).causation.get t = []) = false := by
      rw [Bool.eq_false_iff]
      intro h
      rw [List.all_eq_true] at h
      obtain ⟨t, ht, i, hi⟩ := hroot
      have := h (names t) (List.mem_map_of_mem ht)
      simp only [decide_eq_true_eq] at this
      exact (hget t).1 this i hi
    simp only [hall, if_true]
    rfl
  set S := (ts.map names).flatMap (fun t => Causation.get c t) with hS
  set ins := modelIV (CG.init c) (names y) (ts.map names) with hins
  have hmemS : ∀ z, z ∈ S ↔ ∃ i, z = names i ∧ ∃ t ∈ ts, i ≠ t ∧ Reach (MatEdge W) i t := by
    intro z
    rw [hS, List.mem_flatMap]
    constructor
    · rintro ⟨v, hv, hz⟩
      obtain ⟨t, ht, rfl⟩ := List.mem_map.1 hv
      obtain ⟨i, rfl, h⟩ := (parent_matrix2dict hn _ _).1 ((Causation.parent_iff hD.1 _ _).2 hz)
      exact ⟨i, rfl, t, ht, h⟩
    · rintro ⟨i, rfl, t, ht, h⟩
      exact ⟨names t, List.mem_map_of_mem ht, (Causation.parent_iff hD.1 _ _).1 ((parent_matrix2dict hn _ _).2 ⟨i, rfl, h⟩)⟩
  have hci : ciModel ord W names (names y) (ts.map names) (.backdoor .simple) =
      .ok (((others (names y) (ts.map names) S.dedup).filter (fun c => decide (c ∉ ins.getD []))).map Cov.name, ins) := by
    unfold ciModel
    simp only
    rw [← hc, identify_backdoor ord _ _ _ htsne hyc _ (by
      intro v hv
      rcases List.mem_append.1 hv with hv | hv
      · obtain ⟨t, -, rfl⟩ := List.mem_map.1 hv; exact hkeys t
      · rw [List.mem_singleton.1 hv]; exact hkeys y), hbd]
    rfl
  have hcov : ∀ z, z ∈ (others (names y) (ts.map names) S.dedup).filter (fun c => decide (c ∉ ins.getD [])) ↔
      ∃ i, z = names i ∧ i ≠ y ∧ i ∉ ts ∧ (∃ t ∈ ts, Reach (MatEdge W) i t) ∧ z ∉ ins.getD [] := by
    intro z
    simp only [others, List.mem_filter, decide_eq_true_eq, List.mem_dedup, hmemS]
    constructor
    · rintro ⟨⟨⟨i, rfl, t, ht, hne, hr⟩, h1, h2⟩, h3⟩
      exact ⟨i, rfl, fun e => h1 (by rw [e]), fun e => h2 (List.mem_map_of_mem e), ⟨t, ht, hr⟩, h3⟩
    · rintro ⟨i, rfl, h1, h2, ⟨t, ht, hr⟩, h3⟩
      refine ⟨⟨⟨i, rfl, t, ht, fun e => h2 (e ▸ ht), hr⟩, fun e => h1 (hn e), fun e => ?_⟩, h3⟩
      obtain ⟨t', ht', e⟩ := List.mem_map.1 e
      exact h2 (hn e ▸ ht')
  refine ⟨_, ins, hci, ((S.nodup_dedup).filter _).filter _, hcov, fun hcause => ?_⟩
  have h0 : ins.getD [] = [] := by
    obtain ⟨t, ts', rfl⟩ : ∃ t ts', ts = t :: ts' := by
      obtain ⟨t, ht, _⟩ := hroot
      cases ts with
      | nil => cases ht
      | cons a l => exact ⟨a, l, rfl⟩
    exact C129_no_instruments hac hn hU ts' (fun e => hy (by simp [e])) (hcause t (by simp)) hci
  refine ⟨h0, fun hno => ?_⟩
  refine parents_backdoor hac (fun x hx e => hy (by rw [Set.mem_singleton_iff.1 e] at hx; exact hx)) (fun x hx u hu hux => ?_) (fun s hs => ⟨?_, fun x hx => hno s hs x hx⟩)
  · refine (hcov _).2 ⟨u, rfl, ?_, hux, ⟨x, hx, .single hu⟩, by rw [h0]; simp⟩
    rintro rfl
    exact hac u (Relation.TransGen.head' hu (hcause x hx))
  · obtain ⟨i, e, h1, -⟩ := (hcov _).1 hs
    exact fun e' => h1 (hn e ▸ Set.mem_singleton_iff.1 e')

/-- the instruments of an answer or of an exception -/
def ivOf : Except Err (Option (List α)) → List α
  | .error _ => []
  | .ok r => r.getD []

theorem mem_restIV (g : CG α) (y : α) (ts : List α) (c : α) : ∀ (xs : List α) (ins : Option (List α)),
    c ∈ ivOf (restIV g y ts xs ins) ↔ c ∈ ins.getD [] ∧ ∀ x ∈ xs, c ∈ others y ts (ivOf (getIV g x y)) := by
  intro xs
  induction xs with
  | nil => intro ins; simp [restIV, ivOf]
  | cons x xs ih =>
    intro ins
    unfold restIV
    by_cases he : Why.isEmpty ins = true
    · have h0 : ins.getD [] = [] := by
        cases ins with
        | none => rfl
        | some l => cases l with | nil => rfl | cons => simp [Why.isEmpty] at he
      rw [if_pos he]
      simp [ivOf, h0]
    · rw [if_neg he]
      cases hg : getIV g x y with
      | error e => simp [ivOf, others, hg]
      | ok iv =>
        simp only []
        by_cases hi : Why.isEmpty iv = true
        · have h0 : iv.getD [] = [] := by
            cases iv with
            | none => rfl
            | some l => cases l with | nil => rfl | cons => simp [Why.isEmpty] at hi
          rw [if_pos hi]
          simp [ivOf, others, hg, h0]
        · rw [if_neg hi, ih]
          simp only [Option.getD_some, List.mem_filter, decide_eq_true_eq, List.mem_cons, forall_eq_or_imp, hg, ivOf]
          tauto

theorem mem_modelIV (g : CG α) (y : α) {ts : List α} (hts : ts ≠ []) (c : α) :
    c ∈ (modelIV g y ts).getD [] ↔ ∀ x ∈ ts, c ∈ others y ts (ivOf (getIV g x y)) := by
  have h1 : (modelIV g y ts).getD [] = ivOf (tryIV g y ts) := by
    unfold modelIV
    cases tryIV g y ts <;> rfl
  rw [h1]
  cases ts with
  | nil => exact absurd rfl hts
  | cons t rest =>
    unfold tryIV
    cases hg : getIV g t y with
    | error e => simp [ivOf, others, hg]
    | ok iv =>
      simp only [hg]
      rw [mem_restIV]
      have : (iv.map (others y (t :: rest))).getD [] = others y (t :: rest) (iv.getD []) := by cases iv <;> rfl
      rw [this]
      simp [hg, ivOf]

/-- in the graph of all direct and indirect causes, what can be reached without entering `t` is what can be reached at all -/
theorem reach_closure_cut {W : Mat n K} (hac : Acyclic (MatEdge W)) {names : Fin n → α} (hn : Function.Injective names)
    (hU : ∀ i k, names i ≠ U k) {t j : Fin n} (htj : j ≠ t) (w : α) :
    Reach (CutIn (CG.init (Discovery.matrix2dict W names)).explicitDag.E {names t}) w (names j) ↔
      ∃ i, w = names i ∧ Reach (MatEdge W) i j := by
  have hdi := isDiagram_matrix2dict hac hn hU
  have hE := C08_explicit_faithful_partial _ _ hdi
  constructor
  · intro h
    induction h using Relation.ReflTransGen.head_induction_on with
    | refl => exact ⟨j, rfl, .refl⟩
    | @head a b h1 _ ih =>
      obtain ⟨i, rfl, hi⟩ := ih
      by_cases hU' : ∃ k, a = U k
      · obtain ⟨k, rfl⟩ := hU'
        obtain ⟨p, q, hp, -⟩ := hE.only k _ h1.1
        rcases hp with hp | hp <;> simp at hp
      · obtain ⟨i', e, hne, hr⟩ := (parent_matrix2dict hn _ _).1 ((hE.observed _ _ (fun k e => hU' ⟨k, e⟩)).1 h1.1)
        exact ⟨i', e, hr.trans hi⟩
  · rintro ⟨i, rfl, hr⟩
    by_cases e : i = j
    · subst e; exact .refl
    · exact .single ⟨(hE.observed _ _ (hU i)).2 ((parent_matrix2dict hn _ _).2 ⟨i, rfl, e, hr⟩),
        fun h => htj (hn (Set.mem_singleton_iff.1 h))⟩

/-- **C129**, which instruments the methods with a causal model report: if the outcome has a neighbour in the discovered graph, exactly the variables
(other than treatments and outcome) that cause all treatments and share no cause with the outcome, where a variable counts as a cause of
itself unless it is the outcome. -/
theorem C129_instruments {W : Mat n K} (hac : Acyclic (MatEdge W)) {names : Fin n → α} (hn : Function.Injective names)
    (hU : ∀ i k, names i ≠ U k) {y : Fin n} {ts : List (Fin n)} (hts : ts ≠ []) (hyt : y ∉ ts) (hy : ∃ u, MatEdge W u y ∨ MatEdge W y u)
    {ord : List α → List α} {method : CMod.Method} {cov : List (WhyGraph.Cov α)} {ins : Option (List α)}
    (hok : ciModel ord W names (names y) (ts.map names) method = .ok (cov, ins)) (c : α) :
    c ∈ ins.getD [] ↔ ∃ i, c = names i ∧ i ≠ y ∧ i ∉ ts ∧ (∀ t ∈ ts, Reach (MatEdge W) i t) ∧
      ¬ ∃ w, w ≠ y ∧ Reach (MatEdge W) w y ∧ Reach (MatEdge W) w i := by
  have hins : ins = modelIV (CG.init (Discovery.matrix2dict W names)) (names y) (ts.map names) := by
    unfold ciModel at hok
    simp only at hok
    split at hok
    · cases hok
    · split at hok
      · cases hok
      · simp only [Except.ok.injEq, Prod.mk.injEq] at hok; exact hok.2.symm
  have hdi := isDiagram_matrix2dict hac hn hU
  have hD := isDict_matrix2dict (W := W) hn
  rw [hins, mem_modelIV _ _ (by simpa using hts)]
  have hnei : ∀ a b : Fin n, MatEdge W a b → Parent (Discovery.matrix2dict W names) (names a) (names b) := by
    intro a b hab
    refine (parent_matrix2dict hn _ _).2 ⟨a, rfl, ?_, .single hab⟩
    rintro rfl
    exact hac a (.single hab)
  have hoth : ∀ l : List α, c ∈ others (names y) (ts.map names) l ↔ c ∈ l ∧ c ≠ names y ∧ c ∉ ts.map names := by
    intro l; unfold others; rw [List.mem_filter, decide_eq_true_eq]
  simp only [hoth]
  constructor
  · intro hall
    obtain ⟨t0, ht0⟩ := List.exists_mem_of_ne_nil _ hts
    have key : ∀ t ∈ ts, ∃ i, c = names i ∧ Reach (MatEdge W) i t ∧ ¬ ∃ w, w ≠ y ∧ Reach (MatEdge W) w y ∧ Reach (MatEdge W) w i := by
      intro t ht
      obtain ⟨h1, h2, h3⟩ := hall (names t) (List.mem_map_of_mem ht)
      cases hg : getIV (CG.init (Discovery.matrix2dict W names)) (names t) (names y) with
      | error e => rw [hg] at h1; simp [ivOf] at h1
      | ok r =>
        rw [hg] at h1
        obtain ⟨hp, hno⟩ := (mem_getIV hdi hD hg c).1 h1
        obtain ⟨i, rfl, hit, hri⟩ := (parent_matrix2dict hn _ _).1 hp
        refine ⟨i, rfl, hri, ?_⟩
        rintro ⟨w, hwy, w1, w2⟩
        have hyt' : y ≠ t := fun e => hyt (e ▸ ht)
        exact hno ⟨names w, names i, fun e => hwy (hn e), (reach_closure_cut hac hn hU hyt' _).2 ⟨w, rfl, w1⟩,
          (reach_closure_cut hac hn hU hit _).2 ⟨w, rfl, w2⟩, rfl⟩
    obtain ⟨i, rfl, hi1, hi2⟩ := key t0 ht0
    obtain ⟨-, h2, h3⟩ := hall (names t0) (List.mem_map_of_mem ht0)
    refine ⟨i, rfl, fun e => h2 (e ▸ rfl), fun hi => h3 (List.mem_map_of_mem hi), ?_, hi2⟩
    intro t ht
    obtain ⟨i', e, hi', -⟩ := key t ht
    rw [hn e]; exact hi'
  · rintro ⟨i, rfl, hiy, hits, hcause, hno⟩ x hx
    obtain ⟨t, ht, rfl⟩ := List.mem_map.1 hx
    have hit : i ≠ t := fun e => hits (e ▸ ht)
    have hpar : Parent (Discovery.matrix2dict W names) (names i) (names t) := (parent_matrix2dict hn _ _).2 ⟨i, rfl, hit, hcause t ht⟩
    refine ⟨?_, fun e => hiy (hn e), fun h => ?_⟩
    · obtain ⟨G, hG, htot⟩ := C24_get_iv_total _ _ hdi
      have hk : ∀ j, names j ∈ (Discovery.matrix2dict W names).map (·.1) := fun j => by
        have := keys_matrix2dict (W := W) (names := names)
        unfold Causation.keys at this
        rw [this]; exact List.mem_map_of_mem (List.mem_finRange j)
      obtain ⟨r, hr, -⟩ := htot (names t) (names y) (hk t) (hk y) ⟨names i, Or.inl ((hG.observed _ _ (hU i)).2 hpar)⟩ (by
        obtain ⟨u, hu | hu⟩ := hy
        · exact ⟨names u, Or.inl ((hG.observed _ _ (hU u)).2 (hnei _ _ hu))⟩
        · exact ⟨names u, Or.inr ((hG.observed _ _ (hU y)).2 (hnei _ _ hu))⟩)
      rw [hr]
      show names i ∈ r.getD []
      rw [mem_getIV hdi hD hr]
      refine ⟨hpar, ?_⟩
      rintro ⟨w, v, hwy, w1, w2, rfl⟩
      have hyt' : y ≠ t := fun e => hyt (e ▸ ht)
      obtain ⟨j, rfl, j1⟩ := (reach_closure_cut hac hn hU hyt' _).1 w1
      obtain ⟨j', e, j2⟩ := (reach_closure_cut hac hn hU hit _).1 w2
      obtain rfl := hn e
      exact hno ⟨j, fun e => hwy (e ▸ rfl), j1, j2⟩
    · obtain ⟨t', ht', e⟩ := List.mem_map.1 h
      exact hits (hn e ▸ ht')

/-- the hypothesis about effects of treatments holds for a single treatment -/
theorem C129_single {W : Mat n K} (hac : Acyclic (MatEdge W)) {names : Fin n → α} (hn : Function.Injective names)
    (hU : ∀ i k, names i ≠ U k) (ord : List α → List α) {t y : Fin n} (hyc : CharNames.chars (names y) ≠ []) (hty : t ≠ y)
    (hroot : ∃ i, MatEdge W i t) (hr : Reach (MatEdge W) t y) :
    ∃ (cov : List α) (ins : Option (List α)),
      ciModel ord W names (names y) [names t] (.backdoor .simple) = .ok (cov.map Cov.name, ins) ∧ ins.getD [] = [] ∧
      (∀ c, c ∈ cov ↔ ∃ i, c = names i ∧ i ≠ t ∧ Reach (MatEdge W) i t) ∧ BackDoor (MatEdge W) {t} {y} {i | names i ∈ cov} := by
  obtain ⟨cov, ins, h1, -, h3, h4⟩ := C129_simple hac hn hU ord hyc (ts := [t]) (by simpa using hty.symm) (by simpa using hroot)
  have back : ∀ i, Reach (MatEdge W) t i → Reach (MatEdge W) i t → i = t := by
    intro i a b
    rcases Relation.reflTransGen_iff_eq_or_transGen.1 a with e | h
    · exact e
    · exact absurd (h.trans_left b) (hac t)
  obtain ⟨h5, h6⟩ := h4 (by simpa using hr)
  have h3' : ∀ c, c ∈ cov ↔ ∃ i, c = names i ∧ i ≠ t ∧ Reach (MatEdge W) i t := by
    intro c
    rw [h3]
    constructor
    · rintro ⟨i, e, -, h, ⟨t', ht', hr'⟩, -⟩
      rw [List.mem_singleton] at h ht'
      subst ht'
      exact ⟨i, e, h, hr'⟩
    · rintro ⟨i, e, h, hr'⟩
      refine ⟨i, e, ?_, by simpa using h, ⟨t, by simp, hr'⟩, by rw [h5]; simp⟩
      rintro rfl
      exact hty (back _ hr hr').symm
  refine ⟨cov, ins, h1, h5, h3', ?_⟩
  have := h6 (by
    intro i hi t' ht' hrt
    rw [List.mem_singleton] at ht'
    subst ht'
    obtain ⟨j, e, hne, hj⟩ := (h3' _).1 hi
    obtain rfl := hn e
    exact hne (back _ hrt hj))
  simpa using this

/-- **C129, refuted**: if no treatment has a cause, the call raises `NodeNotFound` instead of answering that nothing needs to be adjusted for. -/
theorem C129_roots_refuted {W : Mat n K} (hac : Acyclic (MatEdge W)) {names : Fin n → α} (hn : Function.Injective names)
    (hU : ∀ i k, names i ≠ U k) (ord : List α → List α) {y : Fin n} (hyc : CharNames.chars (names y) ≠ []) {ts : List (Fin n)} (hts : ts ≠ [])
    (hroot : ∀ t ∈ ts, ∀ i, ¬ MatEdge W i t) (a : Adjust) :
    ciModel ord W names (names y) (ts.map names) (.backdoor a) = .error .nodeNotFound := by
  set c := Discovery.matrix2dict W names with hc
  have hdi : IsDiagram c [] U := isDiagram_matrix2dict hac hn hU
  have hD : IsDict c := isDict_matrix2dict hn
  have hE := C08_explicit_faithful_partial c [] hdi
  have hkeys : ∀ i, names i ∈ Causation.keys c := fun i => by
    rw [hc, keys_matrix2dict]; exact List.mem_map_of_mem (List.mem_finRange i)
  have htsne : ts.map names ≠ [] := by simpa using hts
  have hnp : ∀ t ∈ ts, ∀ u, ¬ Parent c u (names t) := by
    intro t ht u hu
    obtain ⟨i, rfl, hne, hr⟩ := (parent_matrix2dict hn _ _).1 hu
    rcases Relation.ReflTransGen.cases_tail hr with e | ⟨w, _, hw⟩
    · exact hne e.symm
    · exact hroot t ht w hw
  have hX : ∀ x ∈ ts.map names, x ∈ Causation.keys c := by
    intro x hx
    obtain ⟨t, -, rfl⟩ := List.mem_map.1 hx
    exact hkeys t
  obtain ⟨gm, g1, g2, g3⟩ := removeOutgoing_explicit hD hdi hX
  have hbd : getBackdoorSet ord (CG.init c) (ts.map names) [names y] a = .error .nodeNotFound := by
    unfold getBackdoorSet
    have hck : checkNodes (CG.init c).causation.keys ([names y] ++ ts.map names) = .ok () := by
      apply checkNodes_of
      intro v hv
      rcases List.mem_append.1 hv with hv | hv
      · rw [List.mem_singleton.1 hv]; exact hkeys y
      · exact hX v hv
    rw [hck]
    simp only [g1]
    have hall : (ts.map names).all (fun t => (CG.init c).causation.get t = []) = true := by
      rw [List.all_eq_true]
      intro v hv
      obtain ⟨t, ht, rfl⟩ := List.mem_map.1 hv
      simp only [decide_eq_true_eq]
      rw [List.eq_nil_iff_forall_not_mem]
      intro z hz
      exact hnp t ht z ((Causation.parent_iff hD.1 _ _).2 hz)
    have hsep : gm.explicitDag.dSeparated (ts.map names) [names y] [] = .error .nodeNotFound := by
      refine MDG.dSeparated_missing (CG.wf_explicit gm) (g3 ▸ acyclic_cutOut hE.acyclic _) _ _ _ ?_
      obtain ⟨t, ts', rfl⟩ : ∃ t ts', ts = t :: ts' := by
        cases ts with
        | nil => exact absurd rfl hts
        | cons a l => exact ⟨a, l, rfl⟩
      refine ⟨names t, by simp, fun hmem => ?_⟩
      obtain ⟨u, hu⟩ := CG.mem_nodes_explicit.1 hmem
      rw [g3] at hu
      rcases hu with hu | hu
      · by_cases hul : ∃ i, u = U i
        · obtain ⟨i, rfl⟩ := hul
          obtain ⟨a, b, hab, -⟩ := hE.only i _ hu.1
          rcases hab with h | h <;> simp at h
        · push Not at hul
          exact hnp t (by simp) u ((hE.observed _ _ hul).1 hu.1)
      · exact hu.2 (by simp)
    simp only [hall, if_true, hsep]
  unfold ciModel
  simp only
  rw [← hc, identify_backdoor ord _ _ _ htsne hyc _ (by
    intro v hv
    rcases List.mem_append.1 hv with hv | hv
    · exact hX v hv
    · rw [List.mem_singleton.1 hv]; exact hkeys y), hbd]

/-- **C129, refuted** for the styles `all` and `minimal`: the covariates returned are tuples of names instead of names. -/
theorem C129_tuples_refuted {W : Mat n K} {names : Fin n → α} (ord : List α → List α) {y : α} {ts : List α} {a : Adjust} (ha : a ≠ .simple)
    {cov : List (WhyGraph.Cov α)} {ins : Option (List α)} (hok : ciModel ord W names y ts (.backdoor a) = .ok (cov, ins)) :
    ∃ ls : List (List α), ls ≠ [] ∧ cov = ls.map Cov.tuple := by
  unfold ciModel at hok
  simp only at hok
  cases hid : (CMod.identify ord (CMod.CM.new (CG.init (Discovery.matrix2dict W names))) (.list ts) (.name y) (.backdoor a)).1 with
  | error e => rw [hid] at hok; cases hok
  | ok ids =>
    rw [hid] at hok
    have key : ∀ b, getBackdoorSet ord (CG.init (Discovery.matrix2dict W names)) ts [y] a = .ok (some b) → ∃ l, l ≠ [] ∧ b.1 = .sets l := by
      intro b hb
      unfold getBackdoorSet at hb
      split at hb
      · cases hb
      · split at hb
        · cases hb
        · simp only at hb
          split at hb
          · cases hb
          · cases hb
          · rw [if_neg ha] at hb
            split at hb
            · cases hb
            · rename_i r hr
              simp only [Except.ok.injEq, Option.some.injEq] at hb
              subst hb
              unfold backdoorSearch at hr
              split at hr
              · cases hr
              · simp only at hr
                split at hr
                · cases hr
                · split at hr
                  · cases hr
                  · rename_i sets _ _ _ _
                    split at hr
                    · cases hr
                      refine ⟨_, ?_, rfl⟩
                      cases sets <;> simp
                    · cases hr
    have hids : ∃ b, getBackdoorSet ord (CG.init (Discovery.matrix2dict W names)) ts [y] a = .ok b ∧ ids = [.backdoor b] := by
      simp only [CMod.identify, CMod.CM.new, CMod.Arg.wrapped, CMod.backdoor] at hid
      split at hid
      · split at hid
        · cases hid
        · rcases hb : getBackdoorSet ord (CG.init (Discovery.matrix2dict W names)) ts [y] a with e | (_ | ⟨r, p⟩)
          · rw [hb] at hid; cases hid
          · rw [hb] at hid; cases hid; exact ⟨_, rfl, rfl⟩
          · rw [hb] at hid
            cases r <;> · cases hid; exact ⟨_, rfl, rfl⟩
      · cases hid
    obtain ⟨b, hb, rfl⟩ := hids
    cases b with
    | none => cases hok
    | some r =>
      obtain ⟨l, hl, e⟩ := key r hb
      simp only [backdoorEntry, e, covOf, Except.ok.injEq, Prod.mk.injEq] at hok
      exact ⟨l, hl, hok.1.symm⟩

end

/-- columns "z", "x", "m", "y" of the examples -/
def zxmy : Fin 4 → String := ![ "z", "x", "m", "y"]

/-- the hypotheses of `C129_single` and its answer: z → x → m → y, z → y; the mediator m is not a covariate -/
example : Function.Injective zxmy ∧ CharNames.chars (zxmy 3) ≠ [] ∧
    ciModel id (![![0, 1, 0, 1], ![0, 0, 1, 0], ![0, 0, 0, 1], ![0, 0, 0, 0]] : Mat 4 Int) zxmy "y" ["x"] (.backdoor .simple) =
      .ok ([Cov.name "z"], none) := by
  refine ⟨by decide, by decide, by decide +kernel⟩

/-- the hypotheses and the answer of `C129_instruments`: z causes both treatments, which do not cause the outcome; v causes only one; an isolated
treatment ends the search with an empty list -/
example :
    ciModel id (![![0, 1, 1, 0, 0, 0], ![0, 0, 0, 0, 0, 0], ![0, 0, 0, 0, 0, 0], ![0, 1, 0, 0, 0, 0], ![0, 0, 0, 0, 0, 1], ![0, 0, 0, 0, 0, 0]] : Mat 6 Int)
      (![ "z", "x1", "x2", "v", "c", "y"] : Fin 6 → String) "y" ["x1", "x2"] (.backdoor .simple) = .ok ([Cov.name "v"], some ["z"]) ∧
    (ciModel id (![![0, 1, 0, 0, 0], ![0, 0, 0, 0, 0], ![0, 0, 0, 0, 0], ![0, 0, 0, 0, 1], ![0, 0, 0, 0, 0]] : Mat 5 Int)
      (![ "z", "x1", "x2", "c", "y"] : Fin 5 → String) "y" ["x1", "x2"] (.backdoor .simple) = .ok ([Cov.name "z"], some [])) := by
  refine ⟨by decide +kernel, by decide +kernel⟩

/-- **C129, refuted** for instruments: in z → x → y the variable z is an instrument (`get_iv` on the discovered edges finds it), but neither
`dfs` nor the method with a causal model reports it; the latter makes it a covariate. -/
theorem C129_instrument_refuted :
    ciDfs (![![0, 1, 0], ![0, 0, 1], ![0, 0, 0]] : Mat 3 Int) (![ "z", "x", "y"] : Fin 3 → String) "y" ["x"] = .ok (["z"], []) ∧
    ciModel id (![![0, 1, 0], ![0, 0, 1], ![0, 0, 0]] : Mat 3 Int) (![ "z", "x", "y"] : Fin 3 → String) "y" ["x"] (.backdoor .simple) =
      .ok ([Cov.name "z"], none) ∧
    getIV (CG.init [("z", []), ("x", ["z"]), ("y", ["x"])]) "x" "y" = .ok (some ["z"]) := by
  refine ⟨by decide +kernel, by decide +kernel, by decide +kernel⟩

/-- **C129, refuted** for two treatments of which one causes the other through a third variable: c → x1 → m → x2 → y. The covariates contain
m, an effect of x1. -/
theorem C129_chained_refuted :
    ciModel id (![![0, 1, 0, 0, 0], ![0, 0, 1, 0, 0], ![0, 0, 0, 1, 0], ![0, 0, 0, 0, 1], ![0, 0, 0, 0, 0]] : Mat 5 Int)
      (![ "c", "x1", "m", "x2", "y"] : Fin 5 → String) "y" ["x1", "x2"] (.backdoor .simple) = .ok ([Cov.name "c", Cov.name "m"], none) := by
  decide +kernel

/-- the hypotheses of `C129_tuples_refuted` and `C129_roots_refuted` -/
example :
    ciModel id (![![0, 1, 0, 1], ![0, 0, 1, 0], ![0, 0, 0, 1], ![0, 0, 0, 0]] : Mat 4 Int) zxmy "y" ["x"] (.backdoor .minimal) =
      .ok ([Cov.tuple ["z"]], none) ∧
    ciModel id (![![0, 1], ![0, 0]] : Mat 2 Int) (![ "x", "y"] : Fin 2 → String) "y" ["x"] (.backdoor .simple) = .error .nodeNotFound := by
  refine ⟨by decide +kernel, by decide +kernel⟩

end YL.Props
