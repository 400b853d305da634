import Mathlib.Algebra.Order.Ring.Rat
import Mathlib.Tactic.NormNum
import Verif.Lib.Backdoor

/-!
# C11 - C16: back-door adjustment

`ord` is the unknown iteration order of a Python set.
-/

set_option linter.unusedSectionVars false

namespace YL.Props

open YL Spec LatentNames

variable {α : Type} [DecidableEq α] [LatentNames α]

/-- From an ordinary name the explicit diagram reaches exactly what the causation reaches. -/
theorem reach_explicit {c : Causation α} {A : List (α × α)} {G : α → α → Prop} (hE : IsExplicit c A U G)
    {x v : α} (hx : ∀ i, x ≠ U i) : Reach G x v ↔ Reach (Parent c) x v := by
  constructor
  · intro h
    have : Reach (Parent c) x v ∧ ∀ i, v ≠ U i := by
      induction h with
      | refl => exact ⟨.refl, hx⟩
      | tail _ e ih =>
        refine ⟨ih.1.tail ((hE.observed _ _ ih.2).1 e), ?_⟩
        rintro i rfl; exact hE.root _ _ e
    exact this.1
  · intro h
    have : Reach G x v ∧ ∀ i, v ≠ U i := by
      induction h with
      | refl => exact ⟨.refl, hx⟩
      | tail _ e ih =>
        have e' := (hE.observed _ _ ih.2).2 e
        refine ⟨ih.1.tail e', ?_⟩
        rintro i rfl; exact hE.root _ _ e'
    exact this.1

theorem checkNodes_ok {k s : List α} (h : checkNodes k s = .ok ()) : ∀ v ∈ s, v ∈ k := by
  unfold checkNodes at h
  split at h
  · rename_i h'; simpa using h'
  · cases h

theorem checkNodes_of {k s : List α} (h : ∀ v ∈ s, v ∈ k) : checkNodes k s = .ok () := by
  unfold checkNodes; rw [if_pos]; simpa using h

theorem dSeparated_err {d : MDG α} {x y z : List α} {e : Err} (h : d.dSeparated x y z = .error e) :
    e ≠ .identification := by
  unfold MDG.dSeparated at h
  split at h
  · split at h
    · cases h
    · cases h; decide
  · cases h; decide

theorem desSet_err {d : MDG α} : ∀ {X : List α} {e : Err}, desSet d X = .error e → e ≠ .identification := by
  intro X
  induction X with
  | nil => intro e h; cases h
  | cons t X ih =>
    intro e h
    rw [desSet] at h
    cases hd : d.descendants t with
    | error e' =>
      rw [hd] at h; cases h
      unfold MDG.descendants at hd
      split at hd
      · cases hd
      · cases hd; decide
    | ok l =>
      rw [hd] at h
      cases hr : desSet d X with
      | error e' => rw [hr] at h; cases h; exact ih hr
      | ok l' => rw [hr] at h; cases h

theorem firstSep_err {sep : List α → Except Err Bool} : ∀ {l : List (List α)} {e : Err},
    firstSep sep l = .error e → ∃ i ∈ l, sep i = .error e := by
  intro l
  induction l with
  | nil => intro e h; cases h
  | cons i l ih =>
    intro e h
    rw [firstSep] at h
    cases hi : sep i with
    | error e' => rw [hi] at h; cases h; exact ⟨i, by simp, hi⟩
    | ok b =>
      rw [hi] at h
      cases b with
      | true => cases h
      | false => obtain ⟨j, hj, hje⟩ := ih h; exact ⟨j, by simp [hj], hje⟩

theorem allSep_err {sep : List α → Except Err Bool} : ∀ {l : List (List α)} {e : Err},
    allSep sep l = .error e → ∃ i ∈ l, sep i = .error e := by
  intro l
  induction l with
  | nil => intro e h; cases h
  | cons i l ih =>
    intro e h
    rw [allSep] at h
    cases hi : sep i with
    | error e' => rw [hi] at h; cases h; exact ⟨i, by simp, hi⟩
    | ok b =>
      rw [hi] at h
      cases hl : allSep sep l with
      | error e' =>
        rw [hl] at h; cases h
        obtain ⟨j, hj, hje⟩ := ih hl; exact ⟨j, by simp [hj], hje⟩
      | ok r => rw [hl] at h; cases h

/-- The candidates of the search and what they satisfy. -/
theorem candidates {c : Causation α} {A : List (α × α)} (hD : IsDict c) (h : IsDiagram c A U)
    {ord : List α → List α} (hord : ∀ l, (ord l).Perm l) {X Y des : List α} (hX : ∀ x ∈ X, x ∈ c.keys)
    (hdes : desSet (CG.init c A).observedDag X = .ok des) :
    (ord ((CG.init c A).causation.keys.filter (fun v => v ∉ X ∧ v ∉ Y ∧ v ∉ des))).Nodup ∧
    ∀ v, v ∈ ord ((CG.init c A).causation.keys.filter (fun v => v ∉ X ∧ v ∉ Y ∧ v ∉ des)) ↔
      v ∈ c.keys ∧ v ∉ Y ∧ ∀ x ∈ X, ¬ Reach (CG.init c A).explicitDag.E x v := by
  have hE := C08_explicit_faithful_partial c A h
  have hdes' := desSet_spec c X des hdes
  refine ⟨(hord _).nodup_iff.2 (hD.1.filter _), fun v => ?_⟩
  rw [(hord _).mem_iff, List.mem_filter, decide_eq_true_eq]
  have hr : ∀ x ∈ X, (Reach (CG.init c A).explicitDag.E x v ↔ Reach (Parent c) x v) := fun x hx =>
    reach_explicit hE (fun i hi => (h.fresh i).1 (hi ▸ hX x hx))
  rw [hdes']
  constructor
  · rintro ⟨h1, h2, h3, h4⟩
    refine ⟨h1, h3, fun x hx hrx => ?_⟩
    rw [hr x hx] at hrx
    by_cases hvx : v = x
    · exact h2 (hvx ▸ hx)
    · exact h4 ⟨x, hx, hvx, hrx⟩
  · rintro ⟨h1, h2, h3⟩
    refine ⟨h1, fun hvX => h3 v hvX .refl, h2, ?_⟩
    rintro ⟨x, hx, _, hrx⟩
    exact h3 x hx ((hr x hx).2 hrx)

/-- What a successful search returns, for both styles. -/
theorem search_result {c : Causation α} {A : List (α × α)} (hD : IsDict c) (h : IsDiagram c A U)
    {ord : List α → List α} {X Y : List α} {adj : Adjust} (hadj : adj = .all ∨ adj = .minimal)
    {r : BackdoorList α} {p : Prob α} (hok : getBackdoorSet ord (CG.init c A) X Y adj = .ok (some (r, p))) :
    (∀ x ∈ X, x ∈ c.keys) ∧ (∀ y ∈ Y, y ∈ c.keys) ∧
    ∃ (gm : CG α) (des : List α) (sets : List (List α)), gm.FreshNames ∧ gm.explicitDag.E = CutOut (CG.init c A).explicitDag.E {x | x ∈ X} ∧
      desSet (CG.init c A).observedDag X = .ok des ∧
      (if adj = .minimal then firstSep (fun i => gm.explicitDag.dSeparated X Y i) (powerset
        (ord ((CG.init c A).causation.keys.filter (fun v => v ∉ X ∧ v ∉ Y ∧ v ∉ des))))
       else allSep (fun i => gm.explicitDag.dSeparated X Y i) (powerset
        (ord ((CG.init c A).causation.keys.filter (fun v => v ∉ X ∧ v ∉ Y ∧ v ∉ des))))) = .ok sets ∧
      sets ≠ [] ∧ r = .sets sets ∧ p = backdoorProb X Y (sets.headD []) := by
  unfold getBackdoorSet at hok
  cases hck : checkNodes (CG.init c A).causation.keys (Y ++ X) with
  | error e => rw [hck] at hok; cases hok
  | ok _ =>
    rw [hck] at hok
    have hin := checkNodes_ok hck
    have hX : ∀ x ∈ X, x ∈ c.keys := fun x hx => hin x (by simp [hx])
    have hY : ∀ y ∈ Y, y ∈ c.keys := fun y hy => hin y (by simp [hy])
    obtain ⟨gm, g1, g2, g3⟩ := removeOutgoing_explicit hD h hX
    simp only [g1] at hok
    refine ⟨hX, hY, gm, ?_⟩
    have hns : adj ≠ .simple := by rcases hadj with rfl | rfl <;> decide
    split at hok
    · cases hok
    · cases hok
    · simp only [hns, if_false] at hok
      cases hs : backdoorSearch ord (CG.init c A) gm.explicitDag X Y adj with
      | error e => rw [hs] at hok; cases hok
      | ok res =>
        rw [hs] at hok
        cases hok
        unfold backdoorSearch at hs
        cases hdes : desSet (CG.init c A).observedDag X with
        | error e => rw [hdes] at hs; cases hs
        | ok des =>
          simp only [hdes] at hs
          generalize hfound : (if adj = .minimal then
            firstSep (fun i => gm.explicitDag.dSeparated X Y i) (powerset
              (ord ((CG.init c A).causation.keys.filter (fun v => v ∉ X ∧ v ∉ Y ∧ v ∉ des))))
            else allSep (fun i => gm.explicitDag.dSeparated X Y i) (powerset
              (ord ((CG.init c A).causation.keys.filter (fun v => v ∉ X ∧ v ∉ Y ∧ v ∉ des))))) = found at hs
          cases found with
          | error e => cases hs
          | ok sets =>
            have hne : sets ≠ [] := by
              rintro rfl
              have hmem : ([] : List α) ∈ powerset
                (ord ((CG.init c A).causation.keys.filter (fun v => v ∉ X ∧ v ∉ Y ∧ v ∉ des))) :=
                mem_powerset.2 (List.nil_sublist _)
              have hf : gm.explicitDag.dSeparated X Y [] ≠ .ok true := by
                split at hfound
                · rcases firstSep_ok _ _ hfound with ⟨_, h2⟩ | ⟨_, _, _, _, h2, _⟩
                  · rw [h2 _ hmem]; decide
                  · cases h2
                · have := (allSep_ok _ _ hfound).2
                  intro hcon
                  have h3 : ([] : List α) ∈ List.filter (fun i => okTrue (gm.explicitDag.dSeparated X Y i)) (powerset
                    (ord ((CG.init c A).causation.keys.filter (fun v => v ∉ X ∧ v ∉ Y ∧ v ∉ des)))) :=
                    List.mem_filter.2 ⟨hmem, by rw [hcon]; rfl⟩
                  rw [← this] at h3; simp at h3
              simp only [List.isEmpty_nil, if_true] at hs
              cases hse : gm.explicitDag.dSeparated X Y [] with
              | error e => rw [hse] at hs; cases hs
              | ok b =>
                rw [hse] at hs
                cases b with
                | true => exact hf hse
                | false => cases hs
            have hemp : sets.isEmpty = false := by simpa using hne
            simp only [hemp, Bool.false_eq_true, if_false, hadj, if_true, Except.ok.injEq, Prod.mk.injEq] at hs
            exact ⟨des, sets, g2, g3, rfl, hfound, hne, hs.1.symm, hs.2.symm⟩

/-- The criterion for a candidate. -/
theorem candidate_iff {c : Causation α} {A : List (α × α)} (hD : IsDict c) (h : IsDiagram c A U)
    {ord : List α → List α} (hord : ∀ l, (ord l).Perm l) {X Y des : List α} (hX : ∀ x ∈ X, x ∈ c.keys)
    (hdes : desSet (CG.init c A).observedDag X = .ok des) {gm : CG α} (hf : gm.FreshNames)
    (hE : gm.explicitDag.E = CutOut (CG.init c A).explicitDag.E {x | x ∈ X}) {S : List α}
    (hS : S.Sublist (ord ((CG.init c A).causation.keys.filter (fun v => v ∉ X ∧ v ∉ Y ∧ v ∉ des)))) {b : Bool}
    (hb : gm.explicitDag.dSeparated X Y S = .ok b) :
    S.Nodup ∧ (∀ s ∈ S, s ∈ c.keys) ∧
    (b = true ↔ BackDoor (CG.init c A).explicitDag.E {a | a ∈ X} {a | a ∈ Y} {a | a ∈ S}) := by
  obtain ⟨hnd, hmem⟩ := candidates hD h hord (Y := Y) hX hdes
  have hall : ∀ s ∈ S, s ∈ c.keys ∧ s ∉ Y ∧ ∀ x ∈ X, ¬ Reach (CG.init c A).explicitDag.E x s :=
    fun s hs => (hmem s).1 (hS.subset hs)
  refine ⟨hnd.sublist hS, fun s hs => (hall s hs).1, ?_⟩
  rw [modified_dsep h hf hE X Y S (fun a ha hs => (hall a hs).2.2 a ha .refl)
    (fun a ha hs => (hall a hs).2.1 ha) b hb]
  exact ⟨fun hd => ⟨fun z hz => (hall z hz).2, hd⟩, fun hd => hd.2⟩

/-- Admissible sets of declared nodes are candidates. -/
theorem admissible_candidate {c : Causation α} {A : List (α × α)} (hD : IsDict c) (h : IsDiagram c A U)
    {ord : List α → List α} (hord : ∀ l, (ord l).Perm l) {X Y des : List α} (hX : ∀ x ∈ X, x ∈ c.keys)
    (hdes : desSet (CG.init c A).observedDag X = .ok des) {S : Finset α} (hS : ∀ s ∈ S, s ∈ c.keys)
    (hb : BackDoor (CG.init c A).explicitDag.E {a | a ∈ X} {a | a ∈ Y} {a | a ∈ S}) :
    ∃ l : List α, l.Sublist (ord ((CG.init c A).causation.keys.filter (fun v => v ∉ X ∧ v ∉ Y ∧ v ∉ des))) ∧
      l.toFinset = S ∧ l.Nodup := by
  obtain ⟨hnd, hmem⟩ := candidates hD h hord (Y := Y) hX hdes
  refine ⟨(ord _).filter (· ∈ S), List.filter_sublist, ?_, hnd.filter _⟩
  ext s
  rw [List.mem_toFinset, List.mem_filter, decide_eq_true_eq]
  refine ⟨fun h => h.2, fun hs => ⟨?_, hs⟩⟩
  rw [hmem]
  exact ⟨hS s hs, (hb.1 s hs).1, (hb.1 s hs).2⟩

/-- C11. Whenever `get_backdoor_set(X, Y, adjust='all')` returns an answer, it lists, without repeats,
exactly the sets of declared variables that satisfy the back-door criterion relative to `(X, Y)` in the
causal diagram with explicit latent variables. Missing from the full property: the call can crash or return
None although admissible sets exist (`C13_crash`, `C13_none_though_admissible`). -/
theorem C11_all_exact_partial (c : Causation α) (A : List (α × α)) (hD : IsDict c) (h : IsDiagram c A U) :
    ∃ G, IsExplicit c A U G ∧ ∀ (ord : List α → List α), (∀ l, (ord l).Perm l) → ∀ X Y r p,
      getBackdoorSet ord (CG.init c A) X Y .all = .ok (some (r, p)) →
      ∃ L : List (List α), r = .sets L ∧ (∀ l ∈ L, l.Nodup) ∧ (L.map List.toFinset).Nodup ∧
        ∀ S : Finset α, S ∈ L.map List.toFinset ↔
          (∀ s ∈ S, s ∈ c.keys) ∧ BackDoor G {a | a ∈ X} {a | a ∈ Y} {a | a ∈ S} := by
  refine ⟨_, C08_explicit_faithful_partial c A h, fun ord hord X Y r p hok => ?_⟩
  obtain ⟨hX, hY, gm, des, sets, hf, hE, hdes, hfound, hne, rfl, -⟩ := search_result hD h (.inl rfl) hok
  rw [if_neg (by decide)] at hfound
  obtain ⟨hall, rfl⟩ := allSep_ok _ _ hfound
  have hnd := (candidates hD h hord (Y := Y) hX hdes).1
  refine ⟨_, rfl, ?_, ?_, ?_⟩
  · intro l hl
    exact hnd.sublist (mem_powerset.1 (List.mem_filter.1 hl).1)
  · refine List.Nodup.map_on ?_ ((nodup_powerset hnd).filter _)
    intro l hl l' hl' heq
    have e1 := eq_filter_of_sublist hnd (mem_powerset.1 (List.mem_filter.1 hl).1)
    have e2 := eq_filter_of_sublist hnd (mem_powerset.1 (List.mem_filter.1 hl').1)
    rw [e1, e2]
    apply List.filter_congr
    intro x _
    have := Finset.ext_iff.1 heq x
    simpa using this
  · intro S
    rw [List.mem_map]
    constructor
    · rintro ⟨l, hl, rfl⟩
      rw [List.mem_filter] at hl
      obtain ⟨b, hb⟩ := hall l hl.1
      have hbt : b = true := by rw [hb] at hl; exact hl.2
      obtain ⟨_, h2, h3⟩ := candidate_iff hD h hord hX hdes hf hE (mem_powerset.1 hl.1) hb
      refine ⟨fun s hs => h2 s (List.mem_toFinset.1 hs), ?_⟩
      have := h3.1 hbt
      simpa using this
    · rintro ⟨hS, hbd⟩
      obtain ⟨l, hl, rfl, _⟩ := admissible_candidate hD h hord hX hdes hS hbd
      refine ⟨l, ?_, rfl⟩
      rw [List.mem_filter]
      refine ⟨mem_powerset.2 hl, ?_⟩
      obtain ⟨b, hb⟩ := hall l (mem_powerset.2 hl)
      have := (candidate_iff hD h hord hX hdes hf hE hl hb).2.2.2 (by simpa using hbd)
      rw [hb, this]; rfl

/-- C12. Whenever `get_backdoor_set(X, Y, adjust='minimal')` returns an answer, it is one admissible set,
and no admissible set of declared variables is smaller. -/
theorem C12_minimal_smallest (c : Causation α) (A : List (α × α)) (hD : IsDict c) (h : IsDiagram c A U) :
    ∃ G, IsExplicit c A U G ∧ ∀ (ord : List α → List α), (∀ l, (ord l).Perm l) → ∀ X Y r p,
      getBackdoorSet ord (CG.init c A) X Y .minimal = .ok (some (r, p)) →
      ∃ S : List α, r = .sets [S] ∧ S.Nodup ∧ (∀ s ∈ S, s ∈ c.keys) ∧
        BackDoor G {a | a ∈ X} {a | a ∈ Y} {a | a ∈ S} ∧
        ∀ T : Finset α, (∀ s ∈ T, s ∈ c.keys) → BackDoor G {a | a ∈ X} {a | a ∈ Y} {a | a ∈ T} →
          S.length ≤ T.card := by
  refine ⟨_, C08_explicit_faithful_partial c A h, fun ord hord X Y r p hok => ?_⟩
  obtain ⟨hX, hY, gm, des, sets, hf, hE, hdes, hfound, hne, rfl, -⟩ := search_result hD h (.inr rfl) hok
  rw [if_pos rfl] at hfound
  rcases firstSep_ok _ _ hfound with ⟨h1, _⟩ | ⟨l₁, S, l₂, hl, rfl, hS, hbefore⟩
  · exact absurd h1 hne
  · have hSsub := mem_powerset.1 (hl ▸ List.mem_append_right l₁ (List.mem_cons_self) : S ∈ powerset _)
    obtain ⟨k1, k2, k3⟩ := candidate_iff hD h hord hX hdes hf hE hSsub hS
    refine ⟨S, rfl, k1, k2, k3.1 rfl, fun T hT hTb => ?_⟩
    obtain ⟨l, hls, rfl, hlnd⟩ := admissible_candidate hD h hord hX hdes hT hTb
    rw [List.toFinset_card_of_nodup hlnd]
    have hlmem := mem_powerset.2 hls
    have hsorted := powerset_sorted (ord ((CG.init c A).causation.keys.filter (fun v => v ∉ X ∧ v ∉ Y ∧ v ∉ des)))
    rw [hl] at hlmem hsorted
    rw [List.mem_append, List.mem_cons] at hlmem
    rcases hlmem with hm | rfl | hm
    · have := (candidate_iff hD h hord hX hdes hf hE hls (hbefore l hm)).2.2.2 (by simpa using hTb)
      cases this
    · exact le_rfl
    · exact (List.pairwise_cons.1 (List.pairwise_append.1 hsorted).2.1).1 _ hm

theorem backdoor_error_aux (c : Causation α) (A : List (α × α)) (hD : IsDict c) (h : IsDiagram c A U)
    (ord : List α → List α) (hord : ∀ l, (ord l).Perm l) (X Y : List α) (adj : Adjust)
    (hadj : adj = .all ∨ adj = .minimal)
    (hok : getBackdoorSet ord (CG.init c A) X Y adj = .error .identification) (T : Finset α)
    (hT : ∀ s ∈ T, s ∈ c.keys)
    (hTb : BackDoor (CG.init c A).explicitDag.E {a | a ∈ X} {a | a ∈ Y} {a | a ∈ T}) : False := by
  unfold getBackdoorSet at hok
  cases hck : checkNodes (CG.init c A).causation.keys (Y ++ X) with
  | error e =>
    rw [hck] at hok; cases hok
    unfold checkNodes at hck; split at hck <;> cases hck
  | ok _ =>
    rw [hck] at hok
    have hin := checkNodes_ok hck
    have hX : ∀ x ∈ X, x ∈ c.keys := fun x hx => hin x (by simp [hx])
    obtain ⟨gm, g1, hf, hE⟩ := removeOutgoing_explicit hD h hX
    simp only [g1] at hok
    have hns : adj ≠ .simple := by rcases hadj with rfl | rfl <;> decide
    split at hok
    · rename_i e he
      cases hok
      split at he
      · exact dSeparated_err he rfl
      · cases he
    · cases hok
    · simp only [hns, if_false] at hok
      cases hs : backdoorSearch ord (CG.init c A) gm.explicitDag X Y adj with
      | ok res => rw [hs] at hok; cases hok
      | error e =>
        rw [hs] at hok; cases hok
        unfold backdoorSearch at hs
        cases hdes : desSet (CG.init c A).observedDag X with
        | error e => rw [hdes] at hs; cases hs; exact desSet_err hdes rfl
        | ok des =>
          simp only [hdes] at hs
          obtain ⟨l, hls, rfl, hlnd⟩ := admissible_candidate hD h hord hX hdes hT hTb
          generalize hfound : (if adj = .minimal then
            firstSep (fun i => gm.explicitDag.dSeparated X Y i) (powerset
              (ord ((CG.init c A).causation.keys.filter (fun v => v ∉ X ∧ v ∉ Y ∧ v ∉ des))))
            else allSep (fun i => gm.explicitDag.dSeparated X Y i) (powerset
              (ord ((CG.init c A).causation.keys.filter (fun v => v ∉ X ∧ v ∉ Y ∧ v ∉ des))))) = found at hs
          cases found with
          | error e =>
            cases hs
            split at hfound
            · obtain ⟨i, _, hi⟩ := firstSep_err hfound; exact dSeparated_err hi rfl
            · obtain ⟨i, _, hi⟩ := allSep_err hfound; exact dSeparated_err hi rfl
          | ok sets =>
            have hne : sets ≠ [] := by
              split at hfound
              · rcases firstSep_ok _ _ hfound with ⟨_, h2⟩ | ⟨_, i, _, _, rfl, _⟩
                · have := (candidate_iff hD h hord hX hdes hf hE hls (h2 l (mem_powerset.2 hls))).2.2.2
                    (by simpa using hTb)
                  cases this
                · simp
              · obtain ⟨hall, rfl⟩ := allSep_ok _ _ hfound
                obtain ⟨b, hb⟩ := hall l (mem_powerset.2 hls)
                have := (candidate_iff hD h hord hX hdes hf hE hls hb).2.2.2 (by simpa using hTb)
                apply List.ne_nil_of_mem (a := l)
                rw [List.mem_filter]
                exact ⟨mem_powerset.2 hls, by rw [hb, this]; rfl⟩
            have hemp : sets.isEmpty = false := by simpa using hne
            simp only [hemp, Bool.false_eq_true, if_false, hadj, if_true] at hs
            cases hs

/-- C13. `get_backdoor_set` raises IdentificationError for 'all' and 'minimal' only if no set of declared
variables satisfies the back-door criterion. -/
theorem C13_error_only_if_none (c : Causation α) (A : List (α × α)) (hD : IsDict c) (h : IsDiagram c A U) :
    ∃ G, IsExplicit c A U G ∧ ∀ (ord : List α → List α), (∀ l, (ord l).Perm l) → ∀ X Y adj,
      (adj = .all ∨ adj = .minimal) →
      getBackdoorSet ord (CG.init c A) X Y adj = .error .identification →
      ∀ T : Finset α, (∀ s ∈ T, s ∈ c.keys) → ¬ BackDoor G {a | a ∈ X} {a | a ∈ Y} {a | a ∈ T} := by
  exact ⟨_, C08_explicit_faithful_partial c A h, fun ord hord X Y adj hadj hok T hT hTb =>
    backdoor_error_aux c A hD h ord hord X Y adj hadj hok T hT hTb⟩

/-- non-vacuity of C11 and C12: an M-shaped graph with a confounder -/
example : Except.map (Option.map Prod.fst) (getBackdoorSet id (CG.init
      [("z", []), ("w", []), ("x", ["z", "w"]), ("y", ["x", "z"])] [("w", "y")]) ["x"] ["y"] .all) =
    .ok (some (.sets [["z", "w"]])) := by decide +kernel

example : Except.map (Option.map Prod.fst) (getBackdoorSet id (CG.init
      [("z", []), ("w", ["z"]), ("x", ["w"]), ("y", ["x", "z"])] []) ["x"] ["y"] .minimal) =
    .ok (some (.sets [["z"]])) := by decide +kernel

/-- C13. If some treatment has an observed parent, every treatment, outcome and candidate variable still has
an edge or arc after the edges out of the treatment are deleted, and an admissible set of declared variables
exists, then `get_backdoor_set` answers. Missing: without these side conditions the call may crash
(`C13_crash`) or answer None (`C13_none_though_admissible`). -/
theorem C13_returns_partial (c : Causation α) (A : List (α × α)) (hD : IsDict c) (h : IsDiagram c A U) :
    ∃ G, IsExplicit c A U G ∧ ∀ (ord : List α → List α), (∀ l, (ord l).Perm l) → ∀ X Y adj,
      (adj = .all ∨ adj = .minimal) → (∀ x ∈ X ++ Y, x ∈ c.keys) → (∃ x ∈ X, ∃ u, Parent c u x) →
      (∀ x ∈ X, OnEdge c x) → (∀ v ∈ c.keys, ∃ u, Adj (CutOut G {a | a ∈ X}) u v) →
      (∃ T : Finset α, (∀ s ∈ T, s ∈ c.keys) ∧ BackDoor G {a | a ∈ X} {a | a ∈ Y} {a | a ∈ T}) →
      ∃ r p, getBackdoorSet ord (CG.init c A) X Y adj = .ok (some (r, p)) := by
  refine ⟨_, C08_explicit_faithful_partial c A h, fun ord hord X Y adj hadj hXY hpar hon hadjn hex => ?_⟩
  have hX : ∀ x ∈ X, x ∈ c.keys := fun x hx => hXY x (by simp [hx])
  obtain ⟨gm, g1, hf, hE⟩ := removeOutgoing_explicit hD h hX
  have hsep : ∀ z : List α, (∀ v ∈ z, v ∈ c.keys) → ∃ b, gm.explicitDag.dSeparated X Y z = .ok b := by
    intro z hz
    refine modified_ok h hf hE X Y z (fun v hv => hadjn v ?_)
    rw [List.mem_append] at hv
    rcases hv with hv | hv
    · exact hXY v hv
    · exact hz v hv
  have hck : checkNodes (CG.init c A).causation.keys (Y ++ X) = .ok () :=
    checkNodes_of (fun v hv => hXY v (by simp only [List.mem_append] at hv ⊢; tauto))
  have hdet : X.all (fun t => decide ((CG.init c A).causation.get t = [])) = false := by
    obtain ⟨x, hx, u, hu⟩ := hpar
    rw [Causation.parent_iff hD.1] at hu
    rw [List.all_eq_false]
    refine ⟨x, hx, ?_⟩
    simp only [decide_eq_true_eq]
    intro h0
    have : c.get x = [] := h0
    rw [this] at hu; simp at hu
  have hns : adj ≠ .simple := by rcases hadj with rfl | rfl <;> decide
  obtain ⟨des, hdes⟩ : ∃ des, desSet (CG.init c A).observedDag X = .ok des := by
    have key : ∀ l : List α, (∀ x ∈ l, OnEdge c x) → ∃ des, desSet (CG.init c A).observedDag l = .ok des := by
      intro l
      induction l with
      | nil => intro _; exact ⟨[], rfl⟩
      | cons t l ih =>
        intro hl
        obtain ⟨r, hr⟩ := ih (fun x hx => hl x (by simp [hx]))
        have : t ∈ (CG.init c A).observedDag.nodes := CG.mem_nodes_observed.2 (hl t (by simp))
        rw [desSet]
        unfold MDG.descendants
        rw [if_pos this]
        simp only [hr]
        exact ⟨_, rfl⟩
    exact key X hon
  have hkeys : ∀ i ∈ powerset (ord ((CG.init c A).causation.keys.filter (fun v => v ∉ X ∧ v ∉ Y ∧ v ∉ des))),
      ∃ b, gm.explicitDag.dSeparated X Y i = .ok b := by
    intro i hi
    refine hsep i (fun v hv => ?_)
    have := (mem_powerset.1 hi).subset hv
    rw [(hord _).mem_iff, List.mem_filter] at this
    exact this.1
  obtain ⟨T, hT, hTb⟩ := hex
  cases hres : getBackdoorSet ord (CG.init c A) X Y adj with
  | ok o =>
    cases o with
    | some rp => exact ⟨rp.1, rp.2, rfl⟩
    | none =>
      exfalso
      unfold getBackdoorSet at hres
      simp only [hck, g1, hdet, Bool.false_eq_true, if_false, hns] at hres
      cases hs : backdoorSearch ord (CG.init c A) gm.explicitDag X Y adj <;> rw [hs] at hres <;> cases hres
  | error e =>
    exfalso
    have hcon : e = .identification := by
      unfold getBackdoorSet at hres
      simp only [hck, g1, hdet, Bool.false_eq_true, if_false, hns] at hres
      cases hs : backdoorSearch ord (CG.init c A) gm.explicitDag X Y adj with
      | ok r => rw [hs] at hres; cases hres
      | error e' =>
        rw [hs] at hres
        cases hres
        unfold backdoorSearch at hs
        simp only [hdes] at hs
        generalize hfound : (if adj = .minimal then
            firstSep (fun i => gm.explicitDag.dSeparated X Y i) (powerset
              (ord ((CG.init c A).causation.keys.filter (fun v => v ∉ X ∧ v ∉ Y ∧ v ∉ des))))
            else allSep (fun i => gm.explicitDag.dSeparated X Y i) (powerset
              (ord ((CG.init c A).causation.keys.filter (fun v => v ∉ X ∧ v ∉ Y ∧ v ∉ des))))) = found at hs
        cases found with
        | error e =>
          exfalso
          split at hfound
          · obtain ⟨r, hr⟩ := firstSep_total _ hkeys; rw [hr] at hfound; cases hfound
          · obtain ⟨r, hr⟩ := allSep_total _ hkeys; rw [hr] at hfound; cases hfound
        | ok sets =>
          obtain ⟨b, hb⟩ := hsep [] (by simp)
          by_cases hemp : sets.isEmpty = true
          · simp only [hemp, if_true, hb, hadj] at hs
            cases b
            · cases hs; rfl
            · cases hs
          · simp only [hemp, if_false, hadj, if_true] at hs
            cases hs
    subst hcon
    exact backdoor_error_aux c A hD h ord hord X Y adj hadj hres T hT hTb

/-- C13, violation: a confounded treatment without observed parents. `{z}` is admissible (`adjust='all'`
would have to list it) but the call gives up and returns None. -/
theorem C13_none_though_admissible :
    Except.map (Option.map Prod.fst) (getBackdoorSet id (CG.init
      [("x", []), ("z", []), ("y", ["x", "z"])] [("x", "z")]) ["x"] ["y"] .all) = .ok none ∧
    isValidBackdoorSet (CG.init [("x", []), ("z", []), ("y", ["x", "z"])] [("x", "z")]) ["z"] ["x"] ["y"] =
      .ok true := by decide +kernel

/-- C13, violation: the simplest graph `x → y`. Deleting the edges out of `x` isolates `x`, the graph handed
to networkx no longer contains it, and the call raises NodeNotFound although the empty set is admissible. -/
theorem C13_crash :
    Except.map (Option.map Prod.fst) (getBackdoorSet id (CG.init [("x", []), ("y", ["x"])] []) ["x"] ["y"]
      .minimal) = .error .nodeNotFound ∧
    Except.map (Option.map Prod.fst) (getBackdoorSet id (CG.init [("x", []), ("y", ["x"])] []) ["x"] ["y"]
      .simple) = .error .nodeNotFound := by decide +kernel

/-! ### C14 -/

theorem simple_admissible {c : Causation α} {A : List (α × α)} (hD : IsDict c) (h : IsDiagram c A U)
    {ord : List α → List α} {X Y : List α} {r : BackdoorList α} {p : Prob α}
    (hok : getBackdoorSet ord (CG.init c A) X Y .simple = .ok (some (r, p))) :
    ∃ S : List α, r = .names S ∧ (∀ s, s ∈ S ↔ ∃ x ∈ X, Parent c s x) ∧
        ((∀ x ∈ X, ∀ u, ¬ Paired A x u) → (∀ x ∈ X, x ∉ Y) →
          (∀ s ∈ S, s ∉ Y ∧ ∀ x ∈ X, ¬ Reach (Parent c) x s) →
          BackDoor (CG.init c A).explicitDag.E {a | a ∈ X} {a | a ∈ Y} {a | a ∈ S}) := by
  have hE := C08_explicit_faithful_partial c A h
  unfold getBackdoorSet at hok
  cases hck : checkNodes (CG.init c A).causation.keys (Y ++ X) with
  | error e => rw [hck] at hok; cases hok
  | ok _ =>
    rw [hck] at hok
    have hin := checkNodes_ok hck
    have hX : ∀ x ∈ X, x ∈ c.keys := fun x hx => hin x (by simp [hx])
    obtain ⟨gm, g1, g2, g3⟩ := removeOutgoing_explicit hD h hX
    simp only [g1] at hok
    split at hok
    · cases hok
    · cases hok
    · simp only [if_true, Except.ok.injEq, Option.some.injEq, Prod.mk.injEq] at hok
      obtain ⟨rfl, -⟩ := hok
      have hmem : ∀ s, s ∈ X.flatMap (fun t => (CG.init c A).causation.get t) ↔ ∃ x ∈ X, Parent c s x := by
        intro s
        simp only [List.mem_flatMap, Causation.parent_iff hD.1]; rfl
      refine ⟨_, rfl, hmem, fun hA hXY hS => ?_⟩
      set S := X.flatMap (fun t => (CG.init c A).causation.get t) with hSdef
      have hnl : ∀ x ∈ X, ∀ i, x ≠ U i := fun x hx i hi => (h.fresh i).1 (hi ▸ hX x hx)
      refine ⟨fun z hz => ⟨(hS z hz).1, fun x hx hr => (hS z hz).2 x hx ((reach_explicit hE (hnl x hx)).1 hr)⟩, ?_⟩
      have hpar : ∀ x ∈ X, ∀ u, (CG.init c A).explicitDag.E u x → u ∈ S := by
        intro x hx u hu
        by_cases hul : ∃ i, u = U i
        · obtain ⟨i, rfl⟩ := hul
          obtain ⟨a, b, hab, hch⟩ := hE.only i x hu
          rcases (hch x).1 hu with rfl | rfl
          · exact absurd hab (hA _ hx b)
          · exact absurd hab.symm (hA _ hx a)
        · push Not at hul
          exact (hmem u).2 ⟨x, hx, (hE.observed u x hul).1 hu⟩
      rw [dsep_iff_not_connected (acyclic_cutOut hE.acyclic _)]
      · intro x hx y hy hr
        have hiso : ∀ w, ¬ Adj (MDG.SepEdge (CutOut (CG.init c A).explicitDag.E {a | a ∈ X})
            ({a | a ∈ X} ∪ {a | a ∈ Y} ∪ {a | a ∈ S}) {a | a ∈ S}) x w := by
          rintro w (hw | hw)
          · exact hw.1.2 hx
          · exact hw.2.1 (hpar x hx w hw.1.1)
        rcases Relation.ReflTransGen.cases_head hr with rfl | ⟨w, hw, _⟩
        · exact hXY _ hx hy
        · exact hiso w hw
      · intro x hx hs; exact (hS x hs).2 x hx .refl
      · intro y hy hs; exact (hS y hs).1 hy

/-- C14. The parents of the treatments satisfy the back-door criterion if no latent arc touches a treatment
and no parent of a treatment is an outcome or a descendant of a treatment (in particular: a single treatment
without latent arcs, whose parents are not outcomes). Missing: with a latent arc at the treatment the claim
is false (`C14_latent_arc`), and so it is with two treatments one of which causes the other
(`C14_chained_treatments`). -/
theorem C14_simple_admissible_partial (c : Causation α) (A : List (α × α)) (hD : IsDict c) (h : IsDiagram c A U) :
    ∃ G, IsExplicit c A U G ∧ ∀ (ord : List α → List α) X Y r p,
      getBackdoorSet ord (CG.init c A) X Y .simple = .ok (some (r, p)) →
      ∃ S : List α, r = .names S ∧ (∀ s, s ∈ S ↔ ∃ x ∈ X, Parent c s x) ∧
        ((∀ x ∈ X, ∀ u, ¬ Paired A x u) → (∀ x ∈ X, x ∉ Y) →
          (∀ s ∈ S, s ∉ Y ∧ ∀ x ∈ X, ¬ Reach (Parent c) x s) →
          BackDoor G {a | a ∈ X} {a | a ∈ Y} {a | a ∈ S}) := by
  exact ⟨_, C08_explicit_faithful_partial c A h, fun ord X Y r p hok => simple_admissible hD h hok⟩

/-- non-vacuity -/
example : Except.map (Option.map Prod.fst) (getBackdoorSet id (CG.init
      [("z", []), ("w", ["z"]), ("x", ["w"]), ("y", ["x", "z"])] [("z", "y")]) ["x"] ["y"] .simple) =
    .ok (some (.names ["w"])) := by decide +kernel

/-- C14, violation: with a latent arc between treatment and outcome no set is admissible, but `simple`
still answers the parents of the treatment. -/
theorem C14_latent_arc :
    Except.map (Option.map Prod.fst) (getBackdoorSet id (CG.init
      [("w", []), ("x", ["w"]), ("y", ["x", "w"])] [("x", "y")]) ["x"] ["y"] .simple) =
      .ok (some (.names ["w"])) ∧
    isValidBackdoorSet (CG.init [("w", []), ("x", ["w"]), ("y", ["x", "w"])] [("x", "y")]) ["w"] ["x"] ["y"] =
      .ok false ∧
    Except.map (Option.map Prod.fst) (getBackdoorSet id (CG.init
      [("w", []), ("x", ["w"]), ("y", ["x", "w"])] [("x", "y")]) ["x"] ["y"] .all) = .error .identification := by
  decide +kernel

/-- C14, violation: with two treatments `x1 → x2` the answer contains a treatment. -/
theorem C14_chained_treatments :
    Except.map (Option.map Prod.fst) (getBackdoorSet id (CG.init
      [("w", []), ("x1", ["w"]), ("x2", ["x1"]), ("y", ["x2", "w"])] []) ["x1", "x2"] ["y"] .simple) =
      .ok (some (.names ["w", "x1"])) := by decide +kernel

/-! ### C15 -/

theorem backdoor_value {c : Causation α} {A : List (α × α)} {G : α → α → Prop} (hE : IsExplicit c A U G)
    {V : Finset α} (hV : ∀ a b, G a b → a ∈ V ∧ b ∈ V)
    {Ω : α → Type} [∀ i, Fintype (Ω i)] {K : Type} [Field K] [LinearOrder K] [IsStrictOrderedRing K]
    (M : BayesNet (K := K) V G Ω) {X Y S : List α} (hX : ∀ x ∈ X, x ∈ V) (hYn : Y ≠ [])
    (hY : ∀ x ∈ Y, x ∈ V) (hS : ∀ x ∈ S, x ∈ V)
    (hb : BackDoor G {a | a ∈ X} {a | a ∈ Y} {a | a ∈ S})
    (hov : ∀ v, M.P S.toFinset v ≠ 0 → M.P (X.toFinset ∪ S.toFinset) v ≠ 0) (v : ∀ i, Ω i) :
    eval M (backdoorProb X Y S) v = M.Pdo X.toFinset Y.toFinset v := by
  have hdXY : ∀ a ∈ X, a ∉ Y := by
    intro a hx hy
    exact hb.2 [a] (by simp) trivial a rfl a rfl hx hy
  have hdXS : ∀ a ∈ X, a ∉ S := fun a hx hs => (hb.1 a hs).2 a hx .refl
  have hdYS : ∀ a ∈ Y, a ∉ S := fun a hy hs => (hb.1 a hs).1 hy
  have hsep := (dsep_iff_not_connected (acyclic_cutOut hE.acyclic _) _ _ _ (fun a ha => hdXS a ha)
    (fun a ha => hdYS a ha)).1 hb.2
  have hadj := backdoor_adjust (M := M) hE.acyclic (fun i j _ hij => (hV i j hij).1)
    (X := X.toFinset) (Y := Y.toFinset) (Z := S.toFinset)
    (fun i hi => hX i (List.mem_toFinset.1 hi)) (fun i hi => hY i (List.mem_toFinset.1 hi))
    (fun i hi => hS i (List.mem_toFinset.1 hi))
    (by rw [Finset.disjoint_left]; intro a ha hb; exact hdXY a (List.mem_toFinset.1 ha) (List.mem_toFinset.1 hb))
    (by rw [Finset.disjoint_left]; intro a ha hb; exact hdXS a (List.mem_toFinset.1 ha) (List.mem_toFinset.1 hb))
    (by rw [Finset.disjoint_left]; intro a ha hb; exact hdYS a (List.mem_toFinset.1 ha) (List.mem_toFinset.1 hb))
    (by
      intro x hx y hy
      have e1 : ({t | t ∈ X.toFinset ∪ Y.toFinset ∪ S.toFinset} : Set α) =
          {a | a ∈ X} ∪ {a | a ∈ Y} ∪ {a | a ∈ S} := by ext t; simp [or_assoc]
      have e2 : ({t | t ∈ S.toFinset} : Set α) = {t | t ∈ S} := by ext t; simp
      have e3 : ({t | t ∈ X.toFinset} : Set α) = {t | t ∈ X} := by ext t; simp
      rw [e1, e2, e3]
      exact hsep x (List.mem_toFinset.1 hx) y (List.mem_toFinset.1 hy))
    (fun z hz x hx => (hb.1 z (List.mem_toFinset.1 hz)).2 x (List.mem_toFinset.1 hx)) hov v
  rw [← hadj, backdoorProb, eval_mk]
  congr 1
  funext u
  simp only [List.map_cons, List.map_nil, List.prod_cons, List.prod_nil, eval_mk, List.toFinset_nil,
    sumOut_empty, mul_one, if_true, one_mul, if_neg hYn, List.toFinset_append]
  congr 1
  split
  · rename_i h0; subst h0
    rw [List.toFinset_nil, BayesNet.P_empty hE.acyclic]
  · simp only [BayesNet.cond, Finset.union_empty, BayesNet.P_empty hE.acyclic, div_one]

/-- The adjustment set that the answer of `get_backdoor_set` proposes: the list itself (`simple`) or the first
of the listed sets. -/
def adjSet : BackdoorList α → List α
  | .names l => l
  | .sets l => l.headD []

/-- the first of the sets returned by `all` and `minimal` is admissible -/
theorem head_admissible {c : Causation α} {A : List (α × α)} (hD : IsDict c) (h : IsDiagram c A U)
    {ord : List α → List α} (hord : ∀ l, (ord l).Perm l) {X Y : List α} {adj : Adjust} (hadj : adj = .all ∨ adj = .minimal)
    {r : BackdoorList α} {p : Prob α} (hok : getBackdoorSet ord (CG.init c A) X Y adj = .ok (some (r, p))) :
    ∃ S rest, r = .sets (S :: rest) ∧ (∀ s ∈ S, s ∈ c.keys) ∧
      BackDoor (CG.init c A).explicitDag.E {a | a ∈ X} {a | a ∈ Y} {a | a ∈ S} := by
  obtain ⟨hX, hY, gm, des, sets, hf, hE', hdes, hfound, hne, rfl, rfl⟩ := search_result hD h hadj hok
  cases sets with
  | nil => exact absurd rfl hne
  | cons S rest =>
    refine ⟨S, rest, rfl, ?_⟩
    split at hfound
    · rcases firstSep_ok _ _ hfound with ⟨h1, _⟩ | ⟨l₁, S', l₂, hl, hS', hsep, _⟩
      · cases h1
      · cases hS'
        have hSsub := mem_powerset.1 (hl ▸ List.mem_append_right l₁ (List.mem_cons_self) : S ∈ powerset _)
        obtain ⟨_, k2, k3⟩ := candidate_iff hD h hord hX hdes hf hE' hSsub hsep
        exact ⟨k2, k3.1 rfl⟩
    · obtain ⟨hall, heq⟩ := allSep_ok _ _ hfound
      have hm : S ∈ List.filter (fun i => okTrue (gm.explicitDag.dSeparated X Y i)) _ :=
        heq ▸ List.mem_cons_self
      rw [List.mem_filter] at hm
      obtain ⟨b, hb⟩ := hall S hm.1
      have hbt : b = true := by have := hm.2; rw [hb] at this; exact this
      obtain ⟨_, k2, k3⟩ := candidate_iff hD h hord hX hdes hf hE' (mem_powerset.1 hm.1) hb
      exact ⟨k2, k3.1 hbt⟩

/-- the statement of `C15_backdoor_expression` for the graph itself -/
theorem backdoor_expression_at (c : Causation α) (A : List (α × α)) (hD : IsDict c) (h : IsDiagram c A U) :
    ∀ (ord : List α → List α), (∀ l, (ord l).Perm l) → ∀ X Y adj r p,
      (adj = .all ∨ adj = .minimal) → Y ≠ [] →
      getBackdoorSet ord (CG.init c A) X Y adj = .ok (some (r, p)) →
      ∀ (V : Finset α), (∀ a b, (CG.init c A).explicitDag.E a b → a ∈ V ∧ b ∈ V) → (∀ k ∈ c.keys, k ∈ V) →
      ∀ (Ω : α → Type) [∀ i, Fintype (Ω i)] (K : Type) [Field K] [LinearOrder K] [IsStrictOrderedRing K]
        (M : BayesNet (K := K) V (CG.init c A).explicitDag.E Ω),
        (∀ v, M.P (adjSet r).toFinset v ≠ 0 → M.P (X.toFinset ∪ (adjSet r).toFinset) v ≠ 0) →
        ∀ v, eval M p v = M.Pdo X.toFinset Y.toFinset v := by
  have hE := C08_explicit_faithful_partial c A h
  refine fun ord hord X Y adj r p hadj hYn hok V hV hkV Ω _ K _ _ _ M hov v => ?_
  obtain ⟨hX, hY, gm, des, sets, hf, hE', hdes, hfound, hne, rfl, rfl⟩ := search_result hD h hadj hok
  have hgood : ∃ S rest, sets = S :: rest ∧ (∀ s ∈ S, s ∈ c.keys) ∧
      BackDoor (CG.init c A).explicitDag.E {a | a ∈ X} {a | a ∈ Y} {a | a ∈ S} := by
    obtain ⟨S, rest, h1, h2⟩ := head_admissible hD h hord hadj hok
    cases h1
    exact ⟨S, rest, rfl, h2⟩
  obtain ⟨S, rest, rfl, hSk, hb⟩ := hgood
  exact backdoor_value hE hV M (fun x hx => hkV x (hX x hx)) hYn (fun y hy => hkV y (hY y hy))
    (fun s hs => hkV s (hSk s hs)) hb hov v

/-- C15. Whenever `get_backdoor_set(X, Y, 'all' or 'minimal')` returns, the returned expression evaluates,
in every discrete causal model of the diagram (with explicit latent variables) in which the treatment values
have positive probability wherever the adjustment set does, to `P(Y | do(X))`, for all values. -/
theorem C15_backdoor_expression (c : Causation α) (A : List (α × α)) (hD : IsDict c) (h : IsDiagram c A U) :
    ∃ G, IsExplicit c A U G ∧ ∀ (ord : List α → List α), (∀ l, (ord l).Perm l) → ∀ X Y adj r p,
      (adj = .all ∨ adj = .minimal) → Y ≠ [] →
      getBackdoorSet ord (CG.init c A) X Y adj = .ok (some (r, p)) →
      ∀ (V : Finset α), (∀ a b, G a b → a ∈ V ∧ b ∈ V) → (∀ k ∈ c.keys, k ∈ V) →
      ∀ (Ω : α → Type) [∀ i, Fintype (Ω i)] (K : Type) [Field K] [LinearOrder K] [IsStrictOrderedRing K]
        (M : BayesNet (K := K) V G Ω),
        (∀ v, M.P (adjSet r).toFinset v ≠ 0 → M.P (X.toFinset ∪ (adjSet r).toFinset) v ≠ 0) →
        ∀ v, eval M p v = M.Pdo X.toFinset Y.toFinset v :=
  ⟨_, C08_explicit_faithful_partial c A h, backdoor_expression_at c A hD h⟩

/-- non-vacuity: every graph has a strictly positive model (independent fair coins), and strictly positive
models meet the overlap condition. -/
def fairCoins (V : Finset α) (G : α → α → Prop) : BayesNet (K := ℚ) V G (fun _ => Bool) where
  kernel _ _ := 1 / 2
  isLocal := fun _ _ _ _ _ => rfl
  nonneg := fun _ _ _ => by norm_num
  sum_one := fun _ _ _ => by norm_num

example (V : Finset α) (G : α → α → Prop) : (fairCoins V G).Positive := fun _ _ _ => by
  norm_num [fairCoins]

example (V : Finset α) (G : α → α → Prop) (X S : Finset α) (v : α → Bool)
    (_ : (fairCoins V G).P S v ≠ 0) : (fairCoins V G).P (X ∪ S) v ≠ 0 :=
  ne_of_gt (BayesNet.Positive.P_pos (fun _ _ _ => by norm_num [fairCoins]) _ v)

example : Except.map (Option.map Prod.fst) (getBackdoorSet id (CG.init
      [("z", []), ("x", ["z"]), ("y", ["x", "z"])] []) ["x"] ["y"] .all) = .ok (some (.sets [["z"]])) := by
  decide +kernel

/-- the statement of `C15_simple_expression_partial` for the graph itself -/
theorem simple_expression_at (c : Causation α) (A : List (α × α)) (hD : IsDict c) (h : IsDiagram c A U)
    (hcl : ∀ u v, Parent c u v → u ∈ c.keys) :
    ∀ (ord : List α → List α) X Y r p, Y ≠ [] →
      getBackdoorSet ord (CG.init c A) X Y .simple = .ok (some (r, p)) →
      (∀ x ∈ X, ∀ u, ¬ Paired A x u) → (∀ x ∈ X, x ∉ Y) →
      (∀ s x, x ∈ X → Parent c s x → s ∉ Y ∧ ∀ x' ∈ X, ¬ Reach (Parent c) x' s) →
      ∀ (V : Finset α), (∀ a b, (CG.init c A).explicitDag.E a b → a ∈ V ∧ b ∈ V) → (∀ k ∈ c.keys, k ∈ V) →
      ∀ (Ω : α → Type) [∀ i, Fintype (Ω i)] (K : Type) [Field K] [LinearOrder K] [IsStrictOrderedRing K]
        (M : BayesNet (K := K) V (CG.init c A).explicitDag.E Ω),
        (∀ v, M.P (adjSet r).toFinset v ≠ 0 → M.P (X.toFinset ∪ (adjSet r).toFinset) v ≠ 0) →
        ∀ v, eval M p v = M.Pdo X.toFinset Y.toFinset v := by
  have hE := C08_explicit_faithful_partial c A h
  refine fun ord X Y r p hYn hok hA hXY hS V hV hkV Ω _ K _ _ _ M hov v => ?_
  have hin : (∀ x ∈ Y ++ X, x ∈ c.keys) ∧ ∃ S, r = .names S ∧ p = backdoorProb X Y S := by
    unfold getBackdoorSet at hok
    cases hck : checkNodes (CG.init c A).causation.keys (Y ++ X) with
    | error e => rw [hck] at hok; cases hok
    | ok _ =>
      rw [hck] at hok
      have hin := checkNodes_ok hck
      obtain ⟨gm, g1, g2, g3⟩ := removeOutgoing_explicit hD h (X := X) (fun x hx => hin x (by simp [hx]))
      simp only [g1] at hok
      split at hok
      · cases hok
      · cases hok
      · simp only [if_true, Except.ok.injEq, Option.some.injEq, Prod.mk.injEq] at hok
        exact ⟨hin, _, hok.1.symm, hok.2.symm⟩
  obtain ⟨hin, S, rfl, rfl⟩ := hin
  -- the admissibility comes from C14, whose witness is the same graph
  obtain ⟨S', hS', hmem, hbd⟩ := simple_admissible hD h hok
  cases hS'
  have hb := hbd hA hXY (fun s hs => by
    obtain ⟨x, hx, hp⟩ := (hmem s).1 hs
    exact hS s x hx hp)
  exact backdoor_value hE hV M (fun x hx => hkV x (hin x (by simp [hx]))) hYn
    (fun y hy => hkV y (hin y (by simp [hy])))
    (fun s hs => by obtain ⟨x, _, hp⟩ := (hmem s).1 hs; exact hkV s (hcl s x hp)) hb hov v

/-- C15 for `adjust='simple'`, under the side conditions of C14. -/
theorem C15_simple_expression_partial (c : Causation α) (A : List (α × α)) (hD : IsDict c) (h : IsDiagram c A U)
    (hcl : ∀ u v, Parent c u v → u ∈ c.keys) :
    ∃ G, IsExplicit c A U G ∧ ∀ (ord : List α → List α) X Y r p, Y ≠ [] →
      getBackdoorSet ord (CG.init c A) X Y .simple = .ok (some (r, p)) →
      (∀ x ∈ X, ∀ u, ¬ Paired A x u) → (∀ x ∈ X, x ∉ Y) →
      (∀ s x, x ∈ X → Parent c s x → s ∉ Y ∧ ∀ x' ∈ X, ¬ Reach (Parent c) x' s) →
      ∀ (V : Finset α), (∀ a b, G a b → a ∈ V ∧ b ∈ V) → (∀ k ∈ c.keys, k ∈ V) →
      ∀ (Ω : α → Type) [∀ i, Fintype (Ω i)] (K : Type) [Field K] [LinearOrder K] [IsStrictOrderedRing K]
        (M : BayesNet (K := K) V G Ω),
        (∀ v, M.P (adjSet r).toFinset v ≠ 0 → M.P (X.toFinset ∪ (adjSet r).toFinset) v ≠ 0) →
        ∀ v, eval M p v = M.Pdo X.toFinset Y.toFinset v :=
  ⟨_, C08_explicit_faithful_partial c A h, simple_expression_at c A hD h hcl⟩

/-! ### C16 -/

theorem valid_dsep {c : Causation α} {A : List (α × α)} (hD : IsDict c) (h : IsDiagram c A U) {S X Y : List α}
    {b : Bool} (hok : isValidBackdoorSet (CG.init c A) S X Y = .ok b) (hS : ∀ s ∈ S, s ∉ X ∧ s ∉ Y) :
    b = true ↔ DSep (CutOut (CG.init c A).explicitDag.E {a | a ∈ X}) {a | a ∈ X} {a | a ∈ Y} {a | a ∈ S} := by
  unfold isValidBackdoorSet at hok
  cases hck : checkNodes (CG.init c A).causation.keys (X ++ Y ++ S) with
  | error e => rw [hck] at hok; cases hok
  | ok _ =>
    rw [hck] at hok
    have hin := checkNodes_ok hck
    obtain ⟨gm, g1, hf, hE⟩ := removeOutgoing_explicit hD h (X := X) (fun x hx => hin x (by simp [hx]))
    simp only [g1] at hok
    exact modified_dsep h hf hE X Y S (fun a ha hs => (hS a hs).1 ha) (fun a ha hs => (hS a hs).2 ha) b hok

/-- C16. `is_valid_backdoor_set(S, X, Y)` decides separation after deleting the edges out of `X`; so it
decides the back-door criterion for sets without treatments, outcomes and descendants of treatments. Missing:
the function never checks the latter, so it accepts inadmissible sets (`C16_accepts_mediator`). -/
theorem C16_valid_exact_partial (c : Causation α) (A : List (α × α)) (hD : IsDict c) (h : IsDiagram c A U) :
    ∃ G, IsExplicit c A U G ∧ ∀ S X Y b, isValidBackdoorSet (CG.init c A) S X Y = .ok b →
      ((∀ s ∈ S, s ∉ X ∧ s ∉ Y) →
        (b = true ↔ DSep (CutOut G {a | a ∈ X}) {a | a ∈ X} {a | a ∈ Y} {a | a ∈ S})) ∧
      ((∀ s ∈ S, s ∉ Y ∧ ∀ x ∈ X, ¬ Reach G x s) →
        (b = true ↔ BackDoor G {a | a ∈ X} {a | a ∈ Y} {a | a ∈ S})) := by
  refine ⟨_, C08_explicit_faithful_partial c A h, fun S X Y b hok => ?_⟩
  refine ⟨valid_dsep hD h hok, fun hS => ?_⟩
  rw [valid_dsep hD h hok (fun s hs => ⟨fun hx => (hS s hs).2 s hx .refl, (hS s hs).1⟩)]
  exact ⟨fun hd => ⟨hS, hd⟩, fun hd => hd.2⟩

/-- non-vacuity -/
example : isValidBackdoorSet (CG.init [("z", []), ("x", ["z"]), ("y", ["x", "z"])] []) ["z"] ["x"] ["y"] = .ok true ∧
    isValidBackdoorSet (CG.init [("z", []), ("x", ["z"]), ("y", ["x", "z"])] []) [] ["x"] ["y"] = .ok false := by
  decide +kernel

/-- C16, violation: on `w → x → m → y`, `w → y` the set `{w, m}` is accepted although `m` lies on the causal
path from `x` to `y` (it is a descendant of the treatment, so adjustment for it is wrong). -/
theorem C16_accepts_mediator :
    isValidBackdoorSet (CG.init [("w", []), ("x", ["w"]), ("m", ["x"]), ("y", ["m", "w"])] [])
      ["w", "m"] ["x"] ["y"] = .ok true ∧
    Parent [("w", []), ("x", ["w"]), ("m", ["x"]), ("y", ["m", "w"])] "x" "m" := by
  exact ⟨by decide +kernel, ["x"], by simp, by simp⟩

end YL.Props
