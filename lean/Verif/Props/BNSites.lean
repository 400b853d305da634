import Verif.Model.BNSites
import Mathlib.Data.List.Perm.Basic
import Mathlib.Data.List.Infix
import Mathlib.Data.List.Nodup
import Mathlib.Tactic.Common

/-!
# C153: sites, guides and node classes of a Bayesian network
-/

set_option linter.unusedSectionVars false

namespace YL.Spec

/-- two underscores in a row occur in the name -/
def HasDouble (s : List Char) : Prop := ['_', '_'] <:+: s

end YL.Spec

namespace YL.Props

open YL Spec BNS

/-! ### The hand-written guide -/

/-- C153. `BayesianModel.guide` samples exactly the latent sites of `BayesianModel.model`, each the same number of times: for every graph, every mixture of categorical and numerical nodes, and every choice of
functions (`Linear` or `MLP` with any layers, with or without bias). -/
theorem C153_guide (m : Mis) (vs : List Node) : (guideSites m vs).Perm (vs.flatMap (nodeLatents m)) := by
  have hfn : ∀ name f, fnGuide name f = fnSites name f := fun name f => by cases f <;> rfl
  unfold guideSites
  refine List.Perm.flatMap_left _ (fun v _ => ?_)
  unfold nodeGuide nodeLatents
  by_cases hc : v.cat
  · rw [if_pos hc, if_pos hc, hfn]
  · rw [if_neg hc, if_neg hc, hfn]
    by_cases hp : v.parents
    · rw [if_pos hp, if_pos hp]
      exact List.perm_append_comm
    · rw [if_neg hp, if_neg hp]

/-! ### Names of sites -/

/-- the endings of site names never start with an underscore -/
def Plain (s : Str) : Prop := ∀ c ∈ s.head?, c ≠ '_'

theorem N_inj {a b s t : Str} (ha : ¬ HasDouble a) (hb : ¬ HasDouble b) (hs : Plain s) (ht : Plain t) (h : N a s = N b t) : a = b ∧ s = t := by
  have key : ∀ {a b s t : Str}, ¬ HasDouble b → Plain s → a.length ≤ b.length → N a s = N b t → a = b ∧ s = t := by
    intro a b s t hb hs hle h
    have hpre : a <+: b := List.prefix_of_prefix_length_le (l₃ := N b t) ⟨'_' :: '_' :: s, h⟩ ⟨'_' :: '_' :: t, rfl⟩ hle
    obtain ⟨u, rfl⟩ := hpre
    unfold N at h
    rw [List.append_assoc] at h
    have h' := List.append_cancel_left h
    match u, h', hb with
    | [], h', _ => exact ⟨(List.append_nil a).symm, by simpa using h'⟩
    | [c], h', _ =>
      simp only [List.cons_append, List.nil_append, List.cons.injEq] at h'
      obtain ⟨-, -, rfl⟩ := h'
      exact absurd rfl (hs '_' rfl)
    | c :: d :: u, h', hb =>
      simp only [List.cons_append, List.cons.injEq] at h'
      obtain ⟨rfl, rfl, -⟩ := h'
      exact absurd ⟨a, u, by simp⟩ hb
  rcases Nat.le_total a.length b.length with hle | hle
  · exact key hb hs hle h
  · obtain ⟨h1, h2⟩ := key ha ht hle h.symm
    exact ⟨h1.symm, h2.symm⟩

theorem N_double (a s : Str) : HasDouble (N a s) := ⟨a, s, by simp [N]⟩

theorem sLayer_inj {i j : Nat} (h : sLayer i = sLayer j) : i = j := by
  have h2 : Nat.toDigits 10 i = Nat.toDigits 10 j := (List.cons.injEq _ _ _ _ ▸ h).2
  have := congrArg (fun l => Nat.ofDigitChars 10 l 0) h2
  simpa [Nat.ofDigitChars_ten_toDigits] using this

/-- the ending of a latent site of a node -/
def Ending (s : Str) : Prop := s ∈ [sWeight, sBias, sMean, sScale] ∨ ∃ i, s = N (sLayer i) sWeight ∨ s = N (sLayer i) sBias

theorem ending_plain {s : Str} (h : Ending s) : Plain s := by
  rcases h with h | ⟨i, rfl | rfl⟩
  · simp only [List.mem_cons, List.not_mem_nil, or_false] at h
    rcases h with rfl | rfl | rfl | rfl <;> intro c hc <;> simp [sWeight, sBias, sMean, sScale] at hc <;> subst hc <;> decide
  · intro c hc; simp [N, sLayer] at hc; subst hc; decide
  · intro c hc; simp [N, sLayer] at hc; subst hc; decide

/-- the endings of the sites of the function of a node -/
def fnEnds : Fn → List Str
  | .linear bias => sWeight :: (if bias then [sBias] else [])
  | .mlp h bias => (List.range (nLayers h)).flatMap (fun i => N (sLayer i) sWeight :: (if bias then [N (sLayer i) sBias] else []))

theorem N_assoc (a b c : Str) : N (N a b) c = N a (N b c) := by simp [N]

theorem fnSites_eq (name : Str) (f : Fn) : fnSites name f = (fnEnds f).map (N name) := by
  cases f with
  | linear bias => cases bias <;> rfl
  | mlp h bias =>
    show (List.range (nLayers h)).flatMap (fun i => linearSites bias (N name (sLayer i))) =
      ((List.range (nLayers h)).flatMap (fun i => N (sLayer i) sWeight :: (if bias then [N (sLayer i) sBias] else []))).map (N name)
    rw [List.map_flatMap]
    congr 1
    funext i
    unfold linearSites
    cases bias <;> simp [N_assoc]

/-- the endings of the latent sites of a node -/
def nodeEnds (m : Mis) (v : Node) : List Str :=
  if v.cat then
    if v.parents then fnEnds m.catFn else [sWeight]
  else if v.parents then sScale :: fnEnds m.numFn else [sMean, sScale]

theorem nodeLatents_eq (m : Mis) (v : Node) : nodeLatents m v = (nodeEnds m v).map (N v.name) := by
  unfold nodeLatents nodeEnds
  by_cases hc : v.cat <;> by_cases hp : v.parents <;> simp [hc, hp, fnSites_eq]

theorem fnEnds_ending (f : Fn) : ∀ s ∈ fnEnds f, Ending s := by
  intro s hs
  cases f with
  | linear bias =>
    cases bias <;> simp [fnEnds] at hs
    · exact .inl (by simp [hs])
    · rcases hs with rfl | rfl <;> exact .inl (by simp)
  | mlp h bias =>
    obtain ⟨i, -, hi⟩ := List.mem_flatMap.1 hs
    cases bias <;> simp at hi
    · exact .inr ⟨i, .inl hi⟩
    · rcases hi with rfl | rfl
      · exact .inr ⟨i, .inl rfl⟩
      · exact .inr ⟨i, .inr rfl⟩

theorem nodeEnds_ending (m : Mis) (v : Node) : ∀ s ∈ nodeEnds m v, Ending s := by
  intro s hs
  unfold nodeEnds at hs
  by_cases hc : v.cat <;> by_cases hp : v.parents <;> simp [hc, hp] at hs
  · exact fnEnds_ending _ s hs
  · exact .inl (by simp [hs])
  · rcases hs with rfl | hs
    · exact .inl (by simp)
    · exact fnEnds_ending _ s hs
  · rcases hs with rfl | rfl <;> exact .inl (by simp)

theorem layer_clean (i : Nat) : ¬ HasDouble (sLayer i) := by
  rintro ⟨a, b, h⟩
  have hmem : '_' ∈ sLayer i := by rw [← h]; simp
  unfold sLayer at hmem
  rcases List.mem_cons.1 hmem with h1 | h1
  · exact absurd h1 (by decide)
  · have := Nat.isDigit_of_mem_toDigits (by decide) (by decide) h1
    exact absurd this (by decide)

theorem fnEnds_nodup (f : Fn) : (fnEnds f).Nodup ∧ sScale ∉ fnEnds f := by
  have hw : Plain sWeight := ending_plain (.inl (by simp))
  have hb : Plain sBias := ending_plain (.inl (by simp))
  cases f with
  | linear bias => cases bias <;> decide
  | mlp h bias =>
    constructor
    · unfold fnEnds
      rw [List.nodup_flatMap]
      refine ⟨fun i _ => ?_, ?_⟩
      · cases bias
        · simp
        · simp only [if_true, List.nodup_cons, List.mem_singleton, List.not_mem_nil, not_false_eq_true, List.nodup_nil, and_true]
          intro h
          exact absurd (N_inj (layer_clean i) (layer_clean i) hw hb h).2 (by decide)
      · refine List.Pairwise.imp_of_mem ?_ (List.nodup_range (n := nLayers h))
        intro i j _ _ hij
        rw [Function.onFun, List.disjoint_left]
        intro s hs hs'
        have hform : ∀ k, s ∈ (N (sLayer k) sWeight :: (if bias then [N (sLayer k) sBias] else [])) → ∃ e, (Plain e) ∧ s = N (sLayer k) e := by
          intro k hk
          cases bias <;> simp at hk
          · exact ⟨_, hw, hk⟩
          · rcases hk with rfl | rfl
            · exact ⟨_, hw, rfl⟩
            · exact ⟨_, hb, rfl⟩
        obtain ⟨e, he, rfl⟩ := hform i hs
        obtain ⟨e', he', h'⟩ := hform j hs'
        exact hij (sLayer_inj (N_inj (layer_clean i) (layer_clean j) he he' h').1)
    · intro hmem
      obtain ⟨i, -, hi⟩ := List.mem_flatMap.1 hmem
      cases bias <;> simp [N, sLayer, sScale] at hi

theorem nodeEnds_nodup (m : Mis) (v : Node) : (nodeEnds m v).Nodup := by
  unfold nodeEnds
  split_ifs
  · exact (fnEnds_nodup _).1
  · decide
  · exact List.nodup_cons.2 ⟨(fnEnds_nodup _).2, (fnEnds_nodup _).1⟩
  · decide

/-- C153. Every site has its own name (Pyro refuses a model otherwise): for every graph whose nodes have different names without two underscores in a row, for any functions. -/
theorem C153_distinct (m : Mis) (vs : List Node) (hn : (vs.map Node.name).Nodup) (hd : ∀ v ∈ vs, ¬ HasDouble v.name) : (modelSites m vs).Nodup := by
  unfold modelSites
  rw [List.nodup_append]
  refine ⟨?_, hn, ?_⟩
  · rw [List.nodup_flatMap]
    refine ⟨fun v hv => ?_, ?_⟩
    · rw [nodeLatents_eq]
      refine (nodeEnds_nodup m v).map_on (fun s hs t ht h => ?_)
      exact (N_inj (hd v hv) (hd v hv) (ending_plain (nodeEnds_ending m v s hs)) (ending_plain (nodeEnds_ending m v t ht)) h).2
    · refine List.Pairwise.imp_of_mem ?_ (List.pairwise_map.1 hn)
      intro u v hu hv huv
      rw [Function.onFun, List.disjoint_left]
      intro s hs hs'
      rw [nodeLatents_eq] at hs hs'
      obtain ⟨e, he, rfl⟩ := List.mem_map.1 hs
      obtain ⟨e', he', h'⟩ := List.mem_map.1 hs'
      exact huv (N_inj (hd v hv) (hd u hu) (ending_plain (nodeEnds_ending m v e' he')) (ending_plain (nodeEnds_ending m u e he)) h').1.symm
  · rintro s hs t ht rfl
    obtain ⟨v, hv, hs⟩ := List.mem_flatMap.1 hs
    obtain ⟨u, hu, rfl⟩ := List.mem_map.1 ht
    rw [nodeLatents_eq] at hs
    obtain ⟨e, -, he⟩ := List.mem_map.1 hs
    refine hd u hu ?_
    rw [← he]
    exact N_double _ _

/-- C153. The trained guide: with such names, the latent sites of the model are divided among the two automatic guides, every site in exactly one of them. -/
theorem C153_auto (m : Mis) (vs : List Node) (hn : (vs.map Node.name).Nodup) (hd : ∀ v ∈ vs, ¬ HasDouble v.name) :
    (deltaSites m vs ++ normalSites m vs).Perm (vs.flatMap (nodeLatents m)) ∧ (deltaSites m vs ++ normalSites m vs).Nodup := by
  have hnd := C153_distinct m vs hn hd
  have hh : BNS.hidden m vs = vs.flatMap (nodeLatents m) := by
    unfold BNS.hidden modelSites
    rw [List.filter_append]
    have h1 : (vs.map Node.name).filter (fun s => s ∉ vs.map Node.name) = [] := by
      rw [List.filter_eq_nil_iff]
      intro s hs
      simpa using hs
    rw [h1, List.append_nil, List.filter_eq_self]
    intro s hs
    have := (List.nodup_append.1 hnd).2.2 s hs
    simp only [decide_eq_true_eq]
    exact fun hmem => this s hmem rfl
  have hp : (deltaSites m vs ++ normalSites m vs).Perm (vs.flatMap (nodeLatents m)) := by
    unfold deltaSites normalSites
    rw [hh]
    exact List.filter_append_perm _ _
  exact ⟨hp, hp.nodup_iff.2 (List.nodup_append.1 hnd).1⟩

/-- C153. If no name contains an underscore, the right guide gets every site: the weights of a categorical node are learned as a point (`AutoDelta`), those of a numerical node as a normal distribution
(`AutoNormal`). -/
theorem C153_kinds (m : Mis) (vs : List Node) (hn : (vs.map Node.name).Nodup) (hd : ∀ v ∈ vs, '_' ∉ v.name) (v : Node) (hv : v ∈ vs) (s : Str) (hs : s ∈ nodeLatents m v) :
    isCat vs s = v.cat := by
  rw [nodeLatents_eq] at hs
  obtain ⟨e, -, rfl⟩ := List.mem_map.1 hs
  have ht : (N v.name e).takeWhile (fun c => c ≠ '_') = v.name := by
    unfold N
    rw [List.takeWhile_append_of_pos (fun c hc => by simp only [decide_eq_true_eq]; rintro rfl; exact hd v hv hc)]
    simp
  unfold isCat
  rw [ht]
  have huniq : ∀ u ∈ vs, u.name = v.name → u = v := fun u hu h => List.inj_on_of_nodup_map hn hu hv h
  cases hcat : v.cat with
  | true => exact List.any_eq_true.2 ⟨v, hv, by simp [hcat]⟩
  | false =>
    rw [List.any_eq_false]
    intro u hu h
    simp only [Bool.and_eq_true, decide_eq_true_eq] at h
    rw [huniq u hu h.1, hcat] at h
    exact absurd h.2 (by decide)

/-- C153, refuted: that the kind of a node decides how its weights are learned. A categorical node `age_group` gets the guide for numerical nodes, because its name is cut at the first underscore; and a
numerical node `age_years` beside a categorical node `age` gets the one for categorical nodes. -/
theorem C153_underscore_refuted :
    normalSites defaultMis [⟨"age_group".toList, true, false⟩] = ["age_group__weight".toList] ∧
      "age_years__mean".toList ∈ deltaSites defaultMis [⟨"age".toList, true, false⟩, ⟨"age_years".toList, false, false⟩] := by
  decide +kernel

/-- C153, refuted without the condition on names: with the nodes `x` and `x__weight` two sites of the model have the same name. -/
theorem C153_clash_refuted : ¬ (modelSites defaultMis [⟨"x".toList, true, false⟩, ⟨"x__weight".toList, true, true⟩]).Nodup := by
  decide +kernel

/-! ### The cache of classes -/

variable {O : Type}

/-- the class name of a request -/
def clsName (r : Request O) : Str := r.fn ++ r.mod

theorem history_find (rs : List (Request O)) : ∀ (cache : List (Str × Request O)), (∀ e ∈ cache, e.1 = clsName e.2) → ∀ n : Str,
    ((history cache rs).find? (fun e => e.1 = n)).map Prod.snd = (cache.map Prod.snd ++ rs).find? (fun q => clsName q = n) := by
  induction rs with
  | nil =>
    intro cache hc n
    unfold history
    rw [List.append_nil, List.find?_map]
    have : cache.find? (fun e => e.1 = n) = cache.find? ((fun q => decide (clsName q = n)) ∘ Prod.snd) := by
      clear * - hc
      induction cache with
      | nil => rfl
      | cons e l ih =>
        rw [List.find?_cons, List.find?_cons, ih (fun e he => hc e (List.mem_cons_of_mem _ he)), hc e (List.mem_cons_self ..)]
        rfl
    rw [this]
  | cons r rs ih =>
    intro cache hc n
    have hstep : (∀ e ∈ (getCls cache r).1, e.1 = clsName e.2) := by
      unfold getCls
      cases hf : cache.find? (fun e => e.1 = r.fn ++ r.mod) with
      | some e => exact hc
      | none =>
        intro e he
        rcases List.mem_append.1 he with h | h
        · exact hc e h
        · rw [List.mem_singleton] at h; rw [h]; rfl
    rw [history, ih _ hstep n]
    unfold getCls
    cases hf : cache.find? (fun e => e.1 = r.fn ++ r.mod) with
    | none => simp
    | some e =>
      have he1 : e.1 = r.fn ++ r.mod := by simpa using List.find?_some hf
      have hmem := List.mem_of_find?_eq_some hf
      show (cache.map Prod.snd ++ rs).find? _ = (cache.map Prod.snd ++ r :: rs).find? _
      rw [List.find?_append, List.find?_append]
      by_cases hn : clsName r = n
      · have hsome : ((cache.map Prod.snd).find? (fun q => decide (clsName q = n))).isSome := by
          rw [List.find?_isSome]
          refine ⟨e.2, List.mem_map.2 ⟨e, hmem, rfl⟩, ?_⟩
          rw [← hc e hmem, he1]
          exact decide_eq_true (show r.fn ++ r.mod = n from hn)
        obtain ⟨q, hq⟩ := Option.isSome_iff_exists.1 hsome
        rw [hq]
        rfl
      · rw [List.find?_cons_of_neg (by simpa using hn)]

/-- C153. What `Mod[Fn, options]` returns, after any sequence of such requests: the class made for the *first* request with the same names of function and module, whatever the options of the present request. -/
theorem C153_cache (rs : List (Request O)) (r : Request O) :
    (rs ++ [r]).find? (fun q => clsName q = clsName r) = some (getCls (history [] rs) r).2 := by
  have h := history_find rs [] (fun e he => absurd he (List.not_mem_nil)) (clsName r)
  rw [List.map_nil, List.nil_append] at h
  rw [List.find?_append, ← h]
  unfold getCls
  have hn : clsName r = r.fn ++ r.mod := rfl
  rw [hn]
  cases hf : (history [] rs).find? (fun e => e.1 = r.fn ++ r.mod) with
  | some e => rfl
  | none => simp [clsName]

/-- the requests made when the module is imported (_modules.py:468-472), with `hidden_dims` as the option -/
def imported : List (Request (Option (List Nat))) :=
  [⟨"MiCategorical".toList, "Linear".toList, none⟩, ⟨"MiCategorical".toList, "MLP".toList, none⟩, ⟨"MiNormal".toList, "Linear".toList, none⟩, ⟨"MiNormal".toList, "MLP".toList, none⟩]

/-- C153, refuted: that the options of `MiNormal[MLP, {'hidden_dims': ...}]` are used. After the import, every request for an `MLP` node gives the class without them. -/
theorem C153_options_refuted (h : List Nat) : (getCls (history [] imported) ⟨"MiNormal".toList, "MLP".toList, some h⟩).2.options = none := by
  have := C153_cache imported ⟨"MiNormal".toList, "MLP".toList, some h⟩
  have h2 : (imported ++ [(⟨"MiNormal".toList, "MLP".toList, some h⟩ : Request (Option (List Nat)))]).find? (fun q => clsName q = clsName (⟨"MiNormal".toList, "MLP".toList, some h⟩ : Request (Option (List Nat)))) =
      some ⟨"MiNormal".toList, "MLP".toList, none⟩ := by
    rw [List.find?_append]
    have : imported.find? (fun q => clsName q = clsName (⟨"MiNormal".toList, "MLP".toList, some h⟩ : Request (Option (List Nat)))) = some ⟨"MiNormal".toList, "MLP".toList, none⟩ := by
      show imported.find? (fun q => decide (clsName q = "MLP".toList ++ "MiNormal".toList)) = _
      decide +kernel
    rw [this]
    rfl
  rw [h2] at this
  rw [← Option.some.inj this]

/-- non-vacuity: a graph with nodes of all four kinds, one of them with an underscore in its name, satisfies the conditions on names -/
def fourNodes : List Node := [⟨"a".toList, true, false⟩, ⟨"b".toList, false, false⟩, ⟨"c".toList, true, true⟩, ⟨"d_1".toList, false, true⟩]

example : (fourNodes.map Node.name).Nodup ∧ (∀ v ∈ fourNodes, ¬ HasDouble v.name) ∧
    modelSites defaultMis fourNodes = ["a__weight".toList, "b__mean".toList, "b__scale".toList, "c__weight".toList, "d_1__scale".toList, "d_1__weight".toList, "d_1__bias".toList,
      "a".toList, "b".toList, "c".toList, "d_1".toList] := by
  refine ⟨by decide +kernel, ?_, by decide +kernel⟩
  unfold HasDouble
  decide +kernel

end YL.Props
