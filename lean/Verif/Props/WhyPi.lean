import Verif.Model.WhyPi
import Verif.Props.WhyFit
import Verif.Props.WhyPolicy
import Verif.Props.PolicySettings

/-!
# C150: the policy recommended by `Why(...).policy_interpreter`, from `fit` to the causal value of the policy
-/

set_option linter.unusedSectionVars false

namespace YL.Spec

open YL

variable {α B : Type} [DecidableEq α] [LinearOrder B] [Fintype B] {K : Type} [Field K] [LinearOrder K]

/-- the mean of `num y` when every individual, according to its values of `S`, gets the treatments `X` set as the policy `π` says: the average over
the values of `S` of the mean among the individuals with these values when `X` is set to the answer of `π` -/
def BayesNet.meanPolicy {V : Finset α} {E : α → α → Prop} (M : BayesNet (K := K) V E (fun _ => B)) (X : List α) (y : α) (S : Finset α) (num : B → K)
    (π : (α → B) → α → B) (base : α → B) : K :=
  sumOut (Ω := fun _ => B) S (fun u => M.P S u * M.meanDoGiven X.toFinset y S num (Props.setTo X (π u) u)) base

end YL.Spec

namespace YL.Props

open YL Spec Meta Permuted WhyF

section table
variable {C V F K : Type} [DecidableEq C] [LinearOrder V]

/-- a fitted object: which learners it holds -/
theorem fit_full [Ring K] (fitM : List (F × K) → F → K) (pre : List V → F) (out : V → K) {treatment S : List C} (hS : S ≠ []) (y : C) {L : List (C → V)}
    (hc : ∀ xs ∈ WhyF.keys treatment, Crossed L xs) :
    ∃ (st : Dict (List C) (Fitted F K)) (g : List C → List ℕ × List ℕ → Meta.T ℕ F K), fit fitM pre out treatment S y L = .ok st ∧
      (∀ xs, dget st xs = if xs ∈ WhyF.keys treatment then some ⟨xs.map (fun x => List.range (classesOf L x).length),
        (pairs (product (xs.map (fun x => List.range (classesOf L x).length)))).map (fun p => (p, g xs p))⟩ else none) ∧
      ∀ xs ∈ WhyF.keys treatment, ∀ vs vs', List.Forall₂ (fun v x => ∃ u ∈ L, u x = v) vs xs → List.Forall₂ (fun v x => ∃ u ∈ L, u x = v) vs' xs → ∀ w,
        tEstimate (g xs (encodeVals L xs vs, encodeVals L xs vs')) w = fitM (armOf pre out S y L xs vs) w - fitM (armOf pre out S y L xs vs') w := by
  have hex : ∀ xs : List C, ∃ g : List ℕ × List ℕ → Meta.T ℕ F K, xs ∈ WhyF.keys treatment →
      fitKey fitM pre out S y L xs = .ok (xs, ⟨xs.map (fun x => List.range (classesOf L x).length),
        (pairs (product (xs.map (fun x => List.range (classesOf L x).length)))).map (fun p => (p, g p))⟩) ∧
      ∀ vs vs', List.Forall₂ (fun v x => ∃ u ∈ L, u x = v) vs xs → List.Forall₂ (fun v x => ∃ u ∈ L, u x = v) vs' xs → ∀ w,
        tEstimate (g (encodeVals L xs vs, encodeVals L xs vs')) w = fitM (armOf pre out S y L xs vs) w - fitM (armOf pre out S y L xs vs') w := by
    intro xs
    by_cases h : xs ∈ WhyF.keys treatment
    · obtain ⟨g, hg⟩ := fitKey_full fitM pre out S y (keys_ne_nil h) (hc xs h)
      exact ⟨g, fun _ => hg⟩
    · exact ⟨fun _ => ⟨none, 0, 0, fun _ => 0, fun _ => 0⟩, fun h' => absurd h' h⟩
  choose g hg using hex
  refine ⟨(WhyF.keys treatment).map (fun xs => (xs, (⟨xs.map (fun x => List.range (classesOf L x).length),
        (pairs (product (xs.map (fun x => List.range (classesOf L x).length)))).map (fun p => (p, g xs p))⟩ : Fitted F K))), g, ?_, ?_, ?_⟩
  · unfold fit
    rw [if_neg hS]
    exact mapE_eq (fun xs hxs => (hg xs hxs).1)
  · intro xs
    rw [dget_map]
    by_cases h : xs ∈ WhyF.keys treatment
    · rw [if_pos h, if_pos h]
    · rw [if_neg h, if_neg h]
  · intro xs hxs
    exact (hg xs hxs).2

theorem codesOf_classes (L : List (C → V)) : ∀ (xs : List C) (vs : List V), codesOf (xs.map (classesOf L)) vs = encodeVals L xs vs
  | [], vs => by simp [codesOf, encodeVals]
  | x :: xs, [] => by simp [codesOf, encodeVals]
  | x :: xs, v :: vs => by
    have := codesOf_classes L xs vs
    unfold codesOf encodeVals at this ⊢
    rw [List.map_cons, List.zipWith_cons_cons, List.zipWith_cons_cons, this]
    congr 1

theorem mem_prod_classes {L : List (C → V)} {xs : List C} {vs : List V} :
    vs ∈ Why.prod (xs.map (classesOf L)) ↔ List.Forall₂ (fun v x => ∃ u ∈ L, u x = v) vs xs := by
  rw [mem_prod, List.forall₂_map_right_iff]
  exact ⟨fun h => h.imp (fun _ _ h => mem_classesOf.1 h), fun h => h.imp (fun _ _ h => mem_classesOf.2 h)⟩

/-- the effect table of a fitted object: the column of a combination holds the differences of the base models of the arms -/
theorem table_columns [Ring K] [DecidableEq K] {fitM : List (F × K) → F → K} {pre : List V → F} {out : V → K} {S : List C} {y : C} {L : List (C → V)} {xs : List C}
    (hlen : xs.length ≤ 2) {g : List ℕ × List ℕ → Meta.T ℕ F K}
    (hg : ∀ vs vs', List.Forall₂ (fun v x => ∃ u ∈ L, u x = v) vs xs → List.Forall₂ (fun v x => ∃ u ∈ L, u x = v) vs' xs → ∀ w,
        tEstimate (g (encodeVals L xs vs, encodeVals L xs vs')) w = fitM (armOf pre out S y L xs vs) w - fitM (armOf pre out S y L xs vs') w)
    (str : V → List Char) {cs : List V} (hcs : List.Forall₂ (fun v x => ∃ u ∈ L, u x = v) cs xs) (rows : List (List V)) :
    WhyP.effectArray (tNji (rows.map pre)) rows.length (xs.map (classesOf L)) str
      ((pairs (product (xs.map (fun x => List.range (classesOf L x).length)))).map (fun p => (p, g p))) none (some cs) =
      .ok ((Why.prod (xs.map (classesOf L))).map (fun vs => (WhyP.joinLabel (vs.map str),
        rows.map (fun r => fitM (armOf pre out S y L xs vs) (pre r) - fitM (armOf pre out S y L xs cs) (pre r))))) := by
  have hn : ∀ c ∈ xs.map (classesOf L), c.Nodup := by
    intro c hc
    obtain ⟨x, _, rfl⟩ := List.mem_map.1 hc
    exact classesOf_nodup L x
  have e : fitSeq (fun (_ : Meta.T ℕ F K) a b => g (a, b)) (g ([], [])) (product ((xs.map (classesOf L)).map (fun c => List.range c.length))) =
      (pairs (product (xs.map (fun x => List.range (classesOf L x).length)))).map (fun p => (p, g p)) := by
    rw [fitSeq_eq, List.map_map]
    rfl
  have htc : TwoColumns rows.length (fun s : Meta.T ℕ F K => (rows.map pre).map (tEstimate s)) (tNji (rows.map pre)) := by
    intro s
    refine ⟨by simp, Or.inl ?_⟩
    unfold tNji
    rw [List.length_map]
  have hcs' := mem_prod_classes.2 hcs
  obtain ⟨col, h1, h2, h3⟩ := C122_columns (fit := fun (_ : Meta.T ℕ F K) a b => g (a, b)) (proto := g ([], [])) htc hn (by simpa using hlen) str hcs'
  rw [e] at h1 h3
  rw [h1]
  congr 1
  apply List.map_congr_left
  intro vs hvs
  congr 1
  by_cases hvc : vs = cs
  · subst hvc
    rw [h2]
    symm
    rw [List.eq_replicate_iff]
    refine ⟨by simp, fun b hb => ?_⟩
    obtain ⟨r, _, rfl⟩ := List.mem_map.1 hb
    simp
  · have hvs' := mem_prod_classes.1 hvs
    have d1 := (encodeAll_ok hn).1 (encodeAll_codes hvs)
    have d2 := (encodeAll_ok hn).1 (encodeAll_codes hcs')
    have h4 := h3 vs hvs hvc _ _ d1 d2
    rw [codesOf_classes, codesOf_classes] at h4
    have hp : ∀ {w}, w ∈ Why.prod (xs.map (classesOf L)) → encodeVals L xs w ∈ product ((xs.map (classesOf L)).map (fun c => List.range c.length)) := by
      intro w hw
      rw [product_codes hn, ← codesOf_classes]
      exact List.mem_map_of_mem hw
    obtain ⟨r, k1, -, k2⟩ := C35_antisymmetric (fit := fun (_ : Meta.T ℕ F K) a b => g (a, b)) (proto := g ([], []))
      (treats := (xs.map (classesOf L)).map (fun c => List.range c.length)) (fun s : Meta.T ℕ F K => (rows.map pre).map (tEstimate s)) (fun l hl => by
        obtain ⟨j, _, rfl⟩ := List.mem_map.1 hl
        exact List.nodup_range) (hp hvs) (hp hcs') (fun he => hvc (encodeVals_inj hvs' hcs he)) (Or.inl rfl) (Or.inl rfl)
    rw [e, h4] at k1
    cases k1
    rcases k2 with k | k
    · rw [k, List.map_map]
      apply List.map_congr_left
      intro r _
      exact hg _ _ hvs' hcs (pre r)
    · rw [k, List.map_map, List.map_map]
      apply List.map_congr_left
      intro r _
      simp only [Function.comp_apply]
      rw [hg _ _ hcs hvs' (pre r)]
      simp

end table

section causal
variable {α B : Type} [DecidableEq α] [LinearOrder B] [Fintype B] {F : Type} [DecidableEq F] {K : Type} [Field K] [LinearOrder K] [IsStrictOrderedRing K]
  {V : Finset α} {E : α → α → Prop} {M : BayesNet (K := K) V E (fun _ => B)}

theorem dependsOn_Pdo (hV : ∀ i, ∀ j ∈ V, E i j → i ∈ V) (X S : Finset α) : DependsOn (M.Pdo X S) (X ∪ S : Set α) := by
  have h1 : DependsOn (fun v => ∏ i ∈ V \ X, M.kernel i v) (V : Set α) := dependsOn_prod (fun i hi => by
    have hiV := (Finset.mem_sdiff.1 hi).1
    refine (M.isLocal i hiV).mono ?_
    intro j hj
    rcases Set.mem_insert_iff.1 hj with rfl | hj
    · exact hiV
    · exact hV j i hiV hj)
  refine (dependsOn_sumOut h1 (V \ (X ∪ S))).mono ?_
  intro j hj
  by_contra h
  apply hj.2
  simp only [Finset.coe_sdiff, Finset.coe_union, Set.mem_diff, Finset.mem_coe]
  exact ⟨hj.1, h⟩

theorem meanDoGiven_congr (hV : ∀ i, ∀ j ∈ V, E i j → i ∈ V) {X Z : Finset α} {y : α} {num : B → K} {u v : α → B} (h : ∀ i ∈ X ∪ Z, u i = v i) :
    M.meanDoGiven X y Z num u = M.meanDoGiven X y Z num v := by
  unfold BayesNet.meanDoGiven
  refine Finset.sum_congr rfl (fun b _ => ?_)
  congr 2
  · refine dependsOn_Pdo hV X ({y} ∪ Z) (fun i hi => ?_)
    by_cases hy : i = y
    · subst hy; simp
    · rw [Function.update_of_ne hy, Function.update_of_ne hy]
      refine h i ?_
      simp only [Finset.coe_union, Finset.coe_singleton, Set.mem_union, Finset.mem_coe, Set.mem_singleton_iff] at hi
      rcases hi with hi | hi | hi
      · exact Finset.mem_union_left _ hi
      · exact absurd hi hy
      · exact Finset.mem_union_right _ hi
  · exact dependsOn_Pdo hV X Z (fun i hi => h i (by simpa using hi))

/-- the value of a policy as an average over the sample -/
theorem meanPolicy_sample (hV : ∀ i, ∀ j ∈ V, E i j → i ∈ V) {O : Finset α} (hO : O ⊆ V) {L : List (α → B)} (hpop : IsPopulation M O L) {X S : List α} {y : α}
    (hS : S.toFinset ⊆ O) (num : B → K) (π : List B → α → B) (base : α → B) :
    (L.map (fun u => M.meanDoGiven X.toFinset y S.toFinset num (setTo X (π (S.map u)) u))).sum =
      (L.length : K) * M.meanPolicy X y S.toFinset num (fun u => π (S.map u)) base := by
  rw [sum_sample L S.toFinset _ (fun u v h => ?_) base]
  · unfold BayesNet.meanPolicy sumOut
    rw [Finset.mul_sum]
    refine Finset.sum_congr rfl (fun w _ => ?_)
    beta_reduce
    rw [population_mono hpop hO hS, mul_assoc]
  · rw [(map_eq_iff S u v).2 h]
    apply meanDoGiven_congr hV
    intro i hi
    by_cases hx : i ∈ X
    · simp [setTo, hx]
    · rcases Finset.mem_union.1 hi with hi | hi
      · exact absurd (List.mem_toFinset.1 hi) hx
      · simp [setTo, hx, h i hi]

/-- what an exact base model of an arm predicts for an individual is its mean under the intervention -/
theorem arm_value (hac : Acyclic E) (hV : ∀ i, ∀ j ∈ V, E i j → i ∈ V) {O : Finset α} (hO : O ⊆ V) {L : List (α → B)} (hL : L ≠ [])
    (hpop : IsPopulation M O L) {X S : List α} {y : α} (hX : X.toFinset ⊆ O) (hS : S.toFinset ⊆ O) (hyO : y ∈ O)
    (hb : BackDoor E {a | a ∈ X} {a | a ∈ [y]} {a | a ∈ S}) (num : B → K) {pre : List B → F}
    (hpre : ∀ u ∈ L, ∀ u' ∈ L, pre (S.map u) = pre (S.map u') → S.map u = S.map u')
    {fitM : List (F × K) → F → K} (hM : Averages fitM) {v : α → B} (hov : M.Overlap X.toFinset S.toFinset v) {u : α → B} (hu : u ∈ L) :
    fitM (armOf pre num S y L X (X.map v)) (pre (S.map u)) = M.meanDoGiven X.toFinset y S.toFinset num (setTo X v u) := by
  have hdisj : ∀ a ∈ S, a ∉ X := fun a ha ha' => (hb.1 a ha).2 a ha' .refl
  rw [averages_armOf hM hpre hu (overlap_sample hac hV hO hpop hX hS hdisj hov hu).2,
    ← cellMean_do hac hV hO hL hpop hX hS hyO hb num (overlap_sample hac hV hO hpop hX hS hdisj hov hu).1]
  congr 1
  · exact (map_eq_iff S _ _).2 (fun i hi => by simp [setTo, hdisj i (by simpa using hi)])
  · exact (map_eq_iff X _ _).2 (fun i hi => by simp [setTo, List.mem_toFinset.1 hi])

/-- giving everybody the same treatment is the policy whose value is the mean under that intervention -/
theorem meanPolicy_const (hac : Acyclic E) (hV : ∀ i, ∀ j ∈ V, E i j → i ∈ V) {O : Finset α} (hO : O ⊆ V) {L : List (α → B)} (hL : L ≠ [])
    (hpop : IsPopulation M O L) {X S : List α} {y : α} (hX : X.toFinset ⊆ O) (hS : S.toFinset ⊆ O) (hyO : y ∈ O)
    (hb : BackDoor E {a | a ∈ X} {a | a ∈ [y]} {a | a ∈ S}) (num : B → K) {v : α → B} (hov : M.Overlap X.toFinset S.toFinset v) (base : α → B) :
    M.meanPolicy X y S.toFinset num (fun _ => v) base = M.meanDo X.toFinset y num v := by
  have hn : (L.length : K) ≠ 0 := by
    rw [Nat.cast_ne_zero]
    exact fun h => hL (List.length_eq_zero_iff.1 h)
  have hdisj : ∀ a ∈ S, a ∉ X := fun a ha ha' => (hb.1 a ha).2 a ha' .refl
  have h1 := meanPolicy_sample (X := X) (y := y) hV hO hpop hS num (fun _ => v) base
  have h2 := sum_cellMean_do hac hV hO hL hpop hX hS hyO hb num v hov
  apply mul_left_cancel₀ hn
  rw [← h1, ← h2]
  conv_rhs => rw [show (dataOf X S y num L).map (fun r => cellMean (dataOf X S y num L) r.wv (X.map v)) =
    (L.map (fun u => (⟨S.map u, X.map u, num (u y)⟩ : Row B (List B) K))).map (fun r => cellMean (dataOf X S y num L) r.wv (X.map v)) from rfl, List.map_map]
  congr 1
  apply List.map_congr_left
  intro u hu
  simp only [Function.comp_apply]
  rw [← cellMean_do hac hV hO hL hpop hX hS hyO hb num (overlap_sample hac hV hO hpop hX hS hdisj hov hu).1]
  congr 1
  · exact (map_eq_iff S _ _).2 (fun i hi => by simp [setTo, hdisj i (by simpa using hi)])
  · exact (map_eq_iff X _ _).2 (fun i hi => by simp [setTo, List.mem_toFinset.1 hi])

theorem exists_values {X : List α} (hn : X.Nodup) (d : B) : ∀ {vs : List B}, vs.length = X.length → ∃ v : α → B, X.map v = vs := by
  induction X with
  | nil =>
    intro vs h
    exact ⟨fun _ => d, by rw [List.length_eq_zero_iff.1 h]; rfl⟩
  | cons x X ih =>
    intro vs h
    cases vs with
    | nil => cases h
    | cons b vs =>
      obtain ⟨v, hv⟩ := ih (List.nodup_cons.1 hn).2 (vs := vs) (by simpa using h)
      refine ⟨Function.update v x b, ?_⟩
      rw [List.map_cons, Function.update_self]
      congr 1
      rw [← hv]
      apply List.map_congr_left
      intro a ha
      exact Function.update_of_ne (by rintro rfl; exact (List.nodup_cons.1 hn).1 ha) _ _

theorem keys_nodup {treatment xs : List α} (h : xs ∈ WhyF.keys treatment) : xs.Nodup ∧ xs.length ≤ 2 ∧ ∀ x ∈ xs, x ∈ treatment := by
  unfold WhyF.keys at h
  rcases List.mem_append.1 h with h | h
  · obtain ⟨x, hx, rfl⟩ := List.mem_map.1 h
    simpa using hx
  · split at h
    · obtain ⟨p, hp, hp'⟩ := List.mem_filterMap.1 h
      obtain ⟨a', ha', hq⟩ := List.mem_flatMap.1 hp
      obtain ⟨b', hb', rfl⟩ := List.mem_map.1 hq
      split at hp'
      · rename_i hne
        cases hp'
        refine ⟨by simpa using hne, by simp, ?_⟩
        simp [ha', hb']
      · cases hp'
    · cases h

theorem observed_iff {L : List (α → B)} {xs : List α} {v : α → B} :
    List.Forall₂ (fun b x => ∃ u ∈ L, u x = b) (xs.map v) xs ↔ ∀ x ∈ xs, ∃ u ∈ L, u x = v x := by
  induction xs with
  | nil => simp
  | cons x xs ih => simp [ih]

variable [FloorRing K]

open Tree in
/-- the samples the tree is grown from, when the rows are those of `L` and the effects are `D` -/
theorem used_eq {d : ℕ} (g : PSettings K) (L : List (α → B)) (q : (α → B) → ℕ → K) (D : (α → B) → Fin d → K) :
    used g (L.map q) (L.map D) none = L.map (fun u => ⟨q u, 1, D u⟩) := by
  have h : pRows (L.map q) (L.map D) (givenWeights none (L.map q).length) = L.map (fun u => ⟨q u, 1, D u⟩) := by
    unfold pRows givenWeights
    rw [Option.getD_none, List.length_map]
    clear * -
    induction L with
    | nil => rfl
    | cons u L ih =>
      rw [List.length_cons, List.replicate_succ, List.map_cons, List.map_cons, List.zip_cons_cons, List.zip_cons_cons, List.map_cons, ih, List.map_cons]
  unfold used
  rw [h]
  split
  · rw [List.filter_eq_self]
    intro a ha
    obtain ⟨u, _, rfl⟩ := List.mem_map.1 ha
    simp
  · rw [List.map_map]
    rfl

theorem sum_map_sub (l : List (α → B)) (f h : (α → B) → K) : (l.map (fun u => f u - h u)).sum = (l.map f).sum - (l.map h).sum := by
  induction l with
  | nil => simp
  | cons u l ih => simp only [List.map_cons, List.sum_cons, ih]; ring

open Tree in
/-- **C150.** `Why` is fitted on the population with exact base models; `policy_interpreter` is called with the same data, a treatment (or two) for which adjustment and covariates
satisfy the back-door criterion, at least two combinations of classes that all overlap with them, any control and any accepted tree settings; the preprocessor keeps the order of the
columns (`named r = ft (pre r)`). Then `decide` answers for every row `r` the
label of a combination `arm r` of treatment values, such that (1) on the individuals of `r`'s leaf no other combination has a larger total mean outcome under the intervention, (2) no
policy that treats the individuals of a leaf alike has a larger causal value, and (3) treating everybody alike is never better. -/
theorem C150_policy (hac : Acyclic E) (hV : ∀ i, ∀ j ∈ V, E i j → i ∈ V) {O : Finset α} (hO : O ⊆ V) {L : List (α → B)} (hL : L ≠ [])
    (hpop : IsPopulation M O L) {treatment S : List α} {y : α} (hSn : S ≠ []) (hT : treatment.toFinset ⊆ O) (hS : S.toFinset ⊆ O) (hyO : y ∈ O)
    (num : B → K) {pre : List B → F} (hpre : ∀ u ∈ L, ∀ u' ∈ L, pre (S.map u) = pre (S.map u') → S.map u = S.map u')
    {fitM : List (F × K) → F → K} (hM : Averages fitM) (hc : ∀ xs ∈ WhyF.keys treatment, Crossed L xs) :
    ∃ st, fit fitM pre num treatment S y L = .ok st ∧ ∀ xs ∈ WhyF.keys treatment, BackDoor E {a | a ∈ xs} {a | a ∈ [y]} {a | a ∈ S} →
      (∀ v : α → B, (∀ x ∈ xs, ∃ u ∈ L, u x = v x) → M.Overlap xs.toFinset S.toFinset v) → (∃ x ∈ xs, ∃ u ∈ L, ∃ u' ∈ L, u x ≠ u' x) →
      ∀ (penv : ∀ d, PEnv K d) (g : PSettings K) (nFeat : ℕ) (ft : F → ℕ → K) (named : List B → ℕ → K) (str : B → List Char) (control : Option (List B))
      (pi : WhyF.Pi B K), (∀ r, named r = ft (pre r)) → (∀ d, SoundPEnv (penv d)) → g.criterion = "policy_reg" → (∀ cs, control = some cs → ∃ v : α → B, cs = xs.map v ∧ ∀ x ∈ xs, ∃ u ∈ L, u x = v x) →
      policyInterpreter penv g nFeat pre (some ft) named str (classesOf L) treatment st (some xs) control (L.map (fun u => S.map u)) = .ok pi →
      ∃ arm : List B → α → B, (∀ r, ∀ x ∈ xs, ∃ u ∈ L, u x = arm r x) ∧
        (∀ rs, pi.decide rs = .ok (rs.map (fun r => WhyP.joinLabel ((xs.map (arm r)).map str)))) ∧
        (∀ r, ∀ v : α → B, (∀ x ∈ xs, ∃ u ∈ L, u x = v x) →
          ((L.filter (fun u => decide (pi.leaf (S.map u) = pi.leaf r))).map (fun u => M.meanDoGiven xs.toFinset y S.toFinset num (setTo xs v u))).sum ≤
          ((L.filter (fun u => decide (pi.leaf (S.map u) = pi.leaf r))).map (fun u => M.meanDoGiven xs.toFinset y S.toFinset num (setTo xs (arm r) u))).sum) ∧
        ∀ base, (∀ π : List B → α → B, (∀ r r', pi.leaf r = pi.leaf r' → π r = π r') → (∀ r, ∀ x ∈ xs, ∃ u ∈ L, u x = π r x) →
            M.meanPolicy xs y S.toFinset num (fun u => π (S.map u)) base ≤ M.meanPolicy xs y S.toFinset num (fun u => arm (S.map u)) base) ∧
          ∀ v : α → B, (∀ x ∈ xs, ∃ u ∈ L, u x = v x) →
            M.meanDo xs.toFinset y num v ≤ M.meanPolicy xs y S.toFinset num (fun u => arm (S.map u)) base := by
  classical
  obtain ⟨st, gl, h1, h2, h3⟩ := fit_full fitM pre num hSn y hc
  refine ⟨st, h1, fun xs hxs hb hov htwo penv g nFeat ft named str control pi hnamed hE hcrit hctl hpi => ?_⟩
  obtain rfl : named = fun r => ft (pre r) := funext hnamed
  obtain ⟨hnd, hlen, hxt⟩ := keys_nodup hxs
  have hX : xs.toFinset ⊆ O := fun a ha => hT (List.mem_toFinset.2 (hxt a (List.mem_toFinset.1 ha)))
  obtain ⟨u0, hu0⟩ := List.exists_mem_of_ne_nil L hL
  have hlenK : (0 : K) < (L.length : K) := by
    rw [Nat.cast_pos]
    exact List.length_pos_of_ne_nil hL
  -- the control
  obtain ⟨c, hcobs, hctab⟩ : ∃ c : α → B, (∀ x ∈ xs, ∃ u ∈ L, u x = c x) ∧ ∀ (learners : Dict (List ℕ × List ℕ) (Meta.T ℕ F K)) (rows : List (List B)),
      WhyP.effectArray (tNji (rows.map pre)) rows.length (xs.map (classesOf L)) str learners none control =
      WhyP.effectArray (tNji (rows.map pre)) rows.length (xs.map (classesOf L)) str learners none (some (xs.map c)) := by
    cases control with
    | some cs =>
      obtain ⟨v, rfl, hv⟩ := hctl cs rfl
      exact ⟨v, hv, fun _ _ => rfl⟩
    | none =>
      have hh : ∀ x, ∃ u ∈ L, (classesOf L x).head? = some (u x) := by
        intro x
        cases hcl : classesOf L x with
        | nil =>
          have := mem_classesOf.2 ⟨u0, hu0, (rfl : u0 x = u0 x)⟩
          rw [hcl] at this
          cases this
        | cons b l =>
          obtain ⟨u, hu, he⟩ := mem_classesOf.1 (show b ∈ classesOf L x by rw [hcl]; simp)
          exact ⟨u, hu, by rw [he]; rfl⟩
      choose w hw1 hw2 using hh
      refine ⟨fun x => w x x, fun x _ => ⟨w x, hw1 x, rfl⟩, fun learners rows => ?_⟩
      refine C122_default_control _ _ (by simpa using keys_ne_nil hxs) str learners none ?_
      clear * - hw2
      induction xs with
      | nil => exact .nil
      | cons x xs ih => exact .cons (hw2 x) ih
  -- the table
  have htab := table_columns (fitM := fitM) (pre := pre) (out := num) (S := S) (y := y) hlen (h3 xs hxs) str (observed_iff.2 hcobs) (L.map (fun u => S.map u))
  set combos := Why.prod (xs.map (classesOf L)) with hcombos
  have hcol := (hctab _ (L.map (fun u => S.map u))).trans htab
  unfold policyInterpreter at hpi
  simp only [Option.getD_some] at hpi
  rw [if_neg (by omega), h2 xs, if_pos hxs] at hpi
  simp only at hpi
  rw [hcol] at hpi
  set A : List B → (α → B) → K := fun vs u => fitM (armOf pre num S y L xs vs) (pre (S.map u)) with hA
  set cols : List (List Char × List K) := combos.map (fun vs => (WhyP.joinLabel (vs.map str),
        (L.map (fun u => S.map u)).map (fun r => fitM (armOf pre num S y L xs vs) (pre r) - fitM (armOf pre num S y L xs (xs.map c)) (pre r)))) with hcols
  have hclen : cols.length = combos.length := by rw [hcols, List.length_map]
  simp only at hpi
  cases hfit : policyFit (penv cols.length) g nFeat ((L.map (fun u => S.map u)).map (fun r => ft (pre r)))
      ((List.range (L.map (fun u => S.map u)).length).map (entry cols)) none with
  | error e => rw [hfit] at hpi; cases hpi
  | ok t =>
    rw [hfit] at hpi
    cases hpi
    let q : (α → B) → ℕ → K := fun u => ft (pre (S.map u))
    let val : Fin cols.length → List B := fun k => combos[k.val]'(hclen ▸ k.2)
    let D : (α → B) → Fin cols.length → K := fun u k => A (val k) u - A (xs.map c) u
    have hv : (L.map (fun u => S.map u)).map (fun r => ft (pre r)) = L.map q := by rw [List.map_map]; rfl
    have hce : (List.range (L.map (fun u => S.map u)).length).map (entry cols) = L.map D := by
      apply List.ext_getElem
      · simp
      · intro i hi1 hi2
        have hi : i < L.length := by simpa using hi2
        rw [List.getElem_map, List.getElem_map, List.getElem_range]
        funext k
        have hk : cols[k] = (WhyP.joinLabel ((val k).map str),
          (L.map (fun u => S.map u)).map (fun r => fitM (armOf pre num S y L xs (val k)) (pre r) - fitM (armOf pre num S y L xs (xs.map c)) (pre r))) := by
          show (cols[k.val]'k.2) = _
          simp only [hcols, List.getElem_map]
          rfl
        unfold entry
        rw [hk]
        simp [hi, D, hA]
    rw [hv, hce] at hfit
    -- combinations of classes
    have hval : ∀ k, ∃ v : α → B, xs.map v = val k ∧ ∀ x ∈ xs, ∃ u ∈ L, u x = v x := by
      intro k
      have h5 := mem_prod_classes.1 (show val k ∈ combos from List.getElem_mem _)
      obtain ⟨v, hv⟩ := exists_values hnd (u0 (xs.headD (S.head hSn))) h5.length_eq
      exact ⟨v, hv, observed_iff.1 (hv ▸ h5)⟩
    have hidx : ∀ v : α → B, (∀ x ∈ xs, ∃ u ∈ L, u x = v x) → ∃ k, val k = xs.map v := by
      intro v hv
      obtain ⟨i, hi, he⟩ := List.mem_iff_getElem.1 (mem_prod_classes.2 (observed_iff.2 hv))
      exact ⟨⟨i, by rw [hclen]; exact hi⟩, he⟩
    have hAv : ∀ v : α → B, (∀ x ∈ xs, ∃ u ∈ L, u x = v x) → ∀ u ∈ L, A (xs.map v) u = M.meanDoGiven xs.toFinset y S.toFinset num (setTo xs v u) :=
      fun v hv u hu => arm_value hac hV hO hL hpop hX hS hyO hb num hpre hM (hov v hv) hu
    have hd : 2 ≤ cols.length := by
      obtain ⟨x, hx, u, hu, u', hu', hne⟩ := htwo
      obtain ⟨k, hk⟩ := hidx u (fun x _ => ⟨u, hu, rfl⟩)
      obtain ⟨k', hk'⟩ := hidx u' (fun x _ => ⟨u', hu', rfl⟩)
      have : k ≠ k' := by
        rintro rfl
        exact hne (List.map_inj_left.1 (hk.symm.trans hk') x hx)
      by_contra hlt
      apply this
      apply Fin.ext
      have := k.2
      have := k'.2
      omega
    have hu : used g (L.map q) (L.map D) none = L.map (fun u => ⟨q u, 1, D u⟩) := used_eq g L q D
    have hne : used g (L.map q) (L.map D) none ≠ [] := by rw [hu]; simpa using hL
    obtain ⟨pol, p1, -, p3⟩ := C99_recommendation (hE _) hfit hcrit hd (fun ws h => by cases h) hne
    have hp := fun other => C99_policy_value (hE _) hfit hcrit hd (fun ws h => by cases h) hne pol (fun q => by simpa using p1 [q]) other
    choose valf hvalf1 hvalf2 using hval
    refine ⟨fun r => valf (pol (ft (pre r))), fun r => hvalf2 _, ?_, ?_, ?_⟩
    · intro rs
      unfold Pi.decide decideNames
      simp only
      rw [p1]
      simp only
      rw [if_pos (by
        rw [List.all_eq_true]
        intro k hk
        obtain ⟨q', _, rfl⟩ := List.mem_map.1 hk
        simp)]
      congr 1
      have hname : ∀ k : Fin cols.length, (cols.map (fun c => c.1))[k.val]? = some (WhyP.joinLabel ((val k).map str)) := by
        intro k
        rw [List.getElem?_map, List.getElem?_eq_getElem k.2, Option.map_some]
        congr 1
        simp only [hcols, List.getElem_map]
        rfl
      clear * - hname hvalf1
      induction rs with
      | nil => rfl
      | cons r rs ih =>
        rw [List.map_cons, List.map_cons, List.filterMap_cons, hname, ih, List.map_cons, hvalf1]
    · intro r v hv
      obtain ⟨k, hk⟩ := hidx v hv
      have h6 := (p3 (ft (pre r))).1 k
      rw [hu] at h6
      have e : ∀ k, effTotal (inLeaf t (L.map (fun u => (⟨q u, 1, D u⟩ : PSample K cols.length))) (ft (pre r))) k =
          ((L.filter (fun u => decide (apply t.nodes (q u) = apply t.nodes (ft (pre r))))).map (fun u => A (val k) u)).sum -
          ((L.filter (fun u => decide (apply t.nodes (q u) = apply t.nodes (ft (pre r))))).map (fun u => A (xs.map c) u)).sum := by
        intro k
        unfold effTotal inLeaf
        rw [List.filter_map, List.map_map, ← sum_map_sub]
        congr 1
        apply List.map_congr_left
        intro u _
        simp [D]
      rw [e, e] at h6
      have h7 := (sub_le_sub_iff_right _).1 h6
      rw [hk, ← hvalf1] at h7
      have e2 : ∀ w : α → B, (∀ x ∈ xs, ∃ u ∈ L, u x = w x) →
          (L.filter (fun u => decide (apply t.nodes (q u) = apply t.nodes (ft (pre r))))).map (fun u => A (xs.map w) u) =
          (L.filter (fun u => decide (apply t.nodes (q u) = apply t.nodes (ft (pre r))))).map (fun u => M.meanDoGiven xs.toFinset y S.toFinset num (setTo xs w u)) :=
        fun w hw => List.map_congr_left (fun u hu => hAv w hw u (List.mem_filter.1 hu).1)
      rw [e2 v hv, e2 _ (hvalf2 _)] at h7
      exact h7
    · intro base
      have key : ∀ π : List B → α → B, (∀ r r', apply t.nodes (ft (pre r)) = apply t.nodes (ft (pre r')) → π r = π r') → (∀ r, ∀ x ∈ xs, ∃ u ∈ L, u x = π r x) →
            M.meanPolicy xs y S.toFinset num (fun u => π (S.map u)) base ≤ M.meanPolicy xs y S.toFinset num (fun u => valf (pol (ft (pre (S.map u))))) base := by
        intro π hleaf hobs
        have hoth : ∀ n : ℕ, ∃ k : Fin cols.length, ∀ r, apply t.nodes (ft (pre r)) = n → val k = xs.map (π r) := by
          intro n
          by_cases h : ∃ r, apply t.nodes (ft (pre r)) = n
          · obtain ⟨r, hr⟩ := h
            obtain ⟨k, hk⟩ := hidx (π r) (hobs r)
            exact ⟨k, fun r' hr' => by rw [hk, hleaf r r' (hr.trans hr'.symm)]⟩
          · exact ⟨⟨0, by omega⟩, fun r hr => absurd ⟨r, hr⟩ h⟩
        choose other hother using hoth
        have h8 := hp other
        rw [hu, List.map_map, List.map_map] at h8
        have e3 : ∀ (ch : (α → B) → Fin cols.length) (ρ : List B → α → B), (∀ u, val (ch u) = xs.map (ρ (S.map u))) → (∀ r, ∀ x ∈ xs, ∃ u ∈ L, u x = ρ r x) →
            (L.map (fun u => 1 * D u (ch u))).sum = (L.length : K) * M.meanPolicy xs y S.toFinset num (fun u => ρ (S.map u)) base - (L.map (fun u => A (xs.map c) u)).sum := by
          intro ch ρ hch hρ
          rw [← meanPolicy_sample (X := xs) (y := y) hV hO hpop hS num ρ base, ← sum_map_sub]
          congr 1
          apply List.map_congr_left
          intro u hu
          simp only [D, one_mul]
          rw [hch, hAv _ (hρ _) u hu]
        have h9 := e3 (fun u => other (apply t.nodes (q u))) π (fun u => hother _ _ rfl) hobs
        have h10 := e3 (fun u => pol (q u)) (fun r => valf (pol (ft (pre r)))) (fun u => (hvalf1 _).symm) (fun r => hvalf2 _)
        have h11 : (L.map (fun u => 1 * D u (other (apply t.nodes (q u))))).sum ≤ (L.map (fun u => 1 * D u (pol (q u)))).sum := h8
        rw [h9, h10] at h11
        exact le_of_mul_le_mul_left ((sub_le_sub_iff_right _).1 h11) hlenK
      refine ⟨key, fun v hv => ?_⟩
      rw [← meanPolicy_const hac hV hO hL hpop hX hS hyO hb num (hov v hv) base]
      exact key (fun _ => v) (fun _ _ _ => rfl) (fun _ => hv)

end causal

section answers
variable {C V F K : Type} [DecidableEq C] [LinearOrder V] [Field K] [LinearOrder K] [IsStrictOrderedRing K] [FloorRing K]

/-- the default control: the table exists for it, too -/
theorem table_exists {fitM : List (F × K) → F → K} {pre : List V → F} {out : V → K} {treatment S : List C} (hS : S ≠ []) {y : C} {L : List (C → V)} (hL : L ≠ [])
    (hc : ∀ xs ∈ WhyF.keys treatment, Crossed L xs) :
    ∃ st : Dict (List C) (Fitted F K), fit fitM pre out treatment S y L = .ok st ∧ ∀ xs ∈ WhyF.keys treatment, ∀ (str : V → List Char) (control : Option (List V)) (rows : List (List V)),
      (∀ cs, control = some cs → List.Forall₂ (fun v x => ∃ u ∈ L, u x = v) cs xs) →
      ∃ f cols, dget st xs = some f ∧ WhyP.effectArray (tNji (rows.map pre)) rows.length (xs.map (classesOf L)) str f.learners none control = .ok cols := by
  obtain ⟨st, gl, h1, h2, h3⟩ := fit_full fitM pre out hS y hc
  refine ⟨st, h1, fun xs hxs str control rows hctl => ?_⟩
  obtain ⟨-, hlen, -⟩ := keys_nodup hxs
  rw [h2 xs, if_pos hxs]
  cases control with
  | some cs => exact ⟨_, _, rfl, table_columns hlen (h3 xs hxs) str (hctl cs rfl) rows⟩
  | none =>
    obtain ⟨u0, hu0⟩ := List.exists_mem_of_ne_nil L hL
    have hh : ∀ x, ∃ b, (classesOf L x).head? = some b ∧ ∃ u ∈ L, u x = b := by
      intro x
      cases hcl : classesOf L x with
      | nil =>
        have := mem_classesOf.2 ⟨u0, hu0, (rfl : u0 x = u0 x)⟩
        rw [hcl] at this
        cases this
      | cons b l => exact ⟨b, rfl, mem_classesOf.1 (show b ∈ classesOf L x by rw [hcl]; simp)⟩
    choose w hw1 hw2 using hh
    have hcs : List.Forall₂ (fun v x => ∃ u ∈ L, u x = v) (xs.map w) xs := by
      clear * - hw2
      induction xs with
      | nil => exact .nil
      | cons x xs ih => exact .cons (hw2 x) ih
    refine ⟨_, _, rfl, (C122_default_control _ _ (by simpa using keys_ne_nil hxs) str _ none ?_).trans (table_columns hlen (h3 xs hxs) str hcs rows)⟩
    clear * - hw1
    induction xs with
    | nil => exact .nil
    | cons x xs ih => exact .cons (hw1 x) ih

open Tree in
/-- **C150, it returns**: with documented tree settings `policy_interpreter` returns an interpreter for every treatment and every pair of treatments, any test rows and any known control
or none. -/
theorem C150_returns (fitM : List (F × K) → F → K) (pre : List V → F) (out : V → K) {treatment S : List C} (hS : S ≠ []) (y : C) {L : List (C → V)} (hL : L ≠ [])
    (hc : ∀ xs ∈ WhyF.keys treatment, Crossed L xs) :
    ∃ st, fit fitM pre out treatment S y L = .ok st ∧ ∀ xs ∈ WhyF.keys treatment, ∀ (penv : ∀ d, PEnv K d) (g : PSettings K) (nFeat : ℕ) (ft : F → ℕ → K) (named : List V → ℕ → K)
      (str : V → List Char) (control : Option (List V)) (rows : List (List V)), (∀ cs, control = some cs → List.Forall₂ (fun v x => ∃ u ∈ L, u x = v) cs xs) →
      Documented (d := 1) g [] [] none →
      ∃ pi, policyInterpreter penv g nFeat pre (some ft) named str (classesOf L) treatment st (some xs) control rows = .ok pi := by
  obtain ⟨st, h1, h2⟩ := table_exists (fitM := fitM) (pre := pre) (out := out) hS (y := y) hL hc
  refine ⟨st, h1, fun xs hxs penv g nFeat ft named str control rows hctl hdoc => ?_⟩
  obtain ⟨f, cols, e1, e2⟩ := h2 xs hxs str control rows hctl
  obtain ⟨-, hlen, -⟩ := keys_nodup hxs
  unfold policyInterpreter
  simp only [Option.getD_some]
  rw [if_neg (by omega), e1]
  simp only
  rw [e2]
  simp only
  obtain ⟨t, ht⟩ := (C106_accepted (penv cols.length) g nFeat (rows.map (fun r => ft (pre r))) ((List.range rows.length).map (entry cols)) none).2
    ⟨hdoc.1, hdoc.2.1, hdoc.2.2.1, hdoc.2.2.2.1, hdoc.2.2.2.2.1, hdoc.2.2.2.2.2.1, hdoc.2.2.2.2.2.2.1, hdoc.2.2.2.2.2.2.2.1, hdoc.2.2.2.2.2.2.2.2.1, by simp, fun ws h => by cases h⟩
  rw [ht]
  exact ⟨_, rfl⟩

/-- **C150, refuted** for a fitted object without covariates (all conditioning variables are adjustment variables): the effect table is computed, and then `policy_interpreter` raises
`AttributeError`, because the covariates are looked up in an estimator that is not passed. -/
theorem C150_no_covariates_refuted (fitM : List (F × K) → F → K) (pre : List V → F) (out : V → K) {treatment S : List C} (hS : S ≠ []) (y : C) {L : List (C → V)} (hL : L ≠ [])
    (hc : ∀ xs ∈ WhyF.keys treatment, Crossed L xs) :
    ∃ st, fit fitM pre out treatment S y L = .ok st ∧ ∀ xs ∈ WhyF.keys treatment, ∀ (penv : ∀ d, Tree.PEnv K d) (g : Tree.PSettings K) (nFeat : ℕ) (named : List V → ℕ → K) (str : V → List Char)
      (rows : List (List V)), policyInterpreter penv g nFeat pre none named str (classesOf L) treatment st (some xs) none rows = .error (.why .attr) := by
  obtain ⟨st, h1, h2⟩ := table_exists (fitM := fitM) (pre := pre) (out := out) hS (y := y) hL hc
  refine ⟨st, h1, fun xs hxs penv g nFeat named str rows => ?_⟩
  obtain ⟨f, cols, e1, e2⟩ := h2 xs hxs str none rows (fun cs h => by cases h)
  obtain ⟨-, hlen, -⟩ := keys_nodup hxs
  unfold policyInterpreter
  simp only [Option.getD_some]
  rw [if_neg (by omega), e1]
  simp only
  rw [e2]

/-- without a choice of treatments the first two fitted treatments are combined -/
theorem C150_default_treatment (penv : ∀ d, Tree.PEnv K d) (g : Tree.PSettings K) (nFeat : ℕ) (pre : List V → F) (feat : Option (F → ℕ → K)) (named : List V → ℕ → K) (str : V → List Char) (classes : C → List V)
    (fitted : List C) (st : Dict (List C) (Fitted F K)) (control : Option (List V)) (rows : List (List V)) :
    policyInterpreter penv g nFeat pre feat named str classes fitted st none control rows =
      policyInterpreter penv g nFeat pre feat named str classes fitted st (some (fitted.take 2)) control rows := rfl

/-- a choice of more than two treatments is refused -/
theorem C150_too_many (penv : ∀ d, Tree.PEnv K d) (g : Tree.PSettings K) (nFeat : ℕ) (pre : List V → F) (feat : Option (F → ℕ → K)) (named : List V → ℕ → K) (str : V → List Char) (classes : C → List V)
    (fitted : List C) (st : Dict (List C) (Fitted F K)) {xs : List C} (h : 2 < xs.length) (control : Option (List V)) (rows : List (List V)) :
    policyInterpreter penv g nFeat pre feat named str classes fitted st (some xs) control rows = .error (.why .value) := by
  unfold policyInterpreter
  simp only [Option.getD_some]
  rw [if_pos h]

end answers

/-- the treatment `1` helps those with `0 = false` and harms the others -/
def mixedEffects : List (Fin 3 → Bool) :=
  [false, true].flatMap (fun s => [false, true].flatMap (fun x => List.replicate 2 ![s, x, x ^^ s]))

/-- the recommendation for people with `0 = false` and with `0 = true`, learned from `mixedEffects` -/
def mixedAdvice : Option (List (List Char)) :=
  match fit meanModel id (fun b => if b then (1 : ℚ) else 0) [(1 : Fin 3)] [0] 2 mixedEffects with
  | .error _ => none
  | .ok st => match policyInterpreter plainEnv plainSettings 1 id (some (fun (r : List Bool) _ => if r.head? = some true then 1 else 0)) (fun r _ => if r.head? = some true then 1 else 0) (fun b => if b then ['y'] else ['n'])
      (classesOf mixedEffects) [1] st none none (mixedEffects.map (fun u => [0].map u)) with
    | .error _ => none
    | .ok pi => (pi.decide [[false], [true]]).toOption

example : mixedAdvice = some [['y'], ['n']] := by decide +kernel

/-- the conditions of `C150_policy` can be met: a confounded model, its population, and a tree -/
example : ∃ L : List (Fin 3 → Bool), L ≠ [] ∧ IsPopulation (fairCoins Finset.univ (fun i j : Fin 3 => i < j)) Finset.univ L ∧
    ∃ (st : Dict (List (Fin 3)) (Fitted (List Bool) ℚ)) (pi : WhyF.Pi Bool ℚ), fit meanModel id (fun b => if b then (1 : ℚ) else 0) [(1 : Fin 3)] [0] 2 L = .ok st ∧
      policyInterpreter plainEnv plainSettings 1 id (some (fun (r : List Bool) _ => if r.head? = some true then 1 else 0)) (fun r _ => if r.head? = some true then 1 else 0) (fun b => if b then ['y'] else ['n'])
        (classesOf L) [1] st (some [1]) none (L.map (fun u => [0].map u)) = .ok pi ∧
      ∃ arm : List Bool → Fin 3 → Bool, ∀ v : Fin 3 → Bool, (∃ u ∈ L, u 1 = v 1) →
        (fairCoins Finset.univ (fun i j : Fin 3 => i < j)).meanDo [(1 : Fin 3)].toFinset 2 (fun b => if b then (1 : ℚ) else 0) v ≤
        (fairCoins Finset.univ (fun i j : Fin 3 => i < j)).meanPolicy [1] 2 [(0 : Fin 3)].toFinset (fun b => if b then (1 : ℚ) else 0) (fun u => arm ([0].map u)) (fun _ => false) := by
  obtain ⟨L, hL, hpop, hac, hb, hcr, hov⟩ := whyfit_example
  refine ⟨L, hL, hpop, ?_⟩
  obtain ⟨st, h1, h2⟩ := C150_returns (K := ℚ) (fitM := meanModel) (pre := id) (out := fun b => if b then (1 : ℚ) else 0) (treatment := [(1 : Fin 3)]) (S := [0]) (by simp) 2 hL hcr
  obtain ⟨pi, hpi⟩ := h2 [1] (by decide) plainEnv plainSettings 1 (fun (r : List Bool) _ => if r.head? = some true then 1 else 0) (fun r _ => if r.head? = some true then 1 else 0) (fun b => if b then ['y'] else ['n']) none
    (L.map (fun u => [0].map u)) (fun cs h => by cases h) (by
      refine ⟨?_, ?_, ?_, ?_, ?_, ?_, ?_, ?_, ?_, ?_, ?_⟩ <;> simp [plainSettings, LeafArg, SplitArg, FeaturesArg])
  obtain ⟨st', h3, h4⟩ := C150_policy (M := fairCoins Finset.univ (fun i j : Fin 3 => i < j)) hac (fun _ _ _ _ => Finset.mem_univ _) (Finset.Subset.refl _) hL hpop
    (treatment := [1]) (S := [0]) (y := 2) (by simp) (Finset.subset_univ _) (Finset.subset_univ _) (Finset.mem_univ _) (fun b => if b then (1 : ℚ) else 0) (pre := id)
    (fun _ _ _ _ h => h) (meanModel_averages (F := List Bool)) hcr
  rw [h1] at h3
  cases h3
  have htwo : ∃ x ∈ [(1 : Fin 3)], ∃ u ∈ L, ∃ u' ∈ L, u x ≠ u' x := by
    have hpos : (fairCoins Finset.univ (fun i j : Fin 3 => i < j)).Positive := fun _ _ _ => by norm_num [fairCoins]
    have hn : (L.length : ℚ) ≠ 0 := by
      rw [Nat.cast_ne_zero]
      exact fun h => hL (List.length_eq_zero_iff.1 h)
    have hex : ∀ v : Fin 3 → Bool, ∃ u ∈ L, ∀ i ∈ (Finset.univ : Finset (Fin 3)), u i = v i := by
      intro v
      apply exists_of_cnt
      rw [Nat.pos_iff_ne_zero]
      intro h0
      have := hpop v
      rw [h0] at this
      exact mul_ne_zero hn (hpos.P_pos _ _).ne' (by simpa using this.symm)
    obtain ⟨u, hu, e⟩ := hex (fun _ => true)
    obtain ⟨u', hu', e'⟩ := hex (fun _ => false)
    exact ⟨1, by simp, u, hu, u', hu', by rw [e 1 (Finset.mem_univ _), e' 1 (Finset.mem_univ _)]; decide⟩
  obtain ⟨arm, -, -, -, h5⟩ := h4 [1] (by decide) hb (fun v _ => hov v) htwo plainEnv plainSettings 1 _ _ _ none pi (fun _ => rfl) plainEnv_sound rfl (fun cs h => by cases h) hpi
  exact ⟨st, pi, h1, hpi, arm, fun v hv => (h5 (fun _ => false)).2 v (by simpa using hv)⟩

/-- as `mixedEffects`, with a further column `3` that has no influence: think of `0` as the age (a number) and of `3` as the city (a text) -/
def ageCity : List (Fin 4 → Bool) :=
  [false, true].flatMap (fun c => [false, true].flatMap (fun s => [false, true].flatMap (fun x => List.replicate 2 ![s, x, x ^^ s, c])))

/-- the numbers a tree sees for a row of two truth values -/
def digits (r : List Bool) (i : ℕ) : ℚ := if r[i]? = some true then 1 else 0

/-- the advice for all four kinds of people (age, city), when the preprocessed rows are `pre r` -/
def ageCityAdvice (pre : List Bool → List Bool) : Option (List (List Char)) :=
  match fit meanModel pre (fun b => if b then (1 : ℚ) else 0) [(1 : Fin 4)] [0, 3] 2 ageCity with
  | .error _ => none
  | .ok st => match policyInterpreter plainEnv plainSettings 2 pre (some digits) digits (fun b => if b then ['y'] else ['n'])
      (classesOf ageCity) [1] st none none (ageCity.map (fun u => [0, 3].map u)) with
    | .error _ => none
    | .ok pi => (pi.decide [[false, false], [false, true], [true, false], [true, true]]).toOption

/-- **C150, refuted** when the preprocessor changes the order of the columns (a number before a text, see C163): the tree is grown from columns under exchanged names and asked with the right
ones. The treatment helps the young and harms the old, in both cities; with the order kept the advice is right, with texts put first it follows the city: an old person in one city is
treated and a young person in the other is not. -/
theorem C150_mixed_refuted : ageCityAdvice id = some [['y'], ['y'], ['n'], ['n']] ∧
    ageCityAdvice List.reverse = some [['y'], ['n'], ['y'], ['n']] := by
  constructor <;> decide +kernel

end YL.Props
