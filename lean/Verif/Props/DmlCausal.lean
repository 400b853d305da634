import Verif.Props.IvCausal
import Verif.Props.EndToEnd

/-!
# C149: from `get_backdoor_set` to the effect `DoubleML` returns

Linear causal models of the diagram, as in C144. First the linear form of the Markov property: d-separation makes residuals uncorrelated.
-/

set_option linter.unusedSectionVars false

namespace YL.Props

open YL Spec LatentNames TwoStage

section field
variable {α K I : Type} [DecidableEq α] [Field K]

theorem covar_congr {L : List I} {f f' g g' : I → K} (hf : ∀ k ∈ L, f k = f' k) (hg : ∀ k ∈ L, g k = g' k) : covar L f g = covar L f' g' := by
  unfold covar
  rw [List.map_congr_left hf, List.map_congr_left hg, List.map_congr_left (fun k hk => by rw [hf k hk, hg k hk] : ∀ k ∈ L, f k * g k = f' k * g' k)]

theorem covar_add (L : List I) (f f' g : I → K) : covar L (fun k => f k + f' k) g = covar L f g + covar L f' g := by
  unfold covar
  rw [show (fun k => (f k + f' k) * g k) = fun k => f k * g k + f' k * g k from funext fun k => by ring, list_sum_add, list_sum_add]
  ring

theorem covar_smul (L : List I) (c : K) (f g : I → K) : covar L (fun k => c * f k) g = c * covar L f g := by
  unfold covar
  rw [show (fun k => c * f k * g k) = fun k => c * (f k * g k) from funext fun k => by ring, list_sum_smul, list_sum_smul]
  ring

theorem covar_add_right (L : List I) (f g g' : I → K) : covar L f (fun k => g k + g' k) = covar L f g + covar L f g' := by
  rw [covar_comm, covar_add, covar_comm L g, covar_comm L g']

theorem covar_smul_right (L : List I) (c : K) (f g : I → K) : covar L f (fun k => c * g k) = c * covar L f g := by
  rw [covar_comm, covar_smul, covar_comm]

/-- the equations have a solution for every noise -/
theorem linSolves_exists {V : Finset α} {E : α → α → Prop} (hac : Acyclic E) {b : α → α → K} (hb : ∀ i j, b i j ≠ 0 → E i j) (u : α → K) :
    ∃ v, LinSolves V b u v := by
  classical
  have key : ∀ W : Finset α, W ⊆ V → (∀ i ∈ W, ∀ j ∈ V, E j i → j ∈ W) →
      ∃ v : α → K, ∀ i ∈ W, v i = u i + ∑ j ∈ V, b j i * v j := by
    intro W
    induction hn : W.card using Nat.strong_induction_on generalizing W with
    | _ n ih =>
      intro hW hcl
      by_cases hne : W = ∅
      · subst hne
        exact ⟨0, fun i hi => absurd hi (Finset.notMem_empty i)⟩
      · obtain ⟨i, hi, hsink⟩ := exists_sink hac W (Finset.nonempty_iff_ne_empty.2 hne)
        have hlt : (W.erase i).card < n := by rw [← hn]; exact Finset.card_erase_lt_of_mem hi
        obtain ⟨v, hv⟩ := ih _ hlt (W.erase i) rfl (fun x hx => hW (Finset.mem_of_mem_erase hx)) (fun x hx j hj hjx =>
          Finset.mem_erase.2 ⟨by rintro rfl; exact hsink x (Finset.mem_of_mem_erase hx) hjx, hcl x (Finset.mem_of_mem_erase hx) j hj hjx⟩)
        have hno : ∀ x ∈ W, ∀ j ∈ V, b j x * Function.update v i (u i + ∑ j ∈ V, b j i * v j) j = b j x * v j := by
          intro x hx j hj
          by_cases hji : j = i
          · subst hji
            have : b j x = 0 := by
              by_contra hne
              exact hsink x hx (hb j x hne)
            rw [this, zero_mul, zero_mul]
          · rw [Function.update_of_ne hji]
        refine ⟨Function.update v i (u i + ∑ j ∈ V, b j i * v j), fun x hx => ?_⟩
        rw [Finset.sum_congr rfl (hno x hx)]
        by_cases hxi : x = i
        · subst hxi
          rw [Function.update_self]
        · rw [Function.update_of_ne hxi]
          exact hv x (Finset.mem_erase.2 ⟨hxi, hx⟩)
  exact key V (Finset.Subset.refl _) (fun i _ j hj _ => hj)

theorem linSolvesDo_exists {V : Finset α} {E : α → α → Prop} (hac : Acyclic E) {b : α → α → K} (hb : ∀ i j, b i j ≠ 0 → E i j) {t : α} (ht : t ∈ V) (a : K)
    (u : α → K) : ∃ v, LinSolvesDo V b t a u v := by
  obtain ⟨v, hv⟩ := linSolves_exists (V := V) (E := E) (b := fun i j => if j = t then 0 else b i j) hac (fun i j h => by
    by_cases hj : j = t
    · simp [hj] at h
    · exact hb i j (by simpa [hj] using h)) (Function.update u t a)
  refine ⟨v, ?_, fun i hi hit => ?_⟩
  · rw [hv t ht]
    simp
  · rw [hv i hi, Function.update_of_ne hit]
    simp [hit]

/-- setting `t` to `a` shifts every variable by a multiple of the change of `t`; the multiple is zero for variables `t` does not reach -/
theorem do_shift {V : Finset α} {E : α → α → Prop} (hac : Acyclic E) {b : α → α → K} (hb : ∀ i j, b i j ≠ 0 → E i j) {t : α} (ht : t ∈ V) :
    ∃ τ : α → K, (∀ i, τ i ≠ 0 → Reach E t i) ∧
      (∀ i ∈ V, ∀ noise v w a, LinSolves V b noise v → LinSolvesDo V b t a noise w → v i - w i = τ i * (v t - a)) ∧
      ∀ i ∈ V, ∀ noise w w' a a', LinSolvesDo V b t a noise w → LinSolvesDo V b t a' noise w' → w i - w' i = τ i * (a - a') := by
  classical
  let b' : α → α → K := fun i j => if j = t then 0 else b i j
  have hb' : ∀ i j, b' i j ≠ 0 → CutIn E {t} i j := by
    intro i j h
    by_cases hj : j = t
    · simp [b', hj] at h
    · exact ⟨hb i j (by simpa [b', hj] using h), by simpa using hj⟩
  have key : ∀ i, ∃ c : K, (c ≠ 0 → Reach E t i) ∧ (i ∈ V → ∀ noise w w' a a', LinSolvesDo V b t a noise w → LinSolvesDo V b t a' noise w' →
      w i - w' i = c * (a - a')) := by
    intro i
    by_cases hi : i ∈ V
    · obtain ⟨c, hc1, hc2⟩ := sem_linear (V := V) (acyclic_cutIn hac {t}) hb' i hi
      refine ⟨c t, fun h => (hc1 t h).lift id (fun _ _ h => h.1), fun _ noise w w' a a' hw hw' => ?_⟩
      have hs : LinSolves V b' (fun j => if j = t then a - a' else 0) (fun j => w j - w' j) := by
        intro j hj
        beta_reduce
        by_cases hjt : j = t
        · subst hjt
          simp [b', hw.1, hw'.1]
        · rw [if_neg hjt, hw.2 j hj hjt, hw'.2 j hj hjt]
          simp [b', hjt, mul_sub, Finset.sum_sub_distrib]
      have := hc2 _ _ hs
      simpa [ht] using this
    · exact ⟨0, fun h => absurd rfl h, fun h => absurd h hi⟩
  choose τ hτ1 hτ2 using key
  refine ⟨τ, hτ1, fun i hi noise v w a hv hw => hτ2 i hi noise v w (v t) a ⟨rfl, fun j hj _ => hv j hj⟩ hw, fun i hi => hτ2 i hi⟩

end field

section ordered
variable {α K I : Type} [DecidableEq α] [Field K] [LinearOrder K] [IsStrictOrderedRing K]

/-- a quantity without variance is uncorrelated with everything -/
theorem covar_degenerate {L : List I} {f : I → K} (h : covar L f f = 0) (g : I → K) : covar L f g = 0 := by
  set S := (L.map f).sum with hS
  have h1 : (L.map (fun k => ((L.length : K) * f k - S) * ((L.length : K) * f k - S))).sum = 0 := by
    have e : (fun k => ((L.length : K) * f k - S) * ((L.length : K) * f k - S)) =
        fun k => ((L.length : K) * (L.length : K)) * (f k * f k) + (((-2) * (L.length : K) * S) * f k + (S * S) * 1) := by
      funext k; ring
    rw [e, list_sum_add, list_sum_add, list_sum_smul, list_sum_smul, list_sum_smul]
    simp only [List.map_const', List.sum_replicate, nsmul_eq_mul, mul_one]
    unfold covar at h
    rw [← hS] at h ⊢
    linear_combination (L.length : K) * h
  have h2 := dml_sum_sq_zero L _ h1
  unfold covar
  rw [← list_sum_smul]
  have e : L.map (fun k => (L.length : K) * (f k * g k)) = L.map (fun k => S * g k) :=
    List.map_congr_left (fun k hk => by linear_combination g k * h2 k hk)
  rw [e, list_sum_smul, ← hS, sub_self]

open Classical in
/-- **The linear Markov property.** In a linear causal model with uncorrelated noise terms, d-separation of `x` and `y` by `Z` makes the part of `x` that is
not linearly explained by `Z` uncorrelated with `y`. Latent and constant variables are allowed. -/
theorem linear_markov {V : Finset α} {E : α → α → Prop} (hac : Acyclic E) {b : α → α → K}
    (hb : ∀ i j, b i j ≠ 0 → E i j) {x y : α} {Z : Finset α} (hx : x ∈ V) (hy : y ∈ V) (hZ : Z ⊆ V) (hxZ : x ∉ Z) (hyZ : y ∉ Z)
    (hsep : DSep E {x} {y} {z | z ∈ Z}) {L : List I} {noise val : I → α → K} (hsol : ∀ k ∈ L, LinSolves V b (noise k) (val k))
    (hunc : ∀ i ∈ V, ∀ j ∈ V, i ≠ j → Uncorrelated L (fun k => noise k i) (fun k => noise k j))
    (c : α → K) (horth : ∀ z ∈ Z, Uncorrelated L (fun k => val k x - ∑ z' ∈ Z, c z' * val k z') (fun k => val k z)) :
    Uncorrelated L (fun k => val k x - ∑ z ∈ Z, c z * val k z) (fun k => val k y) := by
  have hcon := (dsep_iff_not_connected hac {x} {y} {z | z ∈ Z} (by intro a ha; rw [Set.mem_singleton_iff.1 ha]; exact hxZ)
    (by intro a ha; rw [Set.mem_singleton_iff.1 ha]; exact hyZ)).1 hsep x rfl y rfl
  set T : Set α := {x} ∪ {y} ∪ {z | z ∈ Z} with hT
  set R := Relation.ReflTransGen (Adj (MDG.SepEdge E T {z | z ∈ Z})) with hR
  -- the part connected with `x`
  let C : α → Prop := fun a => R x a
  -- noise and values restricted to that part
  let nC : I → α → K := fun k i => if C i then noise k i else 0
  choose vC hvC using fun k => linSolves_exists (V := V) hac hb (nC k)
  let vD : I → α → K := fun k i => val k i - vC k i
  have hvD : ∀ k ∈ L, LinSolves V b (fun i => if C i then 0 else noise k i) (vD k) := by
    intro k hk i hi
    simp only [vD]
    rw [hsol k hk i hi, hvC k i hi]
    simp only [mul_sub, Finset.sum_sub_distrib, nC]
    split <;> ring
  let Sp : (I → K) → Prop := fun f => ∃ d : α → K, ∀ k ∈ L, f k = ∑ z ∈ Z, d z * val k z
  have sp_sum : ∀ (d : α → K) (f : α → I → K), (∀ j ∈ V, d j ≠ 0 → Sp (f j)) → Sp (fun k => ∑ j ∈ V, d j * f j k) := by
    intro d f hf
    have : ∀ j, ∃ e : α → K, j ∈ V → d j ≠ 0 → ∀ k ∈ L, f j k = ∑ z ∈ Z, e z * val k z := by
      intro j
      by_cases hj : j ∈ V ∧ d j ≠ 0
      · obtain ⟨e, he⟩ := hf j hj.1 hj.2
        exact ⟨e, fun _ _ => he⟩
      · exact ⟨0, fun h1 h2 => absurd ⟨h1, h2⟩ hj⟩
    choose e he using this
    refine ⟨fun z => ∑ j ∈ V, d j * e j z, fun k hk => ?_⟩
    simp only [Finset.sum_mul]
    rw [Finset.sum_comm]
    refine Finset.sum_congr rfl (fun j hj => ?_)
    by_cases hdj : d j = 0
    · simp [hdj]
    · rw [he j hj hdj k hk, Finset.mul_sum]
      exact Finset.sum_congr rfl (fun z _ => by ring)
  have sp_val : ∀ z ∈ Z, Sp (fun k => val k z) := by
    intro z hz
    refine ⟨fun z' => if z' = z then 1 else 0, fun k _ => ?_⟩
    simp [hz]
  have sp_sub : ∀ f g, Sp f → Sp g → Sp (fun k => f k - g k) := by
    rintro f g ⟨d, hd⟩ ⟨e, he⟩
    refine ⟨fun z => d z - e z, fun k hk => ?_⟩
    beta_reduce
    rw [hd k hk, he k hk, ← Finset.sum_sub_distrib]
    exact Finset.sum_congr rfl (fun z _ => by ring)
  have sp_congr : ∀ f g, (∀ k ∈ L, f k = g k) → Sp g → Sp f := by
    rintro f g h ⟨d, hd⟩
    exact ⟨d, fun k hk => by rw [h k hk, hd k hk]⟩
  -- induction along the ancestors
  have inv : ∀ i ∈ V, (∃ t ∈ T, Reach E i t) → ((C i ∨ i ∈ Z) → Sp (fun k => vD k i)) ∧ ((¬ C i ∨ i ∈ Z) → Sp (fun k => vC k i)) := by
    intro i hi
    induction hn : (V.filter (fun a => Relation.TransGen E a i)).card using Nat.strong_induction_on generalizing i with
    | _ n ih =>
      rintro ⟨t, ht, hit⟩
      have ihp : ∀ j ∈ V, b j i ≠ 0 → ((C j ∨ j ∈ Z) → Sp (fun k => vD k j)) ∧ ((¬ C j ∨ j ∈ Z) → Sp (fun k => vC k j)) := by
        intro j hj hbj
        have hlt : (V.filter (fun a => Relation.TransGen E a j)).card < n := by
          rw [← hn]
          refine Finset.card_lt_card ⟨fun a ha => ?_, fun hsub => ?_⟩
          · rw [Finset.mem_filter] at ha ⊢
            exact ⟨ha.1, ha.2.tail (hb j i hbj)⟩
          · have := hsub (Finset.mem_filter.2 ⟨hj, .single (hb j i hbj)⟩)
            exact hac j (Finset.mem_filter.1 this).2
        exact ih _ hlt j hj rfl ⟨t, ht, hit.head (hb j i hbj)⟩
      have hsame : ∀ j, b j i ≠ 0 → j ∉ Z → (C j ↔ C i) := by
        intro j hbj hjZ
        have hs : MDG.SepEdge E T {z | z ∈ Z} j i := ⟨hb j i hbj, hjZ, t, ht, hit⟩
        exact ⟨fun h => Relation.ReflTransGen.tail h (.inl hs), fun h => Relation.ReflTransGen.tail h (.inr hs)⟩
      have hD : C i → Sp (fun k => vD k i) := by
        intro hCi
        refine sp_congr _ (fun k => ∑ j ∈ V, b j i * vD k j) (fun k hk => by rw [hvD k hk i hi]; simp [hCi]) ?_
        refine sp_sum (fun j => b j i) (fun j k => vD k j) (fun j hj hbj => (ihp j hj hbj).1 ?_)
        by_cases hjZ : j ∈ Z
        · exact .inr hjZ
        · exact .inl ((hsame j hbj hjZ).2 hCi)
      have hC : ¬ C i → Sp (fun k => vC k i) := by
        intro hCi
        refine sp_congr _ (fun k => ∑ j ∈ V, b j i * vC k j) (fun k hk => by rw [hvC k i hi]; simp [nC, hCi]) ?_
        refine sp_sum (fun j => b j i) (fun j k => vC k j) (fun j hj hbj => (ihp j hj hbj).2 ?_)
        by_cases hjZ : j ∈ Z
        · exact .inr hjZ
        · exact .inl (fun h => hCi ((hsame j hbj hjZ).1 h))
      refine ⟨fun h => ?_, fun h => ?_⟩
      · by_cases hCi : C i
        · exact hD hCi
        · exact sp_sub (fun k => val k i) _ (sp_val i (h.resolve_left hCi)) (hC hCi)
      · by_cases hCi : C i
        · refine sp_congr _ (fun k => val k i - vD k i) (fun k _ => by simp [vD]) ?_
          exact sp_sub _ _ (sp_val i (h.resolve_left (not_not.2 hCi))) (hD hCi)
        · exact hC hCi
  -- parts are combinations of disjoint noise terms
  have hcoef : ∀ i ∈ V, ∃ c' : α → K, ∀ noise v, LinSolves V b noise v → v i = ∑ j ∈ V, c' j * noise j := by
    intro i hi
    obtain ⟨c', _, h⟩ := sem_linear (V := V) hac hb i hi
    exact ⟨c', h⟩
  have hcross : ∀ i ∈ V, ∀ j ∈ V, covar L (fun k => vC k i) (fun k => vD k j) = 0 := by
    intro i hi j hj
    obtain ⟨c1, h1⟩ := hcoef i hi
    obtain ⟨c2, h2⟩ := hcoef j hj
    rw [covar_congr (f' := fun k => ∑ l ∈ V, (if C l then c1 l else 0) * noise k l) (g' := fun k => ∑ l ∈ V, (if C l then 0 else c2 l) * noise k l)]
    · refine covar_disjoint hunc (fun l => ?_)
      split <;> ring
    · intro k _
      rw [h1 _ _ (hvC k)]
      refine Finset.sum_congr rfl (fun l _ => ?_)
      simp only [nC]
      split <;> ring
    · intro k hk
      rw [h2 _ _ (hvD k hk)]
      refine Finset.sum_congr rfl (fun l _ => ?_)
      split <;> ring
  -- the residual and its two parts
  let r : I → K := fun k => val k x - ∑ z ∈ Z, c z * val k z
  let rC : I → K := fun k => vC k x - ∑ z ∈ Z, c z * vC k z
  let rD : I → K := fun k => vD k x - ∑ z ∈ Z, c z * vD k z
  have hr : ∀ k, r k = rC k + rD k := by
    intro k
    simp only [r, rC, rD, vD, mul_sub, Finset.sum_sub_distrib]
    ring
  have r_sp : ∀ f, Sp f → covar L r f = 0 := by
    rintro f ⟨d, hd⟩
    rw [covar_congr (fun k _ => rfl) hd, covar_comm, covar_sum L Z d (fun z k => val k z)]
    refine Finset.sum_eq_zero (fun z hz => ?_)
    rw [covar_comm, uncorrelated_iff.1 (horth z hz), mul_zero]
  have hxC : C x := .refl
  have hyC : ¬ C y := hcon
  have hzT : ∀ z ∈ Z, ∃ t ∈ T, Reach E z t := fun z hz => ⟨z, .inr hz, .refl⟩
  have spx : Sp (fun k => vD k x) := (inv x hx ⟨x, .inl (.inl rfl), .refl⟩).1 (.inl hxC)
  have spz : ∀ z ∈ Z, Sp (fun k => vD k z) := fun z hz => (inv z (hZ hz) (hzT z hz)).1 (.inr hz)
  have spy : Sp (fun k => vC k y) := (inv y hy ⟨y, .inl (.inr rfl), .refl⟩).2 (.inl hyC)
  have spr : Sp rD := by
    refine sp_sub _ _ spx (sp_congr _ (fun k => ∑ j ∈ V, (if j ∈ Z then c j else 0) * vD k j) (fun k _ => ?_) ?_)
    · simp only [ite_mul, zero_mul]
      rw [← Finset.sum_filter]
      refine Finset.sum_congr ?_ (fun _ _ => rfl)
      ext j
      rw [Finset.mem_filter]
      exact ⟨fun h => ⟨hZ h, h⟩, fun h => h.2⟩
    · refine sp_sum _ (fun j k => vD k j) (fun j _ hj => ?_)
      by_cases hjZ : j ∈ Z
      · exact spz j hjZ
      · simp [hjZ] at hj
  have hsub : ∀ g, covar L rC g = covar L (fun k => vC k x) g - ∑ z ∈ Z, c z * covar L (fun k => vC k z) g := by
    intro g
    have e : rC = fun k => vC k x + (-1) * ∑ z ∈ Z, c z * vC k z := by funext k; simp only [rC]; ring
    rw [e, covar_add, covar_smul, covar_sum L Z c (fun z k => vC k z)]
    ring
  have hCD : ∀ j ∈ V, covar L rC (fun k => vD k j) = 0 := by
    intro j hj
    rw [hsub, hcross x hx j hj, Finset.sum_eq_zero (fun z hz => by rw [hcross z (hZ hz) j hj, mul_zero]), sub_zero]
  have hCrD : covar L rC rD = 0 := by
    have e : rD = fun k => vD k x + (-1) * ∑ z ∈ Z, c z * vD k z := by funext k; simp only [rD]; ring
    rw [e, covar_add_right, covar_smul_right, hCD x hx, covar_comm, covar_sum L Z c (fun z k => vD k z),
      Finset.sum_eq_zero (fun z hz => by rw [covar_comm, hCD z (hZ hz), mul_zero])]
    ring
  have hDD : covar L rD rD = 0 := by
    have := r_sp rD spr
    rw [covar_congr (fun k _ => hr k) (fun k _ => rfl), covar_add, hCrD, zero_add] at this
    exact this
  rw [uncorrelated_iff]
  show covar L r (fun k => val k y) = 0
  have ey : ∀ k ∈ L, val k y = vC k y + vD k y := fun k _ => by simp [vD]
  rw [covar_congr (fun k _ => rfl) ey, covar_add_right, r_sp _ spy, covar_congr (fun k _ => hr k) (fun k _ => rfl), covar_add, hCD y hy,
    covar_degenerate hDD]
  ring

theorem covar_const (L : List I) (a : K) (g : I → K) : covar L (fun _ => a) g = 0 := by
  unfold covar
  rw [list_sum_smul]
  simp
  ring

/-- a combination of the columns of a list of variables is a combination of the variables -/
theorem dot_columns (S : List α) (c : List K) : ∃ d : α → K, ∀ v : α → K, DML.dot c (S.map v) = ∑ z ∈ S.toFinset, d z * v z := by
  induction S generalizing c with
  | nil => exact ⟨0, fun v => by cases c <;> simp [DML.dot]⟩
  | cons s S ih =>
    cases c with
    | nil => exact ⟨0, fun v => by simp [DML.dot]⟩
    | cons a c =>
      obtain ⟨d, hd⟩ := ih c
      refine ⟨fun z => (if z = s then a else 0) + if z ∈ S.toFinset then d z else 0, fun v => ?_⟩
      have e : DML.dot (a :: c) ((s :: S).map v) = a * v s + DML.dot c (S.map v) := by simp [DML.dot]
      rw [e, hd v]
      simp only [add_mul, Finset.sum_add_distrib, ite_mul, zero_mul]
      congr 1
      · rw [Finset.sum_ite_eq']
        simp
      · rw [← Finset.sum_filter]
        refine Finset.sum_congr ?_ (fun _ _ => rfl)
        ext z
        simp only [Finset.mem_filter, List.mem_toFinset, List.mem_cons]
        exact ⟨fun h => ⟨Or.inr h, h⟩, fun h => h.2⟩

theorem dot_append_const (c l vs : List K) : ∃ (a : K) (c' : List K), ∀ l' : List K, l'.length = l.length → DML.dot c (l' ++ vs) = a + DML.dot c' l' := by
  refine ⟨DML.dot (c.drop l.length) vs, c.take l.length, fun l' hl => ?_⟩
  revert c l'
  generalize l.length = n
  intro c l' hl
  induction n generalizing c l' with
  | zero => rw [List.length_eq_zero_iff.1 hl]; simp [DML.dot]
  | succ n ih =>
    obtain ⟨x, l', rfl⟩ := List.exists_cons_of_length_eq_add_one hl
    cases c with
    | nil => simp [DML.dot]
    | cons y c =>
      have := ih c l' (by simpa using hl)
      unfold DML.dot at this ⊢
      simp only [List.cons_append, List.zipWith_cons_cons, List.sum_cons, List.drop_succ_cons, List.take_succ_cons, this]
      ring

/-- **Back-door adjustment in linear models.** The part of the treatment the adjustment variables do not explain linearly is uncorrelated with the outcome minus the
effect of the treatment; `τ` is the effect of interventions. -/
theorem linear_backdoor {V : Finset α} {E : α → α → Prop} (hac : Acyclic E) {b : α → α → K}
    (hb : ∀ i j, b i j ≠ 0 → E i j) {t y : α} {Z : Finset α} (ht : t ∈ V) (hy : y ∈ V) (hZ : Z ⊆ V)
    (hback : BackDoor E {t} {y} {z | z ∈ Z}) :
    ∃ τ : K, (∀ noise w w' a a', LinSolvesDo V b t a noise w → LinSolvesDo V b t a' noise w' → w y - w' y = τ * (a - a')) ∧
      ∀ (L : List I) (noise val : I → α → K), (∀ k ∈ L, LinSolves V b (noise k) (val k)) →
        (∀ i ∈ V, ∀ j ∈ V, i ≠ j → Uncorrelated L (fun k => noise k i) (fun k => noise k j)) →
        ∀ c : α → K, (∀ z ∈ Z, Uncorrelated L (fun k => val k t - ∑ z' ∈ Z, c z' * val k z') (fun k => val k z)) →
          Uncorrelated L (fun k => val k t - ∑ z' ∈ Z, c z' * val k z') (fun k => val k y - τ * val k t) := by
  classical
  obtain ⟨τ, h1, h2, h3⟩ := do_shift hac hb ht
  refine ⟨τ y, h3 y hy, fun L noise val hsol hunc c horth => ?_⟩
  have htZ : t ∉ Z := fun h => (hback.1 t h).2 t rfl .refl
  have hyZ : y ∉ Z := fun h => (hback.1 y h).1 rfl
  have hty : y ≠ t := by
    rintro rfl
    exact hback.2 [y] (by simp) trivial y rfl y rfl rfl rfl
  -- the model without the edges out of the treatment
  let b' : α → α → K := fun i j => if i = t then 0 else b i j
  have hb' : ∀ i j, b' i j ≠ 0 → CutOut E {t} i j := by
    intro i j h
    by_cases hj : i = t
    · simp [b', hj] at h
    · exact ⟨hb i j (by simpa [b', hj] using h), by simpa using hj⟩
  choose w hw using fun k => linSolvesDo_exists (V := V) hac hb ht 0 (noise k)
  let val' : I → α → K := fun k => Function.update (w k) t (noise k t + ∑ j ∈ V, b j t * w k j)
  have hsum : ∀ k i, ∑ j ∈ V, b' j i * val' k j = ∑ j ∈ V, b j i * w k j := by
    intro k i
    refine Finset.sum_congr rfl (fun j _ => ?_)
    by_cases hj : j = t
    · subst hj
      simp [b', (hw k).1]
    · simp [b', val', hj]
  have hsol' : ∀ k ∈ L, LinSolves V b' (noise k) (val' k) := by
    intro k _ i hi
    rw [hsum]
    by_cases hit : i = t
    · subst hit
      simp [val']
    · simp only [val', Function.update_of_ne hit]
      exact (hw k).2 i hi hit
  have hz : ∀ k ∈ L, ∀ z ∈ V, z ≠ t → ¬ Reach E t z → val' k z = val k z := by
    intro k hk z hzV hzt hr
    have := h2 z hzV _ _ _ _ (hsol k hk) (hw k)
    rw [not_not.1 (mt (h1 z) hr), zero_mul] at this
    simp only [val', Function.update_of_ne hzt]
    linear_combination - this
  have htv : ∀ k ∈ L, val' k t = val k t := by
    intro k hk
    simp only [val', Function.update_self]
    rw [hsol k hk t ht]
    congr 1
    refine Finset.sum_congr rfl (fun j hj => ?_)
    by_cases hbj : b j t = 0
    · simp [hbj]
    · have hjt : j ≠ t := by
        rintro rfl
        exact hac _ (.single (hb _ _ hbj))
      have := hz k hk j hj hjt (fun hr => hac t (Relation.TransGen.tail' hr (hb _ _ hbj)))
      simp only [val', Function.update_of_ne hjt] at this
      rw [this]
  have hyv : ∀ k ∈ L, val' k y = val k y - τ y * val k t := by
    intro k hk
    have := h2 y hy _ _ _ _ (hsol k hk) (hw k)
    simp only [val', Function.update_of_ne hty]
    linear_combination - this
  have hzv : ∀ k ∈ L, ∀ z ∈ Z, val' k z = val k z := fun k hk z hzZ =>
    hz k hk z (hZ hzZ) (fun e => htZ (e ▸ hzZ)) ((hback.1 z hzZ).2 t rfl)
  have hres : ∀ k ∈ L, val' k t - ∑ z' ∈ Z, c z' * val' k z' = val k t - ∑ z' ∈ Z, c z' * val k z' := by
    intro k hk
    rw [htv k hk, Finset.sum_congr rfl (fun z hzZ => by rw [hzv k hk z hzZ])]
  have := linear_markov (acyclic_cutOut hac {t}) hb' ht hy hZ htZ hyZ hback.2 hsol' hunc c (fun z hzZ => by
    rw [uncorrelated_iff, covar_congr hres (fun k hk => hzv k hk z hzZ), ← uncorrelated_iff]
    exact horth z hzZ)
  rw [uncorrelated_iff, covar_congr hres hyv, ← uncorrelated_iff] at this
  exact this

/-- the row of an individual for `DoubleML`: adjustment variables followed by the transformed covariates, treatment, outcome -/
def dmlRow (t y : α) (S : List α) (vs : List K) (val : I → α → K) (k : I) : List K × List K × K := (S.map (val k) ++ vs, [val k t], val k y)

theorem dml_effect {V : Finset α} {E : α → α → Prop} (hac : Acyclic E) {b : α → α → K} (hb : ∀ i j, b i j ≠ 0 → E i j) {t y : α} (ht : t ∈ V)
    (hy : y ∈ V) {S : List α} (hS : ∀ s ∈ S, s ∈ V) (hback : BackDoor E {t} {y} {s | s ∈ S})
    {L : List I} {noise val : I → α → K} (hsol : ∀ k ∈ L, LinSolves V b (noise k) (val k))
    (hunc : ∀ i ∈ V, ∀ j ∈ V, i ≠ j → Uncorrelated L (fun k => noise k i) (fun k => noise k j))
    (hvar : ¬ ∃ (a : K) (c : List K), ∀ k ∈ L, val k t = a + DML.dot c (S.map (val k))) (vs : List K)
    {fitX : List (List K × List K) → List K → List K} {fitY : List (List K × K) → List K → K} {fitR : List (List K) → List K → List K}
    (hX : FitsLSVec fitX) (hY : ∀ data, Affine (fitY data)) (hR : LeastSquares fitR) {cf : Nat} (hcf : cf ≤ 1) :
    ∃ coef, DML.fitCont fitX fitY fitR (some fun _ => vs) cf 1 (L.map (dmlRow t y S vs val)) = .ok coef ∧
      ∀ (stored : Option K) (a a' : K), ∃ eff, (DML.estCont coef 1 stored vs (some a) (some a')).1 = [eff] ∧
        ∀ (u v v' : α → K), LinSolvesDo V b t a u v → LinSolvesDo V b t a' u v' → v y - v' y = eff := by
  classical
  have hbz : BackDoor E {t} {y} {z | z ∈ S.toFinset} := by
    have e : ({z | z ∈ S.toFinset} : Set α) = {s | s ∈ S} := by ext; simp
    rw [e]; exact hback
  obtain ⟨τ, hτ1, hτ2⟩ := linear_backdoor (I := I) hac hb ht hy (Z := S.toFinset) (fun s hs => hS s (List.mem_toFinset.1 hs)) hbz
  have hLne : L ≠ [] := by
    rintro rfl
    exact hvar ⟨0, [], fun k hk => by cases hk⟩
  have hn : (L.length : K) ≠ 0 := by
    rw [Nat.cast_ne_zero]
    exact fun h => hLne (List.length_eq_zero_iff.1 h)
  set rows := L.map (dmlRow t y S vs val) with hrows
  have hrne : rows ≠ [] := by simp [hrows, hLne]
  set X := fitX (rows.map (fun r => (r.1, r.2.1))) with hXd
  set Y := fitY (rows.map (fun r => (r.1, r.2.2))) with hYd
  obtain ⟨hXl, hX1⟩ := hX (rows.map (fun r => (r.1, r.2.1))) (S.length + vs.length) 1 (by simpa using hrne) (by
    intro p hp
    obtain ⟨r, hr, rfl⟩ := List.mem_map.1 hp
    obtain ⟨k, _, rfl⟩ := List.mem_map.1 hr
    simp [dmlRow])
  obtain ⟨⟨x0, xc, hx0⟩, hxo⟩ := hX1 0 one_pos
  obtain ⟨y0, yc, hy0⟩ := hY (rows.map (fun r => (r.1, r.2.2)))
  -- the residual of the treatment
  let wv : I → List K := fun k => S.map (val k) ++ vs
  let rt : I → K := fun k => val k t - (X (wv k)).getD 0 0
  have horth : ∀ (a : K) (c : List K), (L.map (fun k => (a + DML.dot c (wv k)) * rt k)).sum = 0 := by
    intro a c
    have := hxo a c
    rw [hrows, List.map_map, List.map_map, List.map_map] at this
    exact this
  have hr0 : (L.map rt).sum = 0 := by
    have := horth 1 []
    simpa [DML.dot] using this
  -- affine functions of the adjustment variables
  obtain ⟨x0', xc', hxa⟩ := dot_append_const xc (S.map (val (L.head hLne))) vs
  obtain ⟨d, hd⟩ := dot_columns S xc'
  have hXv : ∀ k, (X (wv k)).getD 0 0 = x0 + x0' + ∑ z ∈ S.toFinset, d z * val k z := by
    intro k
    have := hx0 (wv k)
    beta_reduce at this
    rw [this, hxa (S.map (val k)) (by simp), hd]
    ring
  let q : I → K := fun k => val k t - ∑ z ∈ S.toFinset, d z * val k z
  have hq : ∀ k, rt k = q k + (-(x0 + x0')) := by
    intro k
    simp only [rt, q, hXv]
    ring
  have hcq : ∀ g, covar L q g = covar L rt g := by
    intro g
    rw [covar_congr (f := rt) (fun k _ => hq k) (fun _ _ => rfl), covar_add, covar_const, add_zero]
  have hrt : ∀ g, covar L rt g = (L.length : K) * (L.map (fun k => rt k * g k)).sum := by
    intro g
    unfold covar
    rw [hr0]
    ring
  have hzero : ∀ z ∈ S.toFinset, Uncorrelated L q (fun k => val k z) := by
    intro z hz
    rw [uncorrelated_iff, hcq, hrt]
    obtain ⟨i, hi, hzi⟩ := List.getElem_of_mem (List.mem_toFinset.1 hz)
    have := horth 0 (List.replicate i 0 ++ [1])
    have e : ∀ k, DML.dot (List.replicate i 0 ++ [1]) (wv k) = val k z := by
      intro k
      rw [dot_pick, List.getD_eq_getElem?_getD, List.getElem?_append_left (by simpa using hi)]
      simp [hi, hzi]
    simp only [e, zero_add] at this
    have e2 : (fun k => rt k * val k z) = fun k => val k z * rt k := funext fun k => mul_comm _ _
    rw [e2, this, mul_zero]
  have hmain := hτ2 L noise val hsol hunc d hzero
  rw [uncorrelated_iff, hcq, hrt] at hmain
  have hmain' : (L.map (fun k => rt k * (val k y - τ * val k t))).sum = 0 := (mul_eq_zero.1 hmain).resolve_left hn
  -- the second stage
  have hpr : ∀ r ∈ rows, (X r.1).length = 1 := fun r _ => hXl r.1
  have hx : ∀ r ∈ rows, r.2.1.length = 1 := by
    intro r hr
    obtain ⟨k, _, rfl⟩ := List.mem_map.1 hr
    rfl
  let D : List (List K × K) := rows.map (fun r => (DML.xPrime r.2.1 (X r.1) vs, r.2.2 - Y r.1))
  have hD1 : D.map (·.1) = rows.map (fun r => DML.xPrime r.2.1 (X r.1) vs) := by simp only [D, List.map_map]; rfl
  have hD2 : D.map (·.2) = rows.map (fun r => r.2.2 - Y r.1) := by simp only [D, List.map_map]; rfl
  obtain ⟨hcl, c, s1, s2⟩ := hR D (1 * (vs.length + 1)) (by simpa [D] using hrne) (by
    intro p hp
    obtain ⟨r, hr, rfl⟩ := List.mem_map.1 hp
    simp only [DML.xPrime]
    rw [kron_length, List.length_zipWith, hx r hr, hpr r hr, min_self, List.length_cons])
  rw [hD1, hD2] at hcl s1 s2
  set coef := fitR (rows.map (fun r => DML.xPrime r.2.1 (X r.1) vs)) (rows.map (fun r => r.2.2 - Y r.1)) with hcoef
  have hfit : DML.fitCont fitX fitY fitR (some fun _ => vs) cf 1 rows = .ok coef := by
    have hnc : ¬ 1 < cf := by omega
    unfold DML.fitCont
    simp only [CF.crossFit, if_neg hnc, List.map_map, Function.comp_def]
    rw [collectX_map rows (fun r => X r.1) hpr, collectY_map rows (fun r => Y r.1)]
    simp only [DML.secondStage]
    rw [List.zip_map', List.zip_map', List.map_map, List.zipWith_map, List.zipWith_self]
    rfl
  set est := DML.dot (DML.coefRow coef (vs.length + 1) 0) (1 :: vs) with hest
  have hdot : ∀ k, ∀ δ, DML.dot (DML.xPrime [val k t] (X (wv k)) vs) δ = rt k * DML.dot (DML.coefRow δ (vs.length + 1) 0) (1 :: vs) := by
    intro k δ
    rw [dot_xPrime (xd := 1) rfl (show (X (wv k)).length = 1 from hXl _) rfl]
    simp [rt]
  have key : (L.map (fun k => rt k * (val k y - Y (wv k) - c - rt k * est))).sum = 0 := by
    have := s2 (1 :: List.replicate vs.length 0) (by simp)
    rw [show D = L.map (fun k => (DML.xPrime [val k t] (X (wv k)) vs, val k y - Y (wv k))) by simp only [D, hrows, List.map_map]; rfl,
      List.map_map] at this
    refine Eq.trans ?_ this
    congr 1
    apply List.map_congr_left
    intro k _
    simp only [Function.comp_apply, hdot]
    have e1 : DML.dot (DML.coefRow (1 :: List.replicate vs.length (0 : K)) (vs.length + 1) 0) (1 :: vs) = 1 := by
      have : ∀ l : List K, DML.dot (List.replicate l.length (0 : K)) l = 0 := by
        intro l
        induction l with
        | nil => rfl
        | cons a l ih =>
          unfold DML.dot at ih ⊢
          simp [List.replicate_succ, ih]
      have h2 := this vs
      unfold DML.dot at h2 ⊢
      simp [DML.coefRow, h2]
    rw [e1, mul_one]
  have hYo : (L.map (fun k => Y (wv k) * rt k)).sum = 0 := by
    have := horth y0 yc
    simp only [← hy0] at this
    exact this
  have hXo : (L.map (fun k => (X (wv k)).getD 0 0 * rt k)).sum = 0 := by
    have := horth x0 xc
    have e : ∀ k, x0 + DML.dot xc (wv k) = (X (wv k)).getD 0 0 := fun k => (hx0 (wv k)).symm
    simp only [e] at this
    exact this
  -- the two normal equations
  have hfin : (τ - est) * (L.map (fun k => rt k * rt k)).sum = 0 := by
    have e : (fun k => rt k * (val k y - Y (wv k) - c - rt k * est)) = fun k =>
        rt k * (val k y - τ * val k t) + ((-1) * (Y (wv k) * rt k) + ((-c) * rt k + (τ * ((X (wv k)).getD 0 0 * rt k) + (τ - est) * (rt k * rt k)))) := by
      funext k
      simp only [rt]
      ring
    rw [e, list_sum_add, list_sum_add, list_sum_add, list_sum_add, hmain', list_sum_smul, hYo, list_sum_smul, hr0, list_sum_smul, hXo,
      list_sum_smul] at key
    linear_combination key
  have hne : (L.map (fun k => rt k * rt k)).sum ≠ 0 := by
    intro h0
    have h1 := dml_sum_sq_zero L rt h0
    apply hvar
    refine ⟨x0 + x0', xc', fun k hk => ?_⟩
    have h2 := h1 k hk
    simp only [rt, hXv] at h2
    rw [hd]
    linear_combination h2
  have hestτ : est = τ := (sub_eq_zero.1 ((mul_eq_zero.1 hfin).resolve_right hne)).symm
  refine ⟨coef, hfit, fun stored a a' => ⟨τ * (a - a'), ?_, fun u v v' h1 h2 => hτ1 u v v' a a' h1 h2⟩⟩
  simp [DML.estCont, DML.fij, ← hest, hestτ]

end ordered

section main
variable {α : Type} [DecidableEq α] [LatentNames α]

/-- every set `get_backdoor_set` answers for one treatment and one outcome is admissible, with all three methods (`simple`: if no latent arc touches the
treatment and the outcome is not its cause) -/
theorem answered_admissible {c : Causation α} {A : List (α × α)} (hD : IsDict c) (h : IsDiagram c A U) {ord : List α → List α}
    (hord : ∀ l, (ord l).Perm l) {t y : α} {adj : Adjust} (hsimple : adj = .simple → (∀ u, ¬ Paired A t u) ∧ t ≠ y ∧ ¬ Parent c y t)
    {r : BackdoorList α} {p : Prob α} (hok : getBackdoorSet ord (CG.init c A) [t] [y] adj = .ok (some (r, p))) {S : List α}
    (hS : r = .names S ∨ ∃ Ls, r = .sets Ls ∧ S ∈ Ls) :
    BackDoor (CG.init c A).explicitDag.E {t} {y} {s | s ∈ S} := by
  have e1 : ({a | a ∈ [t]} : Set α) = {t} := by ext; simp
  have e2 : ({a | a ∈ [y]} : Set α) = {y} := by ext; simp
  have hE := C08_explicit_faithful_partial c A h
  cases adj with
  | simple =>
    obtain ⟨hA, hty, hyt⟩ := hsimple rfl
    obtain ⟨S', hr, hmem, hb⟩ := simple_admissible hD h hok
    have hSS : S' = S := by
      rcases hS with hS | ⟨Ls, hS, _⟩
      · rw [hr] at hS; injection hS
      · rw [hr] at hS; cases hS
    subst hSS
    have := hb (by simpa using hA) (by simpa using hty) (by
      intro s hs
      obtain ⟨x, hx, hp⟩ := (hmem s).1 hs
      rw [List.mem_singleton.1 hx] at hp
      refine ⟨fun hsy => hyt (by rw [List.mem_singleton.1 hsy] at hp; exact hp), fun x hx hr => ?_⟩
      rw [List.mem_singleton.1 hx] at hr
      exact h.acyclic t (Relation.TransGen.tail' hr hp))
    rwa [e1, e2] at this
  | all =>
    obtain ⟨hX, hY, gm, des, sets, hf, hE', hdes, hfound, hne, rfl, -⟩ := search_result hD h (.inl rfl) hok
    rw [if_neg (by decide)] at hfound
    obtain ⟨hall, rfl⟩ := allSep_ok _ _ hfound
    rcases hS with hS | ⟨Ls, hS, hm⟩
    · cases hS
    · injection hS with hS
      subst hS
      rw [List.mem_filter] at hm
      obtain ⟨b, hb⟩ := hall S hm.1
      have hbt : b = true := by rw [hb] at hm; exact hm.2
      have := (candidate_iff hD h hord hX hdes hf hE' (mem_powerset.1 hm.1) hb).2.2.1 hbt
      rwa [e1, e2] at this
  | other =>
    have hb : ∀ g d e, backdoorSearch ord g d [t] [y] .other ≠ .ok e := by
      intro g d e hb
      unfold backdoorSearch at hb
      simp only [reduceCtorEq, or_self, if_false] at hb
      split at hb
      · cases hb
      · split at hb
        · cases hb
        · split at hb <;> cases hb
    unfold getBackdoorSet at hok
    simp only [reduceCtorEq, if_false] at hok
    repeat' split at hok
    all_goals first
      | (exfalso; injection hok; done)
      | (exfalso; cases hok; done)
      | (exfalso; exact hb _ _ _ (by assumption))
  | minimal =>
    obtain ⟨hX, hY, gm, des, sets, hf, hE', hdes, hfound, hne, rfl, -⟩ := search_result hD h (.inr rfl) hok
    rw [if_pos rfl] at hfound
    rcases firstSep_ok _ _ hfound with ⟨h1, _⟩ | ⟨l₁, S', l₂, hl, rfl, hS', _⟩
    · exact absurd h1 hne
    · rcases hS with hS | ⟨Ls, hS, hm⟩
      · cases hS
      · injection hS with hS
        subst hS
        rw [List.mem_singleton.1 hm]
        have hSsub := mem_powerset.1 (hl ▸ List.mem_append_right l₁ (List.mem_cons_self) : S' ∈ powerset _)
        have := (candidate_iff hD h hord hX hdes hf hE' hSsub hS').2.2.1 rfl
        rwa [e1, e2] at this

/-- **C149**: an adjustment set answered by `get_backdoor_set` (any of the three methods), `DoubleML` with least squares for the treatment and the final model, a
constant covariate basis and the default `cf_fold`; any linear causal model of the diagram with uncorrelated noise, latent variables included. If the adjustment
variables do not determine the treatment linearly in the sample, `DoubleML` answers exactly by how much the outcome of an individual (any individual of the model)
changes when the treatment is set to `a` instead of `a'`. The outcome model may be any linear function of the adjustment variables. -/
theorem C149_dml_pipeline (c : Causation α) (A : List (α × α)) (hD : IsDict c) (h : IsDiagram c A U) :
    ∃ G, IsExplicit c A U G ∧ ∀ (ord : List α → List α), (∀ l, (ord l).Perm l) → ∀ (t y : α) (adj : Adjust),
      (adj = .simple → (∀ u, ¬ Paired A t u) ∧ t ≠ y ∧ ¬ Parent c y t) →
      ∀ (r : BackdoorList α) (p : Prob α), getBackdoorSet ord (CG.init c A) [t] [y] adj = .ok (some (r, p)) →
      ∀ (S : List α), (r = .names S ∨ ∃ Ls, r = .sets Ls ∧ S ∈ Ls) →
      ∀ (V : Finset α), t ∈ V → y ∈ V → (∀ s ∈ S, s ∈ V) →
      ∀ (K I : Type) [Field K] [LinearOrder K] [IsStrictOrderedRing K] (b : α → α → K), (∀ i j, b i j ≠ 0 → G i j) →
      ∀ (L : List I) (noise val : I → α → K), (∀ k ∈ L, LinSolves V b (noise k) (val k)) →
      (∀ i ∈ V, ∀ j ∈ V, i ≠ j → Uncorrelated L (fun k => noise k i) (fun k => noise k j)) →
      (¬ ∃ (a : K) (c : List K), ∀ k ∈ L, val k t = a + DML.dot c (S.map (val k))) →
      ∀ (vs : List K) (fitX : List (List K × List K) → List K → List K) (fitY : List (List K × K) → List K → K) (fitR : List (List K) → List K → List K),
      FitsLSVec fitX → (∀ data, Affine (fitY data)) → LeastSquares fitR → ∀ cf ≤ 1,
      ∃ coef, DML.fitCont fitX fitY fitR (some fun _ => vs) cf 1 (L.map (dmlRow t y S vs val)) = .ok coef ∧
        ∀ (stored : Option K) (a a' : K), ∃ eff, (DML.estCont coef 1 stored vs (some a) (some a')).1 = [eff] ∧
          ∀ (u v v' : α → K), LinSolvesDo V b t a u v → LinSolvesDo V b t a' u v' → v y - v' y = eff := by
  have hE := C08_explicit_faithful_partial c A h
  refine ⟨_, hE, fun ord hord t y adj hs r p hok S hS V ht hy hSV K I _ _ _ b hb L noise val hsol hunc hvar vs fitX fitY fitR hX hY hR cf hcf => ?_⟩
  exact dml_effect hE.acyclic hb ht hy hSV (answered_admissible hD h hord hs hok hS) hsol hunc hvar vs hX hY hR hcf

/-- The statistical fact behind it, for the diagram alone: if `d_separated` holds in the explicit graph, the residual of one variable on the separating ones is
uncorrelated with the other variable in every linear causal model of the diagram. -/
theorem C149_linear_markov {V : Finset α} {E : α → α → Prop} (hac : Acyclic E) {K I : Type} [Field K] [LinearOrder K] [IsStrictOrderedRing K]
    {b : α → α → K} (hb : ∀ i j, b i j ≠ 0 → E i j) {x y : α} {Z : Finset α} (hx : x ∈ V) (hy : y ∈ V) (hZ : Z ⊆ V) (hxZ : x ∉ Z) (hyZ : y ∉ Z)
    (hsep : DSep E {x} {y} {z | z ∈ Z}) {L : List I} {noise val : I → α → K} (hsol : ∀ k ∈ L, LinSolves V b (noise k) (val k))
    (hunc : ∀ i ∈ V, ∀ j ∈ V, i ≠ j → Uncorrelated L (fun k => noise k i) (fun k => noise k j))
    (c : α → K) (horth : ∀ z ∈ Z, Uncorrelated L (fun k => val k x - ∑ z' ∈ Z, c z' * val k z') (fun k => val k z)) :
    Uncorrelated L (fun k => val k x - ∑ z ∈ Z, c z * val k z) (fun k => val k y) :=
  linear_markov hac hb hx hy hZ hxZ hyZ hsep hsol hunc c horth

end main

/-! ### Non-vacuity -/

/-- `z → x → m → y`, `x → y`, `z → y` with a latent common cause of `z` and `y` -/
def dmlDiagram : CG String := CG.init [("z", []), ("x", ["z"]), ("m", ["x"]), ("y", ["m", "x", "z"])] [("z", "y")]

/-- the coefficients: `z = U0 + …`, `x = z + …`, `m = x`, `y = m + x + z + U0`: the total effect of `x` on `y` is 2 -/
def dmlCoef (i j : String) : ℚ := if (i, j) ∈ [("U0", "z"), ("z", "x"), ("x", "m"), ("m", "y"), ("x", "y"), ("z", "y"), ("U0", "y")] then 1 else 0

/-- eight individuals: the noise of `z`, of `x` and the latent variable are fair coins -/
def dmlPeople : List (ℚ × ℚ × ℚ) := [(0, 0, 0), (0, 0, 1), (0, 1, 0), (0, 1, 1), (1, 0, 0), (1, 0, 1), (1, 1, 0), (1, 1, 1)]

def dmlNoise (k : ℚ × ℚ × ℚ) (i : String) : ℚ := if i = "z" then k.1 else if i = "x" then k.2.1 else if i = "U0" then k.2.2 else 0

def dmlVal (k : ℚ × ℚ × ℚ) (i : String) : ℚ :=
  if i = "U0" then k.2.2 else if i = "z" then k.1 + k.2.2 else if i = "x" then k.1 + k.2.2 + k.2.1 else if i = "m" then k.1 + k.2.2 + k.2.1
  else if i = "y" then 3 * k.1 + 4 * k.2.2 + 2 * k.2.1 else 0

def dmlVars : Finset String := ["z", "x", "m", "y", "U0"].toFinset

theorem dml_example : Except.map (Option.map Prod.fst) (getBackdoorSet id dmlDiagram ["x"] ["y"] .minimal) = .ok (some (.sets [["z"]])) ∧
    (∀ i j, dmlCoef i j ≠ 0 → dmlDiagram.explicitDag.E i j) ∧
    (∀ k ∈ dmlPeople, LinSolves dmlVars dmlCoef (dmlNoise k) (dmlVal k)) ∧
    (∀ i ∈ dmlVars, ∀ j ∈ dmlVars, i ≠ j → Uncorrelated dmlPeople (fun k => dmlNoise k i) (fun k => dmlNoise k j)) ∧
    ¬ ∃ (a : ℚ) (c : List ℚ), ∀ k ∈ dmlPeople, dmlVal k "x" = a + DML.dot c (["z"].map (dmlVal k)) := by
  refine ⟨by decide +kernel, fun i j h => ?_, ?_, ?_, ?_⟩
  · have hed : dmlDiagram.explicitDag.edges = [("z", "x", .num 0), ("x", "m", .num 0), ("m", "y", .num 0), ("x", "y", .num 0), ("z", "y", .num 0),
        ("U0", "z", .n), ("U0", "y", .n)] := by decide +kernel
    unfold dmlCoef at h
    have hm : (i, j) ∈ [("U0", "z"), ("z", "x"), ("x", "m"), ("m", "y"), ("x", "y"), ("z", "y"), ("U0", "y")] := by
      by_contra hc
      rw [if_neg hc] at h
      exact h rfl
    unfold MDG.E
    rw [hed]
    simp only [List.mem_cons, Prod.mk.injEq, List.not_mem_nil, or_false] at hm
    rcases hm with ⟨rfl, rfl⟩ | ⟨rfl, rfl⟩ | ⟨rfl, rfl⟩ | ⟨rfl, rfl⟩ | ⟨rfl, rfl⟩ | ⟨rfl, rfl⟩ | ⟨rfl, rfl⟩
    · exact ⟨.n, by simp⟩
    · exact ⟨.num 0, by simp⟩
    · exact ⟨.num 0, by simp⟩
    · exact ⟨.num 0, by simp⟩
    · exact ⟨.num 0, by simp⟩
    · exact ⟨.num 0, by simp⟩
    · exact ⟨.n, by simp⟩
  · unfold LinSolves; decide +kernel
  · unfold Uncorrelated; decide +kernel
  · rintro ⟨a, c, h⟩
    have h1 := h (0, 0, 0) (by simp [dmlPeople])
    have h2 := h (0, 1, 0) (by simp [dmlPeople])
    have e1 : ["z"].map (dmlVal (0, 0, 0)) = ["z"].map (dmlVal (0, 1, 0)) := by decide +kernel
    have e2 : dmlVal (0, 0, 0) "x" = 0 := by decide +kernel
    have e3 : dmlVal (0, 1, 0) "x" = 1 := by decide +kernel
    rw [e2, e1] at h1
    rw [e3, ← h1] at h2
    exact absurd h2 (by norm_num)

example : IsDict [("z", []), ("x", ["z"]), ("m", ["x"]), ("y", ["m", "x", "z"])] ∧
    IsDiagram [("z", []), ("x", ["z"]), ("m", ["x"]), ("y", ["m", "x", "z"])] [("z", "y")] (U (α := String)) :=
  ⟨by constructor <;> decide, isDiagram_of_test _ _ (by decide +kernel)⟩

/-- `simple` answers the same set here, and its side condition holds of the treatment `x` -/
example : Except.map (Option.map Prod.fst) (getBackdoorSet id dmlDiagram ["x"] ["y"] .simple) = .ok (some (.names ["z"])) ∧
    (∀ u, ¬ Paired [("z", "y")] "x" u) := by
  refine ⟨by decide +kernel, ?_⟩
  rintro u (h | h) <;> simp at h

/-- the edge `x → y` alone -/
def dmlNaive (i j : String) : Prop := i = "x" ∧ j = "y"

theorem dmlNaive_acyclic : Acyclic dmlNaive := by
  have key : ∀ a b, Relation.TransGen dmlNaive a b → a = "x" ∧ b = "y" := by
    intro a b h
    induction h with
    | single h => exact h
    | tail _ h ih => exact ⟨ih.1, h.2⟩
  intro i hi
  obtain ⟨h1, h2⟩ := key i i hi
  rw [h1] at h2
  exact absurd h2 (by decide)

/-- the adjustment matters: on the data of the example (where the effect is 2) `DoubleML` without adjustment variables answers 3 -/
theorem C149_adjustment_matters {fitX : List (List ℚ × List ℚ) → List ℚ → List ℚ} {fitY : List (List ℚ × ℚ) → List ℚ → ℚ}
    {fitR : List (List ℚ) → List ℚ → List ℚ} (hX : FitsLSVec fitX) (hY : ∀ data, Affine (fitY data)) (hR : LeastSquares fitR) (vs : List ℚ) :
    (∀ u v v' a a', LinSolvesDo dmlVars dmlCoef "x" a u v → LinSolvesDo dmlVars dmlCoef "x" a' u v' → v "y" - v' "y" = 2 * (a - a')) ∧
    ∃ coef, DML.fitCont fitX fitY fitR (some fun _ => vs) 1 1 (dmlPeople.map (dmlRow "x" "y" [] vs dmlVal)) = .ok coef ∧
      ∀ a a', (DML.estCont coef 1 none vs (some a) (some a')).1 = [3 * (a - a')] := by
  constructor
  · rintro u v v' a a' ⟨h1, h2⟩ ⟨h1', h2'⟩
    have hs : ∀ (f : String → ℚ), ∑ j ∈ dmlVars, f j = f "z" + f "x" + f "m" + f "y" + f "U0" := by
      intro f
      rw [show dmlVars = {"z", "x", "m", "y", "U0"} from by decide]
      rw [Finset.sum_insert (by decide), Finset.sum_insert (by decide), Finset.sum_insert (by decide), Finset.sum_insert (by decide),
        Finset.sum_singleton]
      ring
    have c1 := h2 "y" (by decide) (by decide)
    have c2 := h2 "m" (by decide) (by decide)
    have c3 := h2 "z" (by decide) (by decide)
    have c4 := h2 "U0" (by decide) (by decide)
    have d1 := h2' "y" (by decide) (by decide)
    have d2 := h2' "m" (by decide) (by decide)
    have d3 := h2' "z" (by decide) (by decide)
    have d4 := h2' "U0" (by decide) (by decide)
    simp [hs, dmlCoef] at c1 c2 c3 c4 d1 d2 d3 d4
    rw [h1] at c1 c2
    rw [h1'] at d1 d2
    linarith
  · have hb : ∀ i j, (if i = "x" ∧ j = "y" then (3 : ℚ) else 0) ≠ 0 → dmlNaive i j := by
      intro i j h
      by_contra hc
      exact h (if_neg hc)
    have hback : BackDoor dmlNaive {"x"} {"y"} {s | s ∈ ([] : List String)} := by
      refine ⟨fun z hz => absurd hz (by simp), ?_⟩
      have e : ({s | s ∈ ([] : List String)} : Set String) = ∅ := by ext; simp
      rw [e, dsep_empty_iff (acyclic_cutOut dmlNaive_acyclic {"x"})]
      have none : ∀ a b, ¬ CutOut dmlNaive {"x"} a b := fun a b h => h.2 h.1.1
      rintro ⟨w, h1, h2⟩
      have hr : ∀ a b, Reach (CutOut dmlNaive {"x"}) a b → a = b := by
        intro a b h
        rcases Relation.ReflTransGen.cases_tail h with h | ⟨c, _, h⟩
        · exact h.symm
        · exact absurd h (none _ _)
      have := (hr _ _ h1).symm.trans (hr _ _ h2)
      exact absurd this (by decide)
    obtain ⟨coef, h1, h2⟩ := dml_effect (V := ["x", "y"].toFinset) (I := ℚ × ℚ × ℚ) (L := dmlPeople) (S := []) (t := "x") (y := "y")
      (b := fun i j => if i = "x" ∧ j = "y" then (3 : ℚ) else 0)
      (noise := fun k i => if i = "x" then dmlVal k "x" else dmlVal k "y" - 3 * dmlVal k "x") (val := dmlVal)
      dmlNaive_acyclic hb (by decide) (by decide) (by simp) hback (by unfold LinSolves; decide +kernel)
      (by unfold Uncorrelated; decide +kernel) (by
        rintro ⟨a, c, h⟩
        have h1 := h (0, 0, 0) (by simp [dmlPeople])
        have h2 := h (0, 1, 0) (by simp [dmlPeople])
        have e2 : dmlVal (0, 0, 0) "x" = 0 := by decide +kernel
        have e3 : dmlVal (0, 1, 0) "x" = 1 := by decide +kernel
        rw [e2] at h1
        rw [e3] at h2
        simp only [List.map_nil] at h1 h2
        rw [← h1] at h2
        exact absurd h2 (by norm_num)) vs hX hY hR (cf := 1) le_rfl
    refine ⟨coef, h1, fun a a' => ?_⟩
    obtain ⟨eff, e1, e2⟩ := h2 none a a'
    rw [e1]
    have hv : ∀ a : ℚ, LinSolvesDo ["x", "y"].toFinset (fun i j => if i = "x" ∧ j = "y" then (3 : ℚ) else 0) "x" a (fun _ => 0)
        (fun i => if i = "x" then a else 3 * a) := by
      intro a
      refine ⟨by simp, fun i hi hix => ?_⟩
      have : i = "y" := by
        simp at hi
        exact hi.resolve_left hix
      subst this
      simp
    have := e2 _ _ _ (hv a) (hv a')
    simp at this
    rw [← this]
    congr 1
    ring

end YL.Props
