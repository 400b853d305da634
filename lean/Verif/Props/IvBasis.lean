import Verif.Props.IvCausal

/-!
# C144 beyond straight lines: any bases, any mechanisms

Every variable is an arbitrary function of its parents and its own noise; the noise terms of disjoint groups of variables are independent in the
sample. The only assumption about the outcome is that the effect of the treatment is the same for all individuals and a combination of the functions
in the treatment basis.
-/

set_option linter.unusedSectionVars false

namespace YL.Spec

variable {α K I : Type} [DecidableEq α] [Field K]

/-- each variable depends on its parents only -/
def Local (E : α → α → Prop) (mech : α → (α → K) → K → K) : Prop := ∀ i v v' u, (∀ j, E j i → v j = v' j) → mech i v u = mech i v' u

/-- the values of one individual -/
def MechSolves (V : Finset α) (mech : α → (α → K) → K → K) (noise val : α → K) : Prop := ∀ i ∈ V, val i = mech i val (noise i)

/-- the values of the same individual when `t` is set to `a` by intervention -/
def MechSolvesDo (V : Finset α) (mech : α → (α → K) → K → K) (t : α) (a : K) (noise val : α → K) : Prop :=
  val t = a ∧ ∀ i ∈ V, i ≠ t → val i = mech i val (noise i)

/-- a quantity is determined by the noise terms of a group of variables -/
def Determined (L : List I) (noise : I → α → K) (A : Finset α) (X : I → K) : Prop :=
  ∀ k ∈ L, ∀ k' ∈ L, (∀ j ∈ A, noise k j = noise k' j) → X k = X k'

/-- the noise terms of disjoint groups of variables are independent in the sample: quantities they determine are uncorrelated -/
def IndependentNoise (L : List I) (V : Finset α) (noise : I → α → K) : Prop :=
  ∀ A B : Finset α, A ⊆ V → B ⊆ V → Disjoint A B → ∀ X Y : I → K, Determined L noise A X → Determined L noise B Y → Uncorrelated L X Y

end YL.Spec

namespace YL.Props

open YL Spec LatentNames TwoStage

section mech
variable {α K I : Type} [DecidableEq α] [Field K]

/-- a variable is determined by the noise terms of its ancestors -/
theorem solves_determined {V : Finset α} {E : α → α → Prop} (hac : Acyclic E) (hV : ∀ a b, E a b → a ∈ V ∧ b ∈ V)
    {mech : α → (α → K) → K → K} (hl : Local E mech) {u u' v v' : α → K} (h : MechSolves V mech u v) (h' : MechSolves V mech u' v') :
    ∀ i ∈ V, (∀ j ∈ V, Reach E j i → u j = u' j) → v i = v' i := by
  classical
  intro i hi
  induction hn : (V.filter (fun a => Relation.TransGen E a i)).card using Nat.strong_induction_on generalizing i with
  | _ n ih =>
    intro hu
    rw [h i hi, h' i hi, hu i hi .refl]
    refine hl i v v' _ (fun j hj => ?_)
    have hjV := (hV j i hj).1
    refine ih _ ?_ j hjV rfl (fun k hk hr => hu k hk (hr.tail hj))
    rw [← hn]
    refine Finset.card_lt_card ⟨fun a ha => ?_, fun hsub => ?_⟩
    · rw [Finset.mem_filter] at ha ⊢
      exact ⟨ha.1, ha.2.tail hj⟩
    · have := hsub (Finset.mem_filter.2 ⟨hjV, .single hj⟩)
      exact hac j (Finset.mem_filter.1 this).2

/-- the equations have a solution under every intervention -/
theorem solvesDo_exists {V : Finset α} {E : α → α → Prop} (hac : Acyclic E) {mech : α → (α → K) → K → K} (hl : Local E mech) (t : α) (a : K)
    (u : α → K) : ∃ v, MechSolvesDo V mech t a u v := by
  classical
  have key : ∀ W : Finset α, ∀ w : α → K, ∃ v : α → K, (∀ i ∉ W, v i = w i) ∧ ∀ i ∈ W, v i = mech i v (u i) := by
    intro W
    induction hn : W.card using Nat.strong_induction_on generalizing W with
    | _ n ih =>
      intro w
      by_cases hne : W = ∅
      · subst hne
        exact ⟨w, fun _ _ => rfl, fun i hi => absurd hi (Finset.notMem_empty i)⟩
      · obtain ⟨i, hi, hsink⟩ := exists_sink hac W (Finset.nonempty_iff_ne_empty.2 hne)
        have hlt : (W.erase i).card < n := by rw [← hn]; exact Finset.card_erase_lt_of_mem hi
        obtain ⟨v, h1, h2⟩ := ih _ hlt (W.erase i) rfl w
        refine ⟨Function.update v i (mech i v (u i)), fun x hx => ?_, fun x hx => ?_⟩
        · have : x ≠ i := fun e => hx (e ▸ hi)
          rw [Function.update_of_ne this]
          exact h1 x (fun h => hx (Finset.mem_of_mem_erase h))
        · have hm : mech x (Function.update v i (mech i v (u i))) (u x) = mech x v (u x) := by
            refine hl x _ _ _ (fun j hj => ?_)
            have : j ≠ i := fun e => hsink x hx (e ▸ hj)
            rw [Function.update_of_ne this]
          rw [hm]
          by_cases hxi : x = i
          · subst hxi; rw [Function.update_self]
          · rw [Function.update_of_ne hxi]
            exact h2 x (Finset.mem_erase.2 ⟨hxi, hx⟩)
  obtain ⟨v, h1, h2⟩ := key (V.erase t) (fun _ => a)
  exact ⟨v, h1 t (Finset.notMem_erase t V), fun i hi hit => h2 i (Finset.mem_erase.2 ⟨hit, hi⟩)⟩

/-- under an intervention on `t` a variable is determined by the noise terms of its other ancestors that do not act through `t` -/
theorem solvesDo_determined {V : Finset α} {E : α → α → Prop} (hac : Acyclic E) (hV : ∀ a b, E a b → a ∈ V ∧ b ∈ V)
    {mech : α → (α → K) → K → K} (hl : Local E mech) {t : α} {a : K} {u u' v v' : α → K} (h : MechSolvesDo V mech t a u v)
    (h' : MechSolvesDo V mech t a u' v') {y : α} (hy : y ∈ V) (hu : ∀ j ∈ V, j ≠ t → Reach (CutIn E {t}) j y → u j = u' j) : v y = v' y := by
  have hs : ∀ u v : α → K, MechSolvesDo V mech t a u v →
      MechSolves V (fun i v w => if i = t then w else mech i v w) (Function.update u t a) v := by
    intro u v ⟨h1, h2⟩ i hi
    by_cases hit : i = t
    · subst hit; simp [h1]
    · simp only [if_neg hit, Function.update_of_ne hit]
      exact h2 i hi hit
  refine solves_determined (acyclic_cutIn hac {t}) (fun a b hab => hV a b hab.1) (fun i v v' w hvv => ?_) (hs u v h) (hs u' v' h') y hy
    (fun j hj hr => ?_)
  · by_cases hit : i = t
    · simp only [if_pos hit]
    · simp only [if_neg hit]
      exact hl i v v' w (fun j hj => hvv j ⟨hj, by simpa using hit⟩)
  · by_cases hjt : j = t
    · subst hjt; simp
    · rw [Function.update_of_ne hjt, Function.update_of_ne hjt]
      exact hu j hj hjt hr

/-- the part of the outcome that is not due to the treatment is determined by the noise terms acting on the outcome past the treatment -/
theorem rest_determined {V : Finset α} {E : α → α → Prop} (hac : Acyclic E) (hV : ∀ a b, E a b → a ∈ V ∧ b ∈ V)
    {mech : α → (α → K) → K → K} (hl : Local E mech) {t y : α} (hy : y ∈ V) {eff : K → K}
    (hsep : ∀ u v v' a a', MechSolvesDo V mech t a u v → MechSolvesDo V mech t a' u v' → v y - v' y = eff a - eff a')
    {u u' v v' : α → K} (h : MechSolves V mech u v) (h' : MechSolves V mech u' v')
    (hu : ∀ j ∈ V, j ≠ t → Reach (CutIn E {t}) j y → u j = u' j) : v y - eff (v t) = v' y - eff (v' t) := by
  have c1 : MechSolvesDo V mech t (v t) u v := ⟨rfl, fun i hi _ => h i hi⟩
  have c2 : MechSolvesDo V mech t (v' t) u' v' := ⟨rfl, fun i hi _ => h' i hi⟩
  obtain ⟨w, hw⟩ := solvesDo_exists (V := V) hac hl t (v' t) u
  have e1 := hsep u v w _ _ c1 hw
  have e2 := solvesDo_determined hac hV hl hw c2 hy hu
  rw [← e2]
  linear_combination e1

theorem dot_range_diff [DecidableEq K] (m : Nat) (c c' x : List K) (hx : x.length = m) :
    DML.dot c x - DML.dot c' x = DML.dot ((List.range m).map (fun i => c.getD i 0 - c'.getD i 0)) x := by
  rw [dot_range, dot_range, dot_range, hx]
  have : ∀ l : List Nat, (l.map (fun k => c.getD k 0 * x.getD k 0)).sum - (l.map (fun k => c'.getD k 0 * x.getD k 0)).sum =
      (l.map (fun k => (c.getD k 0 - c'.getD k 0) * x.getD k 0)).sum := by
    intro l
    induction l with
    | nil => simp
    | cons k l ih => simp only [List.map_cons, List.sum_cons]; rw [← ih]; ring
  rw [this]
  congr 1
  refine List.map_congr_left (fun k hk => ?_)
  have hk' := List.mem_range.1 hk
  simp [hk']

end mech

section main2
variable {α : Type} [DecidableEq α] [LatentNames α] {K I : Type} [Field K] [LinearOrder K] [IsStrictOrderedRing K]

theorem iv_effect_any {V : Finset α} {E : α → α → Prop} (hac : Acyclic E) (hV : ∀ a b, E a b → a ∈ V ∧ b ∈ V)
    {mech : α → (α → K) → K → K} (hl : Local E mech) {t y : α} (hy : y ∈ V) {Zs : List α} (hZV : ∀ z ∈ Zs, z ∈ V)
    (hZ : ∀ z ∈ Zs, E z t ∧ DSep (CutIn E {t}) {z} {y} ∅)
    {L : List I} (hL : L ≠ []) {noise val : I → α → K} (hsol : ∀ k ∈ L, MechSolves V mech (noise k) (val k)) (hind : IndependentNoise L V noise)
    (cov : I → List K) {poly : Nat → List K → List K} {fa : FitArgs K} {bx bz bv : Basis K}
    (hbx : basisOf poly fa.treatmentBasis = .ok (some bx)) (hbz : basisOf poly fa.instrumentBasis = .ok (some bz))
    (hbv : covarBasisOf poly fa.covarBasis = .ok (some bv)) (hadj : fa.hasAdjustment = false) (hcov : fa.hasCovariate = true)
    (hconst : ∀ v : List K, bv.rows v = [1]) {m p : Nat} (hm : ∀ x : K, (bx.rows [x]).length = m)
    (hp : ∀ k ∈ L, (bz.rows (Zs.map (val k))).length = p) (θ : List K)
    (hsep : ∀ u v v' a a', MechSolvesDo V mech t a u v → MechSolvesDo V mech t a' u v' →
      v y - v' y = DML.dot θ (bx.rows [a]) - DML.dot θ (bx.rows [a']))
    (hrel : ∀ δ : List K, (∀ i, Uncorrelated L (fun k => (bz.rows (Zs.map (val k))).getD i 0) (fun k => DML.dot δ (bx.rows [val k t]))) →
      ∀ a a', DML.dot δ (bx.rows [a]) = DML.dot δ (bx.rows [a']))
    {fitX : List (List K × List K) → List K → List K} {fitY : List (List K × K) → List K → K} (hX : FitsLSVec fitX) (hY : FitsLS fitY) :
    ∃ f, fit poly fitX fitY fa none 1 (L.map (ivObs t y Zs cov val)) = .ok f ∧
      ∀ (d : List (Obs K)) (a a' : K), estimate f (some d) (some [a]) (some [a']) .none =
        .ok (d.map (fun _ => DML.dot θ (bx.rows [a]) - DML.dot θ (bx.rows [a']))) := by
  classical
  have hn : (L.length : K) ≠ 0 := by
    rw [Nat.cast_ne_zero]
    exact fun h => hL (List.length_eq_zero_iff.1 h)
  -- the part of the outcome not due to the treatment
  let rest : I → K := fun k => val k y - DML.dot θ (bx.rows [val k t])
  let A := V.filter (fun j => ∃ z ∈ Zs, Reach E j z)
  let B := V.filter (fun j => j ≠ t ∧ Reach (CutIn E {t}) j y)
  have hrestB : Determined L noise B rest := by
    intro k hk k' hk' hkk
    exact rest_determined (eff := fun a => DML.dot θ (bx.rows [a])) hac hV hl hy hsep (hsol k hk) (hsol k' hk')
      (fun j hj hjt hr => hkk j (Finset.mem_filter.2 ⟨hj, hjt, hr⟩))
  have hzA : ∀ g : List K → K, Determined L noise A (fun k => g (Zs.map (val k))) := by
    intro g k hk k' hk' hkk
    have : Zs.map (val k) = Zs.map (val k') := by
      refine List.map_congr_left (fun z hz => ?_)
      exact solves_determined hac hV hl (hsol k hk) (hsol k' hk') z (hZV z hz)
        (fun j hj hr => hkk j (Finset.mem_filter.2 ⟨hj, z, hz, hr⟩))
    show g _ = g _
    rw [this]
  have hAB : Disjoint A B := by
    rw [Finset.disjoint_left]
    intro j hjA hjB
    obtain ⟨-, z, hz, r1⟩ := Finset.mem_filter.1 hjA
    obtain ⟨-, -, r2⟩ := Finset.mem_filter.1 hjB
    have r3 : Reach (CutIn E {t}) j z := by
      have : ∀ w, Reach E j w → Reach E w z → Reach (CutIn E {t}) j w := by
        intro w hw hwz
        induction hw with
        | refl => exact .refl
        | tail h1 h2 ih =>
          refine (ih ((Relation.ReflTransGen.single h2).trans hwz)).tail ⟨h2, ?_⟩
          intro hwt
          rw [Set.mem_singleton_iff] at hwt
          subst hwt
          exact hac _ (Relation.TransGen.tail' hwz (hZ z hz).1)
      exact this z r1 .refl
    exact (dsep_empty_iff (acyclic_cutIn hac {t}) z y).1 (hZ z hz).2 ⟨j, r3, r2⟩
  have hunc : ∀ g : List K → K, covar L (fun k => g (Zs.map (val k))) rest = 0 := fun g =>
    uncorrelated_iff.1 (hind A B (Finset.filter_subset _ _) (Finset.filter_subset _ _) hAB _ _ (hzA g) hrestB)
  let mean : K := (L.map rest).sum / (L.length : K)
  let rows := L.map (ivObs t y Zs cov val)
  let e : Obs K → K := fun r => r.y - (mean + DML.dot θ (bx.rows [r.x.headD 0]))
  have he : ∀ k, e (ivObs t y Zs cov val k) = rest k - mean := by
    intro k
    simp only [e, ivObs, List.headD_cons, rest]
    ring
  have hs : ∀ g : List K → K, (L.map (fun k => g (Zs.map (val k)) * e (ivObs t y Zs cov val k))).sum = 0 := by
    intro g
    have e1 : L.map (fun k => g (Zs.map (val k)) * e (ivObs t y Zs cov val k)) =
        L.map (fun k => g (Zs.map (val k)) * rest k + (-mean) * g (Zs.map (val k))) :=
      List.map_congr_left (fun k hk => by rw [he k]; ring)
    rw [e1, list_sum_add, list_sum_smul]
    have := hunc g
    unfold covar at this
    simp only [mean]
    field_simp
    linear_combination this
  have hdes : ∀ (x v w : List K), design x (some (bv.rows v)) (adj fa.hasAdjustment w) = x ++ [1] := by
    intro x v w
    rw [hadj, hconst]
    simp [design, adj, kron_one]
  have hs1 : ∀ k, stage1 bz bv fa.hasAdjustment (ivObs t y Zs cov val k) = bz.rows (Zs.map (val k)) ++ [1] := fun k => hdes _ _ _
  set xh := fitX (rows.map (fun r => (stage1 bz bv fa.hasAdjustment r, bx.rows r.x))) with hxh
  have hrne : rows ≠ [] := by simp [rows, hL]
  have hlz : ∀ r ∈ rows, (bz.rows r.z).length = p := by
    intro r hr
    obtain ⟨k, hk, rfl⟩ := List.mem_map.1 hr
    exact hp k hk
  have hlx : ∀ r ∈ rows, (bx.rows r.x).length = m := by
    intro r hr
    obtain ⟨k, _, rfl⟩ := List.mem_map.1 hr
    exact hm _
  have hX' : IsOLSVec m (rows.map (fun r => (stage1 bz bv fa.hasAdjustment r, bx.rows r.x))) xh := by
    refine hX _ (p + 1) m (by simpa using hrne) ?_
    intro q hq
    obtain ⟨r, hr, rfl⟩ := List.mem_map.1 hq
    refine ⟨?_, hlx r hr⟩
    obtain ⟨k, hk, rfl⟩ := List.mem_map.1 hr
    dsimp only
    rw [hs1, List.length_append, hp k hk]; rfl
  have hs2 : ∀ r, stage2 bz bv fa.hasAdjustment xh r = xh (stage1 bz bv fa.hasAdjustment r) ++ [1] := fun r => hdes _ _ _
  have hY' : IsOLS (rows.map (fun r => (stage2 bz bv fa.hasAdjustment xh r, r.y)))
      (fitY (rows.map (fun r => (stage2 bz bv fa.hasAdjustment xh r, r.y)))) := by
    refine hY _ (m + 1) (by simpa using hrne) ?_
    intro q hq
    obtain ⟨r, hr, rfl⟩ := List.mem_map.1 hq
    dsimp only
    rw [hs2, List.length_append, hX'.1]; rfl
  have hstr : ∀ (x : K) (v w : List K), structural bx bv fa.hasAdjustment mean (θ.take m) [x] v w = mean + DML.dot θ (bx.rows [x]) := by
    intro x v w
    unfold structural
    rw [hdes, dot_append_right]
    have h1 : DML.dot (List.drop (bx.rows [x]).length (θ.take m)) [1] = 0 := by
      rw [hm x, List.drop_take_self]; simp [DML.dot]
    have h2 : DML.dot (θ.take m) (bx.rows [x]) = DML.dot θ (bx.rows [x]) := by
      rw [← hm x, dot_take]
    rw [h1, h2, add_zero]
  have key := fun a a' : K => C102_valid_instruments (poly := poly) (fitX := fitX) (fitY := fitY) (a := fa) (xd := 1) (rows := rows) hbx hbz hbv hcov
      one_pos hconst hlx hlz (xh := xh) rfl hX' hY' mean (θ.take m) e
      (by
        intro r hr
        obtain ⟨k, _, rfl⟩ := List.mem_map.1 hr
        show _ = structural bx bv fa.hasAdjustment mean (θ.take m) [val k t] (cov k) [] + _
        rw [hstr]
        simp only [e, ivObs, List.headD_cons]
        ring)
      (by
        intro b' c'
        show ((L.map (ivObs t y Zs cov val)).map _).sum = 0
        rw [List.map_map]
        refine Eq.trans ?_ (hs (fun z => b' + DML.dot c' (bz.rows z ++ [1])))
        congr 1
        apply List.map_congr_left
        intro k _
        simp only [Function.comp_apply]
        rw [hs1])
      (t := [a]) (c := [a']) rfl rfl
  obtain ⟨f, hf, -⟩ := key 0 0
  refine ⟨f, hf, fun d a a' => ?_⟩
  obtain ⟨f', hf', hest⟩ := key a a'
  have hff := hf.symm.trans hf'
  injection hff with hff
  rw [hff, hest d]
  · congr 1
    apply List.map_congr_left
    intro r _
    rw [hstr, hstr]
    ring
  · -- relevance
    intro r _ b1 b2 c1 c2 hag
    rw [hdes, hdes]
    rw [dot_append_right, dot_append_right, dot_append_right, dot_append_right, hm a, hm a']
    set δ := (List.range m).map (fun i => c1.getD i 0 - c2.getD i 0) with hδ
    have hda := dot_range_diff m c1 c2 (bx.rows [a]) (hm a)
    have hda' := dot_range_diff m c1 c2 (bx.rows [a']) (hm a')
    rw [← hδ] at hda hda'
    -- the predicted combination is constant
    have hC : ∃ C, ∀ k ∈ L, DML.dot δ (xh (stage1 bz bv fa.hasAdjustment (ivObs t y Zs cov val k))) = C := by
      refine ⟨b2 - b1 + DML.dot (c2.drop m) [1] - DML.dot (c1.drop m) [1], fun k hk => ?_⟩
      have := hag _ (List.mem_map.2 ⟨k, hk, rfl⟩)
      rw [hs2, dot_append_right, dot_append_right, hX'.1] at this
      rw [hδ, ← dot_range_diff m c1 c2 _ (hX'.1 _)]
      linear_combination this
    obtain ⟨C, hC⟩ := hC
    have hδl : δ.length = m := by simp [hδ]
    -- the combination is uncorrelated with all functions of the instruments
    have horth : ∀ (b : K) (c : List K), (L.map (fun k => (b + DML.dot c (bz.rows (Zs.map (val k)) ++ [1])) * (DML.dot δ (bx.rows [val k t]) - C))).sum = 0 := by
      intro b c
      have h1 : ∀ i < m, (L.map (fun k => (b + DML.dot c (bz.rows (Zs.map (val k)) ++ [1])) *
          ((bx.rows [val k t]).getD i 0 - (xh (stage1 bz bv fa.hasAdjustment (ivObs t y Zs cov val k))).getD i 0))).sum = 0 := by
        intro i hi
        have := (hX'.2 i hi).2 b c
        rw [List.map_map, show rows = L.map (ivObs t y Zs cov val) from rfl, List.map_map, List.map_map] at this
        refine Eq.trans ?_ this
        congr 1
        apply List.map_congr_left
        intro k _
        simp only [Function.comp_apply]
        rw [hs1]
        rfl
      have h2 : ∀ k ∈ L, (b + DML.dot c (bz.rows (Zs.map (val k)) ++ [1])) * (DML.dot δ (bx.rows [val k t]) - C) =
          ((List.range m).map (fun i => δ.getD i 0 * ((b + DML.dot c (bz.rows (Zs.map (val k)) ++ [1])) *
          ((bx.rows [val k t]).getD i 0 - (xh (stage1 bz bv fa.hasAdjustment (ivObs t y Zs cov val k))).getD i 0)))).sum := by
        intro k hk
        rw [← hC k hk, dot_range δ (bx.rows [val k t]), dot_range δ (xh _), hm, hX'.1]
        generalize List.range m = l
        induction l with
        | nil => simp
        | cons i l ih => simp only [List.map_cons, List.sum_cons]; rw [← ih]; ring
      rw [List.map_congr_left h2, sum_range_comm]
      apply sum_eq_zero_of
      intro i hi
      rw [list_sum_smul, h1 i (by simpa using hi), mul_zero]
    have h0 := horth 1 []
    have hU : ∀ i, Uncorrelated L (fun k => (bz.rows (Zs.map (val k))).getD i 0) (fun k => DML.dot δ (bx.rows [val k t])) := by
      intro i
      by_cases hi : i < p
      · have hi' := horth 0 (List.replicate i 0 ++ [1])
        have e1 : L.map (fun k => (0 + DML.dot (List.replicate i 0 ++ [1]) (bz.rows (Zs.map (val k)) ++ [1])) * (DML.dot δ (bx.rows [val k t]) - C)) =
            L.map (fun k => (bz.rows (Zs.map (val k))).getD i 0 * DML.dot δ (bx.rows [val k t]) + (-C) * (bz.rows (Zs.map (val k))).getD i 0) := by
          refine List.map_congr_left (fun k hk => ?_)
          rw [dot_pick]
          have : (bz.rows (Zs.map (val k)) ++ [1]).getD i 0 = (bz.rows (Zs.map (val k))).getD i 0 := by
            simp only [List.getD_eq_getElem?_getD]
            rw [List.getElem?_append_left (by rw [hp k hk]; exact hi)]
          rw [this]; ring
        have e2 : L.map (fun k => (1 + DML.dot [] (bz.rows (Zs.map (val k)) ++ [1])) * (DML.dot δ (bx.rows [val k t]) - C)) =
            L.map (fun k => DML.dot δ (bx.rows [val k t]) + (-C) * 1) := by
          refine List.map_congr_left (fun k _ => ?_)
          simp [DML.dot]; ring
        rw [e1, list_sum_add, list_sum_smul] at hi'
        rw [e2, list_sum_add, list_sum_smul] at h0
        simp only [List.map_const', List.sum_replicate, nsmul_eq_mul, mul_one] at h0
        unfold Uncorrelated
        linear_combination (L.length : K) * hi' - (L.map (fun k => (bz.rows (Zs.map (val k))).getD i 0)).sum * h0
      · have : L.map (fun k => (bz.rows (Zs.map (val k))).getD i 0) = L.map (fun _ => 0) := by
          refine List.map_congr_left (fun k hk => ?_)
          simp only [List.getD_eq_getElem?_getD]
          rw [List.getElem?_eq_none (by rw [hp k hk]; omega)]; rfl
        have h2 : L.map (fun k => (bz.rows (Zs.map (val k))).getD i 0 * DML.dot δ (bx.rows [val k t])) = L.map (fun _ => 0) := by
          refine List.map_congr_left (fun k hk => ?_)
          simp only [List.getD_eq_getElem?_getD]
          rw [List.getElem?_eq_none (by rw [hp k hk]; omega)]; simp
        unfold Uncorrelated
        rw [this, h2]
        simp
    have := hrel δ hU a a'
    linear_combination hda - hda' + this

/-- **C144, any bases and any mechanisms**: instruments found by `get_iv`; every variable an arbitrary function of its parents and its own noise (latent
variables included, the treatment may be confounded); independent noise terms; an effect of the treatment on the outcome that is the same for everybody and a
combination of the functions in the treatment basis; and instruments strong enough to tell the functions of the treatment basis apart. Then two-stage least
squares with these bases answers, in every query row, exactly by how much the outcome of any individual changes when the treatment is set to `a` instead of
`a'`. -/
theorem C144_any_basis (c : Causation α) (A : List (α × α)) (hD : IsDict c) (h : IsDiagram c A U) :
    ∃ G, IsExplicit c A U G ∧ ∀ (t y : α) (r : Option (List α)), getIV (CG.init c A) t y = .ok r → t ≠ y → Reach G t y →
      ∀ (Zs : List α), (∀ z ∈ Zs, z ∈ r.getD []) →
      ∀ (V : Finset α), (∀ a b, G a b → a ∈ V ∧ b ∈ V) →
      ∀ (K I : Type) [Field K] [LinearOrder K] [IsStrictOrderedRing K] (mech : α → (α → K) → K → K), Local G mech →
      ∀ (L : List I) (noise val : I → α → K), L ≠ [] → (∀ k ∈ L, MechSolves V mech (noise k) (val k)) → IndependentNoise L V noise →
      ∀ (cov : I → List K) (poly : Nat → List K → List K) (fa : FitArgs K) (bx bz bv : Basis K),
      basisOf poly fa.treatmentBasis = .ok (some bx) → basisOf poly fa.instrumentBasis = .ok (some bz) →
      covarBasisOf poly fa.covarBasis = .ok (some bv) → fa.hasAdjustment = false → fa.hasCovariate = true → (∀ v : List K, bv.rows v = [1]) →
      ∀ (m p : Nat), (∀ x : K, (bx.rows [x]).length = m) → (∀ k ∈ L, (bz.rows (Zs.map (val k))).length = p) →
      ∀ θ : List K, (∀ u v v' a a', MechSolvesDo V mech t a u v → MechSolvesDo V mech t a' u v' →
        v y - v' y = DML.dot θ (bx.rows [a]) - DML.dot θ (bx.rows [a'])) →
      (∀ δ : List K, (∀ i, Uncorrelated L (fun k => (bz.rows (Zs.map (val k))).getD i 0) (fun k => DML.dot δ (bx.rows [val k t]))) →
        ∀ a a', DML.dot δ (bx.rows [a]) = DML.dot δ (bx.rows [a'])) →
      ∀ (fitX : List (List K × List K) → List K → List K) (fitY : List (List K × K) → List K → K), FitsLSVec fitX → FitsLS fitY →
      ∃ f, fit poly fitX fitY fa none 1 (L.map (ivObs t y Zs cov val)) = .ok f ∧
        ∀ (d : List (Obs K)) (a a' : K), ∃ eff, estimate f (some d) (some [a]) (some [a']) .none = .ok (d.map (fun _ => eff)) ∧
          (∀ u v v' : α → K, MechSolvesDo V mech t a u v → MechSolvesDo V mech t a' u v' → v y - v' y = eff) ∧
          ∀ u : α → K, ∃ v v', MechSolvesDo V mech t a u v ∧ MechSolvesDo V mech t a' u v' := by
  obtain ⟨G, hE, hm⟩ := C24_get_iv_partial c A hD h
  refine ⟨G, hE, fun t y r hok hty hr Zs hZs V hV K I _ _ _ mech hl L noise val hL hsol hind cov poly fa bx bz bv hbx hbz hbv hadj hcov hconst m p hm'
    hp θ hsep hrel fitX fitY hX hY => ?_⟩
  have hzt : ∀ z ∈ Zs, G z t ∧ DSep (CutIn G {t}) {z} {y} ∅ := by
    intro z hz
    obtain ⟨hp, hs⟩ := (hm t y r hok hty hr z).1 (hZs z hz)
    have hzl : ∀ i, z ≠ U i := by
      rintro i rfl
      exact (h.fresh i).2.1 ⟨t, .inr hp⟩
    exact ⟨(hE.observed z t hzl).2 hp, hs⟩
  have hyV : y ∈ V := by
    rcases Relation.ReflTransGen.cases_tail hr with e | ⟨w, _, hw⟩
    · exact absurd e.symm hty
    · exact (hV _ _ hw).2
  obtain ⟨f, hf, he⟩ := iv_effect_any hE.acyclic hV hl hyV (fun z hz => (hV _ _ (hzt z hz).1).1) hzt hL hsol hind cov hbx hbz hbv hadj hcov hconst hm' hp
    θ hsep hrel hX hY
  refine ⟨f, hf, fun d a a' => ⟨_, he d a a', fun u v v' h1 h2 => hsep u v v' a a' h1 h2, fun u => ?_⟩⟩
  obtain ⟨v, hv⟩ := solvesDo_exists (V := V) hE.acyclic hl t a u
  obtain ⟨v', hv'⟩ := solvesDo_exists (V := V) hE.acyclic hl t a' u
  exact ⟨v, v', hv, hv'⟩

end main2

/-! ### Non-vacuity: a quadratic effect, bases of degree two -/

/-- `x = z + U0`, `y = x² + U0` -/
def quadMech (i : String) (v : String → ℚ) (u : ℚ) : ℚ :=
  if i = "x" then v "z" + v "U0" + u else if i = "y" then v "x" * v "x" + v "U0" + u else u

def quadVal (k : ℚ × ℚ) (i : String) : ℚ :=
  if i = "z" then k.1 else if i = "U0" then k.2 else if i = "x" then k.1 + k.2 else if i = "y" then (k.1 + k.2) * (k.1 + k.2) + k.2 else 0

/-- six individuals: the instrument takes three values, the confounder two -/
def quadPeople : List (ℚ × ℚ) := [(0, 0), (0, 1), (1, 0), (1, 1), (2, 0), (2, 1)]

def quadPoly (d : Nat) (l : List ℚ) : List ℚ := if d = 0 then [1] else 1 :: (l ++ l.map (fun x => x * x))

def quadArgs : FitArgs ℚ := ⟨.tuple "Poly" 2, .tuple "Poly" 2, .tuple "Poly" 0, false, true⟩

theorem quad_independent : IndependentNoise quadPeople ["z", "x", "y", "U0"].toFinset ivNoise := by
  intro A B _ _ hAB X Y hX hY
  rw [Finset.disjoint_left] at hAB
  have key : ∀ (S : Finset String) (W : ℚ × ℚ → ℚ), Determined quadPeople ivNoise S W →
      ("U0" ∉ S → ∀ a ∈ [(0 : ℚ), 1, 2], W (a, 0) = W (a, 1)) ∧
      ("z" ∉ S → ∀ u ∈ [(0 : ℚ), 1], W (0, u) = W (1, u) ∧ W (1, u) = W (2, u)) := by
    intro S W hW
    constructor
    · intro hS a ha
      have hmem : (a, 0) ∈ quadPeople ∧ (a, 1) ∈ quadPeople := by
        simp only [List.mem_cons, List.not_mem_nil, or_false] at ha
        rcases ha with rfl | rfl | rfl <;> decide +kernel
      refine hW _ hmem.1 _ hmem.2 (fun j hj => ?_)
      unfold ivNoise
      by_cases hj' : j = "U0"
      · exact absurd (hj' ▸ hj) hS
      · simp [hj']
    · intro hS u hu
      have hmem : ∀ a ∈ [(0 : ℚ), 1, 2], (a, u) ∈ quadPeople := by
        intro a ha
        simp only [List.mem_cons, List.not_mem_nil, or_false] at ha hu
        rcases ha with rfl | rfl | rfl <;> rcases hu with rfl | rfl <;> decide +kernel
      have hn : ∀ a b : ℚ, ∀ j ∈ S, ivNoise (a, u) j = ivNoise (b, u) j := by
        intro a b j hj
        unfold ivNoise
        by_cases hj' : j = "z"
        · exact absurd (hj' ▸ hj) hS
        · simp [hj']
      exact ⟨hW _ (hmem 0 (by simp)) _ (hmem 1 (by simp)) (hn 0 1), hW _ (hmem 1 (by simp)) _ (hmem 2 (by simp)) (hn 1 2)⟩
  have hx := key A X hX
  have hy := key B Y hY
  have unc : ∀ X Y : ℚ × ℚ → ℚ, (∀ a ∈ [(0 : ℚ), 1, 2], X (a, 0) = X (a, 1)) →
      (∀ u ∈ [(0 : ℚ), 1], Y (0, u) = Y (1, u) ∧ Y (1, u) = Y (2, u)) →
      Uncorrelated quadPeople X Y ∧ Uncorrelated quadPeople Y X := by
    intro X Y h1 h2
    have x0 := h1 0 (by simp)
    have x1 := h1 1 (by simp)
    have x2 := h1 2 (by simp)
    obtain ⟨y0, y0'⟩ := h2 0 (by simp)
    obtain ⟨y1, y1'⟩ := h2 1 (by simp)
    unfold Uncorrelated quadPeople
    simp only [List.map_cons, List.map_nil, List.sum_cons, List.sum_nil, List.length_cons, List.length_nil, Nat.cast_succ, Nat.cast_zero,
      x0, x1, x2, y0, y0', y1, y1']
    constructor <;> ring
  have const : ∀ X Y : ℚ × ℚ → ℚ, (∀ a ∈ [(0 : ℚ), 1, 2], X (a, 0) = X (a, 1)) →
      (∀ u ∈ [(0 : ℚ), 1], X (0, u) = X (1, u) ∧ X (1, u) = X (2, u)) →
      Uncorrelated quadPeople X Y ∧ Uncorrelated quadPeople Y X := by
    intro X Y h1 h2
    have x0 := h1 0 (by simp)
    have x1 := h1 1 (by simp)
    have x2 := h1 2 (by simp)
    obtain ⟨y0, y0'⟩ := h2 0 (by simp)
    obtain ⟨y1, y1'⟩ := h2 1 (by simp)
    unfold Uncorrelated quadPeople
    simp only [List.map_cons, List.map_nil, List.sum_cons, List.sum_nil, List.length_cons, List.length_nil, Nat.cast_succ, Nat.cast_zero,
      x0, x1, x2, y0, y0', y1, y1']
    constructor <;> ring
  by_cases hz : "z" ∈ A
  · by_cases hu : "U0" ∈ A
    · exact (const Y X (hy.1 (hAB hu)) (hy.2 (hAB hz))).2
    · exact (unc X Y (hx.1 hu) (hy.2 (hAB hz))).1
  · by_cases hu : "U0" ∈ A
    · exact (unc Y X (hy.1 (hAB hu)) (hx.2 hz)).2
    · exact (const X Y (hx.1 hu) (hx.2 hz)).1

/-- all hypotheses of C144_any_basis about the data hold of this example -/
example : Local ivDiagram.explicitDag.E quadMech ∧ (∀ k ∈ quadPeople, MechSolves ["z", "x", "y", "U0"].toFinset quadMech (ivNoise k) (quadVal k)) ∧
    IndependentNoise quadPeople ["z", "x", "y", "U0"].toFinset ivNoise ∧
    basisOf quadPoly quadArgs.treatmentBasis = .ok (some ⟨quadPoly 2, false⟩) ∧ covarBasisOf quadPoly quadArgs.covarBasis = .ok (some ⟨quadPoly 0, false⟩) ∧
    (∀ v : List ℚ, quadPoly 0 v = [1]) ∧ (∀ x : ℚ, (quadPoly 2 [x]).length = 3) ∧
    (∀ u v v' a a', MechSolvesDo ["z", "x", "y", "U0"].toFinset quadMech "x" a u v → MechSolvesDo ["z", "x", "y", "U0"].toFinset quadMech "x" a' u v' →
        v "y" - v' "y" = DML.dot [0, 0, 1] (quadPoly 2 [a]) - DML.dot [0, 0, 1] (quadPoly 2 [a'])) ∧
    (∀ δ : List ℚ, (∀ i, Uncorrelated quadPeople (fun k => (quadPoly 2 (["z"].map (quadVal k))).getD i 0)
        (fun k => DML.dot δ (quadPoly 2 [quadVal k "x"]))) → ∀ a a', DML.dot δ (quadPoly 2 [a]) = DML.dot δ (quadPoly 2 [a'])) := by
  have hed : ivDiagram.explicitDag.edges = [("z", "x", .num 0), ("x", "y", .num 0), ("U0", "x", .n), ("U0", "y", .n)] := by decide +kernel
  have hE : ∀ a b, (a, b) ∈ [("z", "x"), ("x", "y"), ("U0", "x"), ("U0", "y")] → ivDiagram.explicitDag.E a b := by
    intro a b hk
    unfold MDG.E
    rw [hed]
    simp only [List.mem_cons, Prod.mk.injEq, List.not_mem_nil, or_false] at hk
    rcases hk with ⟨rfl, rfl⟩ | ⟨rfl, rfl⟩ | ⟨rfl, rfl⟩ | ⟨rfl, rfl⟩
    · exact ⟨.num 0, by simp⟩
    · exact ⟨.num 0, by simp⟩
    · exact ⟨.n, by simp⟩
    · exact ⟨.n, by simp⟩
  refine ⟨fun i v v' u hv => ?_, ?_, quad_independent, rfl, rfl, fun _ => rfl, fun _ => rfl, fun u v v' a a' h1 h2 => ?_, fun δ hδ a a' => ?_⟩
  · unfold quadMech
    by_cases hi : i = "x"
    · subst hi
      rw [if_pos rfl, if_pos rfl, hv "z" (hE _ _ (by simp)), hv "U0" (hE _ _ (by simp))]
    · rw [if_neg hi, if_neg hi]
      by_cases hi' : i = "y"
      · subst hi'
        rw [if_pos rfl, if_pos rfl, hv "x" (hE _ _ (by simp)), hv "U0" (hE _ _ (by simp))]
      · rw [if_neg hi', if_neg hi']
  · unfold MechSolves; decide +kernel
  · have e1 := h1.2 "y" (by simp) (by decide)
    have e2 := h2.2 "y" (by simp) (by decide)
    have e3 := h1.2 "U0" (by simp) (by decide)
    have e4 := h2.2 "U0" (by simp) (by decide)
    simp only [quadMech, String.reduceEq, if_false, if_true] at e1 e2 e3 e4
    rw [e1, e2, h1.1, h2.1, e3, e4]
    simp [DML.dot, quadPoly]
  · have d1 := hδ 1
    have d2 := hδ 2
    unfold Uncorrelated quadPeople at d1 d2
    have hd : ∀ x : ℚ, DML.dot δ (quadPoly 2 [x]) = δ.getD 0 0 + δ.getD 1 0 * x + δ.getD 2 0 * (x * x) := by
      intro x
      rw [dot_range]
      simp [quadPoly, List.range_succ]; ring
    simp only [hd] at d1 d2 ⊢
    simp [quadPoly, quadVal] at d1 d2
    have e1 : δ.getD 1 0 = 0 := by simp; linarith
    have e2 : δ.getD 2 0 = 0 := by simp; linarith
    rw [e1, e2]; ring

end YL.Props
