import Verif.Props.IV
import Verif.Props.TwoStage
import Verif.Props.DmlBias

/-!
# C144: from `get_iv` to the effect `NP2SLS` returns

A linear causal model of the diagram: every variable, latent ones included, is a linear function of its parents plus a noise term of its own; the
noise terms of different variables are uncorrelated in the sample.
-/

set_option linter.unusedSectionVars false

namespace YL.Spec

variable {α K I : Type} [DecidableEq α] [Field K]

/-- the values of one individual satisfy the linear equations with coefficients `b` (`b i j` belongs to `i → j`) -/
def LinSolves (V : Finset α) (b : α → α → K) (noise val : α → K) : Prop := ∀ i ∈ V, val i = noise i + ∑ j ∈ V, b j i * val j

/-- the values of the same individual when `t` is set to `a` by intervention -/
def LinSolvesDo (V : Finset α) (b : α → α → K) (t : α) (a : K) (noise val : α → K) : Prop :=
  val t = a ∧ ∀ i ∈ V, i ≠ t → val i = noise i + ∑ j ∈ V, b j i * val j

/-- two quantities have covariance zero in the sample -/
def Uncorrelated (L : List I) (f g : I → K) : Prop := (L.length : K) * (L.map (fun k => f k * g k)).sum = (L.map f).sum * (L.map g).sum

end YL.Spec

namespace YL.Props

open YL Spec LatentNames TwoStage

section linear
variable {α K I : Type} [DecidableEq α] [Field K]

/-- a variable is a linear combination of the noise terms of its ancestors -/
theorem sem_linear {V : Finset α} {E : α → α → Prop} (hac : Acyclic E) {b : α → α → K} (hb : ∀ i j, b i j ≠ 0 → E i j) :
    ∀ i ∈ V, ∃ c : α → K, (∀ j, c j ≠ 0 → Reach E j i) ∧ ∀ noise val, LinSolves V b noise val → val i = ∑ j ∈ V, c j * noise j := by
  classical
  intro i hi
  induction hn : (V.filter (fun a => Relation.TransGen E a i)).card using Nat.strong_induction_on generalizing i with
  | _ n ih =>
    have step : ∀ j, ∃ c : α → K, j ∈ V → b j i ≠ 0 →
        (∀ k, c k ≠ 0 → Reach E k j) ∧ ∀ noise val, LinSolves V b noise val → val j = ∑ k ∈ V, c k * noise k := by
      intro j
      by_cases hj : j ∈ V ∧ b j i ≠ 0
      · have hlt : (V.filter (fun a => Relation.TransGen E a j)).card < n := by
          rw [← hn]
          refine Finset.card_lt_card ⟨fun a ha => ?_, fun hsub => ?_⟩
          · rw [Finset.mem_filter] at ha ⊢
            exact ⟨ha.1, ha.2.tail (hb j i hj.2)⟩
          · have := hsub (Finset.mem_filter.2 ⟨hj.1, .single (hb j i hj.2)⟩)
            exact hac j (Finset.mem_filter.1 this).2
        obtain ⟨c, hc⟩ := ih _ hlt j hj.1 rfl
        exact ⟨c, fun _ _ => hc⟩
      · exact ⟨0, fun h1 h2 => absurd ⟨h1, h2⟩ hj⟩
    choose C hC using step
    refine ⟨fun k => (if k = i then 1 else 0) + ∑ j ∈ V, b j i * C j k, fun k hk => ?_, fun noise val hs => ?_⟩
    · by_cases hki : k = i
      · subst hki; exact .refl
      · beta_reduce at hk
        rw [if_neg hki, zero_add] at hk
        obtain ⟨j, hj, hne⟩ := Finset.exists_ne_zero_of_sum_ne_zero hk
        have hbj : b j i ≠ 0 := left_ne_zero_of_mul hne
        exact ((hC j hj hbj).1 k (right_ne_zero_of_mul hne)).tail (hb j i hbj)
    · rw [hs i hi]
      have e : ∀ j ∈ V, b j i * val j = ∑ k ∈ V, b j i * C j k * noise k := by
        intro j hj
        by_cases hbj : b j i = 0
        · simp [hbj]
        · rw [(hC j hj hbj).2 noise val hs, Finset.mul_sum]
          exact Finset.sum_congr rfl (fun k _ => by ring)
      rw [Finset.sum_congr rfl e, Finset.sum_comm]
      simp only [add_mul, Finset.sum_add_distrib, ite_mul, one_mul, zero_mul, Finset.sum_ite_eq', hi, if_true, Finset.sum_mul]

/-- covariance times the square of the sample size -/
def covar (L : List I) (f g : I → K) : K := (L.length : K) * (L.map (fun k => f k * g k)).sum - (L.map f).sum * (L.map g).sum

theorem uncorrelated_iff {L : List I} {f g : I → K} : Uncorrelated L f g ↔ covar L f g = 0 := by
  unfold Uncorrelated covar
  exact sub_eq_zero.symm

theorem list_sum_add (L : List I) (f g : I → K) : (L.map (fun k => f k + g k)).sum = (L.map f).sum + (L.map g).sum := by
  induction L with
  | nil => simp
  | cons k L ih => simp [ih]; ring

theorem list_sum_smul (L : List I) (c : K) (f : I → K) : (L.map (fun k => c * f k)).sum = c * (L.map f).sum := by
  induction L with
  | nil => simp
  | cons k L ih => simp [ih]; ring

theorem covar_comm (L : List I) (f g : I → K) : covar L f g = covar L g f := by
  unfold covar
  rw [mul_comm (L.map f).sum, show (fun k => f k * g k) = fun k => g k * f k from funext fun k => mul_comm _ _]

theorem covar_sum (L : List I) (V : Finset α) (c : α → K) (f : α → I → K) (g : I → K) :
    covar L (fun k => ∑ j ∈ V, c j * f j k) g = ∑ j ∈ V, c j * covar L (f j) g := by
  induction V using Finset.induction_on with
  | empty => simp [covar]
  | insert a V ha ih =>
    rw [Finset.sum_insert ha, ← ih]
    simp only [Finset.sum_insert ha]
    unfold covar
    rw [list_sum_add, list_sum_smul]
    have : (fun k => (c a * f a k + ∑ j ∈ V, c j * f j k) * g k) = fun k => c a * (f a k * g k) + (∑ j ∈ V, c j * f j k) * g k := by
      funext k; ring
    rw [this, list_sum_add, list_sum_smul]
    ring

/-- linear combinations of uncorrelated noise terms without a common term are uncorrelated -/
theorem covar_disjoint {L : List I} {V : Finset α} {noise : I → α → K}
    (hu : ∀ i ∈ V, ∀ j ∈ V, i ≠ j → Uncorrelated L (fun k => noise k i) (fun k => noise k j)) {c d : α → K} (h : ∀ j, c j * d j = 0) :
    covar L (fun k => ∑ j ∈ V, c j * noise k j) (fun k => ∑ j ∈ V, d j * noise k j) = 0 := by
  rw [covar_sum L V c (fun j k => noise k j)]
  refine Finset.sum_eq_zero (fun i hi => ?_)
  rw [covar_comm, covar_sum L V d (fun j k => noise k j), Finset.mul_sum]
  refine Finset.sum_eq_zero (fun j hj => ?_)
  by_cases hij : i = j
  · subst hij
    rw [← mul_assoc, h, zero_mul]
  · rw [uncorrelated_iff.1 (hu j hj i hi (Ne.symm hij))]
    ring

/-- the effect of an intervention: the outcome of an individual is a part without `t` plus `τ` times the value of `t`, the value it has by itself or by
intervention; an instrument is uncorrelated with the part without `t`. -/
theorem instrument_linear {V : Finset α} {E : α → α → Prop} (hac : Acyclic E) {b : α → α → K} (hb : ∀ i j, b i j ≠ 0 → E i j) {t y : α} (ht : t ∈ V)
    (hy : y ∈ V) :
    ∃ (τ : K) (d : α → K), d t = 0 ∧ (∀ j, d j ≠ 0 → Reach (CutIn E {t}) j y) ∧
      (∀ noise val, LinSolves V b noise val → val y = ∑ j ∈ V, d j * noise j + τ * val t) ∧
      ∀ noise val a, LinSolvesDo V b t a noise val → val y = ∑ j ∈ V, d j * noise j + τ * a := by
  let b' : α → α → K := fun i j => if j = t then 0 else b i j
  have hb' : ∀ i j, b' i j ≠ 0 → CutIn E {t} i j := by
    intro i j h
    by_cases hj : j = t
    · simp [b', hj] at h
    · exact ⟨hb i j (by simpa [b', hj] using h), by simpa using hj⟩
  obtain ⟨c, hc1, hc2⟩ := sem_linear (acyclic_cutIn hac {t}) hb' y hy
  have hdo : ∀ noise val a, LinSolvesDo V b t a noise val → val y = ∑ j ∈ V, (if j = t then 0 else c j) * noise j + c t * a := by
    intro noise val a ⟨h1, h2⟩
    have hs : LinSolves V b' (Function.update noise t a) val := by
      intro i hi
      by_cases hit : i = t
      · subst hit
        simp [b', h1]
      · rw [Function.update_of_ne hit, h2 i hi hit]
        simp [b', hit]
    rw [hc2 _ _ hs, ← Finset.sum_erase_add V _ ht, ← Finset.sum_erase_add (f := fun j => (if j = t then 0 else c j) * noise j) V ht]
    simp only [Function.update_self, if_true, zero_mul, add_zero]
    congr 1
    refine Finset.sum_congr rfl (fun j hj => ?_)
    rw [Function.update_of_ne (Finset.ne_of_mem_erase hj), if_neg (Finset.ne_of_mem_erase hj)]
  refine ⟨c t, fun j => if j = t then 0 else c j, by simp, fun j hj => ?_, fun noise val hs => ?_, hdo⟩
  · by_cases h : j = t
    · simp [h] at hj
    · exact hc1 j (by simpa [h] using hj)
  · exact hdo noise val (val t) ⟨rfl, fun i hi _ => hs i hi⟩

/-- a combination of features that are orthogonal to `e` is orthogonal to `e` -/
theorem orth_features (L : List I) (gs : List (I → K)) (e : I → K) (h0 : (L.map e).sum = 0) (h : ∀ g ∈ gs, (L.map (fun k => g k * e k)).sum = 0)
    (b : K) (c : List K) : (L.map (fun k => (b + DML.dot c (gs.map (fun g => g k))) * e k)).sum = 0 := by
  induction gs generalizing c with
  | nil =>
    have : (fun k => (b + DML.dot c (([] : List (I → K)).map (fun g => g k))) * e k) = fun k => b * e k := by
      funext k; simp [DML.dot]
    rw [this, list_sum_smul, h0, mul_zero]
  | cons g gs ih =>
    cases c with
    | nil =>
      have : (fun k => (b + DML.dot [] ((g :: gs).map (fun g => g k))) * e k) = fun k => b * e k := by
        funext k; simp [DML.dot]
      rw [this, list_sum_smul, h0, mul_zero]
    | cons x c =>
      have : (fun k => (b + DML.dot (x :: c) ((g :: gs).map (fun g => g k))) * e k) =
          fun k => x * (g k * e k) + (b + DML.dot c (gs.map (fun g => g k))) * e k := by
        funext k
        simp [DML.dot]
        ring
      rw [this, list_sum_add, list_sum_smul, h g List.mem_cons_self, ih (fun g' hg' => h g' (List.mem_cons_of_mem _ hg'))]
      simp

theorem dot_pick (i : Nat) (l : List K) : DML.dot (List.replicate i 0 ++ [1]) l = l.getD i 0 := by
  induction i generalizing l with
  | zero => cases l <;> simp [DML.dot]
  | succ i ih =>
    cases l with
    | nil => simp [DML.dot]
    | cons x l =>
      have := ih l
      unfold DML.dot at this ⊢
      rw [List.replicate_succ, List.cons_append, List.zipWith_cons_cons, List.sum_cons, this]
      simp

end linear

/-! ### Least squares -/

section ls
variable {K : Type} [Field K] [DecidableEq K] [LinearOrder K] [IsStrictOrderedRing K]

/-- the model of the second stage is fitted by least squares -/
def FitsLS (fitY : List (List K × K) → List K → K) : Prop :=
  ∀ data n, data ≠ [] → (∀ p ∈ data, p.1.length = n) → IsOLS data (fitY data)

/-- the model of the first stage is fitted by least squares, every target column by itself -/
def FitsLSVec (fitX : List (List K × List K) → List K → List K) : Prop :=
  ∀ data n m, data ≠ [] → (∀ p ∈ data, p.1.length = n ∧ p.2.length = m) → IsOLSVec m data (fitX data)

theorem isOLS_exists (data : List (List K × K)) (n : Nat) (h : ∀ p ∈ data, p.1.length = n) : ∃ f, IsOLS data f := by
  obtain ⟨coef, hl, c, h1, h2⟩ := solves_exists data n h
  have e : ∀ p : List K × K, p.2 - (c + DML.dot coef p.1) = p.2 - c - DML.dot p.1 coef := by
    intro p; rw [dot_comm]; ring
  refine ⟨fun r => c + DML.dot coef r, isOLS_of_columns n ⟨c, coef, fun _ => rfl⟩ h ?_ ?_⟩
  · simp only [e]; exact h1
  · intro k hk
    simp only [e]
    have := h2 ((List.range n).map (fun j => if j = k then 1 else 0)) (by simp)
    refine Eq.trans ?_ this
    congr 1
    apply List.map_congr_left
    intro p hp
    congr 1
    rw [dot_fin (h p hp) (by simp), Finset.sum_eq_single ⟨k, hk⟩]
    · simp [hk]
    · intro j _ hj
      have : (j : Nat) ≠ k := fun e => hj (Fin.ext e)
      simp [j.2, this]
    · intro h; exact absurd (Finset.mem_univ _) h

/-- least squares fits exist over every ordered field -/
theorem fitsLS_exists : (∃ fitY : List (List K × K) → List K → K, FitsLS fitY) ∧
    ∃ fitX : List (List K × List K) → List K → List K, FitsLSVec fitX := by
  classical
  have h1 : ∃ fitY : List (List K × K) → List K → K, ∀ data n, (∀ p ∈ data, p.1.length = n) → IsOLS data (fitY data) := by
    refine ⟨fun data => if h : ∃ f, IsOLS data f then Classical.choose h else fun _ => 0, fun data n hd => ?_⟩
    have h := isOLS_exists data n hd
    simp only [dif_pos h]
    exact Classical.choose_spec h
  obtain ⟨fitY, hY⟩ := h1
  refine ⟨⟨fitY, fun data n _ => hY data n⟩, ?_⟩
  refine ⟨fun data r => (List.range ((data.map (fun p => p.2.length)).headD 0)).map (fun k => fitY (data.map (fun p => (p.1, p.2.getD k 0))) r), ?_⟩
  intro data n m hne hd
  have hm : (data.map (fun p => p.2.length)).headD 0 = m := by
    cases data with
    | nil => exact absurd rfl hne
    | cons p data => exact (hd p List.mem_cons_self).2
  beta_reduce
  rw [hm]
  refine ⟨fun r => by simp, fun k hk => ?_⟩
  have : (fun r => ((List.range m).map (fun k => fitY (data.map (fun p => (p.1, p.2.getD k 0))) r)).getD k 0) =
      fitY (data.map (fun p => (p.1, p.2.getD k 0))) := by
    funext r
    simp [hk]
  rw [this]
  apply hY _ n
  intro p hp
  obtain ⟨q, hq, rfl⟩ := List.mem_map.1 hp
  exact (hd q hq).1

end ls

/-! ### The theorem -/

section main
variable {α : Type} [DecidableEq α] [LatentNames α] {K I : Type} [Field K] [LinearOrder K] [IsStrictOrderedRing K]

/-- the row of an individual in the data: treatment, instruments, no adjustment, covariates, outcome -/
def ivObs (t y : α) (Zs : List α) (cov : I → List K) (val : I → α → K) (k : I) : Obs K := ⟨[val k t], Zs.map (val k), [], cov k, val k y⟩

/-- linear treatment and instrument bases, no effect modification by the covariates -/
def ivLinear : FitArgs K := ⟨.tuple "Poly" 1, .tuple "Poly" 1, .tuple "Poly" 0, false, true⟩

theorem iv_effect {V : Finset α} {E : α → α → Prop} (hac : Acyclic E) {b : α → α → K} (hb : ∀ i j, b i j ≠ 0 → E i j) {t y : α} (ht : t ∈ V)
    (hy : y ∈ V) {Zs : List α} (hZV : ∀ z ∈ Zs, z ∈ V) (hZ : ∀ z ∈ Zs, E z t ∧ DSep (CutIn E {t}) {z} {y} ∅)
    {L : List I} {noise val : I → α → K} (hsol : ∀ k ∈ L, LinSolves V b (noise k) (val k))
    (hunc : ∀ i ∈ V, ∀ j ∈ V, i ≠ j → Uncorrelated L (fun k => noise k i) (fun k => noise k j))
    (hrel : ∃ z ∈ Zs, ¬ Uncorrelated L (fun k => val k z) (fun k => val k t)) (cov : I → List K)
    {poly : Nat → List K → List K} (hp1 : ∀ l, poly 1 l = 1 :: l) (hp0 : ∀ l, poly 0 l = [1])
    {fitX : List (List K × List K) → List K → List K} {fitY : List (List K × K) → List K → K} (hX : FitsLSVec fitX) (hY : FitsLS fitY) :
    ∃ f, fit poly fitX fitY ivLinear none 1 (L.map (ivObs t y Zs cov val)) = .ok f ∧
      ∀ (d : List (Obs K)) (a a' : K), ∃ eff, estimate f (some d) (some [a]) (some [a']) .none = .ok (d.map (fun _ => eff)) ∧
        ∀ (u v v' : α → K), LinSolvesDo V b t a u v → LinSolvesDo V b t a' u v' → v y - v' y = eff := by
  classical
  obtain ⟨τ, dd, hdt, hdr, hd1, hd2⟩ := instrument_linear hac hb ht hy
  have hn : (L.length : K) ≠ 0 := by
    rw [Nat.cast_ne_zero]
    intro h
    obtain ⟨z, _, hz⟩ := hrel
    apply hz
    rw [List.length_eq_zero_iff.1 h]
    simp [Uncorrelated]
  have hLne : L ≠ [] := fun h => hn (by simp [h])
  -- the part of the outcome without `t`
  let rest : I → K := fun k => ∑ j ∈ V, dd j * noise k j
  have hrest : ∀ z ∈ Zs, covar L (fun k => val k z) rest = 0 := by
    intro z hz
    obtain ⟨c, hc1, hc2⟩ := sem_linear hac hb z (hZV z hz)
    have e : covar L (fun k => val k z) rest = covar L (fun k => ∑ j ∈ V, c j * noise k j) rest := by
      unfold covar
      have e1 : L.map (fun k => val k z) = L.map (fun k => ∑ j ∈ V, c j * noise k j) :=
        List.map_congr_left (fun k hk => hc2 _ _ (hsol k hk))
      have e2 : L.map (fun k => val k z * rest k) = L.map (fun k => (∑ j ∈ V, c j * noise k j) * rest k) :=
        List.map_congr_left (fun k hk => by rw [hc2 _ _ (hsol k hk)])
      rw [e1, e2]
    rw [e]
    apply covar_disjoint hunc
    intro j
    by_contra hne
    have r1 := hc1 j (left_ne_zero_of_mul hne)
    have r2 := hdr j (right_ne_zero_of_mul hne)
    have r3 : Reach (CutIn E {t}) j z := by
      have : ∀ w, Reach E j w → Reach E w z → Reach (CutIn E {t}) j w := by
        intro w hw hwz
        induction hw with
        | refl => exact .refl
        | tail h1 h2 ih =>
          refine (ih ((Relation.ReflTransGen.single h2).trans hwz)).tail ⟨h2, ?_⟩
          intro hwt
          rw [Set.mem_singleton_iff] at hwt
          subst hwt
          exact hac _ (Relation.TransGen.tail' hwz (hZ z hz).1)
      exact this z r1 .refl
    exact (dsep_empty_iff (acyclic_cutIn hac {t}) z y).1 (hZ z hz).2 ⟨j, r3, r2⟩
  let mean : K := (L.map rest).sum / (L.length : K)
  let rows := L.map (ivObs t y Zs cov val)
  let e : Obs K → K := fun r => r.y - (mean + τ * r.x.headD 0)
  have he : ∀ k ∈ L, e (ivObs t y Zs cov val k) = rest k - mean := by
    intro k hk
    simp only [e, ivObs, List.headD_cons, hd1 _ _ (hsol k hk), rest]
    ring
  have hs0 : (L.map (fun k => e (ivObs t y Zs cov val k))).sum = 0 := by
    rw [List.map_congr_left he]
    have : (fun k => rest k - mean) = fun k => rest k + (-mean) * 1 := by funext k; ring
    rw [this, list_sum_add, list_sum_smul]
    simp only [List.map_const', List.sum_replicate, nsmul_eq_mul, mul_one, mean]
    field_simp
    ring
  have hsz : ∀ z ∈ Zs, (L.map (fun k => val k z * e (ivObs t y Zs cov val k))).sum = 0 := by
    intro z hz
    have e1 : L.map (fun k => val k z * e (ivObs t y Zs cov val k)) = L.map (fun k => val k z * rest k + (-mean) * val k z) :=
      List.map_congr_left (fun k hk => by rw [he k hk]; ring)
    rw [e1, list_sum_add, list_sum_smul]
    have := hrest z hz
    unfold covar at this
    simp only [mean]
    field_simp
    linear_combination this
  have hbx : basisOf poly (ivLinear (K := K)).treatmentBasis = .ok (some ⟨poly 1, false⟩) := rfl
  have hbz : basisOf poly (ivLinear (K := K)).instrumentBasis = .ok (some ⟨poly 1, false⟩) := rfl
  have hbv : covarBasisOf poly (ivLinear (K := K)).covarBasis = .ok (some ⟨poly 0, false⟩) := rfl
  have hs1 : ∀ k, stage1 ⟨poly 1, false⟩ ⟨poly 0, false⟩ false (ivObs t y Zs cov val k) = 1 :: (Zs.map (val k) ++ [1]) := by
    intro k
    simp [stage1, design, adj, hp1, hp0, ivObs, DML.kron, DML.dot]
  set bx : Basis K := ⟨poly 1, false⟩ with hbxd
  set bv : Basis K := ⟨poly 0, false⟩ with hbvd
  set xh := fitX (rows.map (fun r => (stage1 bx bv false r, bx.rows r.x))) with hxh
  have hrne : rows ≠ [] := by simp [rows, hLne]
  have hX' : IsOLSVec 2 (rows.map (fun r => (stage1 bx bv false r, bx.rows r.x))) xh := by
    refine hX _ (Zs.length + 2) 2 (by simpa using hrne) ?_
    intro p hp
    obtain ⟨r, hr, rfl⟩ := List.mem_map.1 hp
    obtain ⟨k, _, rfl⟩ := List.mem_map.1 hr
    refine ⟨by rw [hs1]; simp, ?_⟩
    simp [hbxd, hp1, ivObs]
  have hs2 : ∀ r, stage2 bx bv false xh r = [(xh (stage1 bx bv false r)).getD 0 0, (xh (stage1 bx bv false r)).getD 1 0, 1] := by
    intro r
    have hl := hX'.1 (stage1 bx bv false r)
    obtain ⟨p, q, hpq⟩ := List.length_eq_two.1 hl
    have hv1 : bv.rows r.v = [1] := hp0 r.v
    unfold stage2
    rw [hpq, hv1]
    simp [design, adj, kron_one]
  have hY' : IsOLS (rows.map (fun r => (stage2 bx bv false xh r, r.y))) (fitY (rows.map (fun r => (stage2 bx bv false xh r, r.y)))) := by
    refine hY _ 3 (by simpa using hrne) ?_
    intro p hp
    obtain ⟨r, hr, rfl⟩ := List.mem_map.1 hp
    rw [hs2]
    rfl
  have hfit := fit_eq (poly := poly) (fitX := fitX) (fitY := fitY) (a := ivLinear) (xd := 1) (rows := rows) hbx hbz hbv rfl
  refine ⟨_, hfit, fun d a a' => ⟨τ * (a - a'), ?_, ?_⟩⟩
  · have hlz : ∀ r ∈ rows, (bx.rows r.z).length = Zs.length + 1 := by
      intro r hr
      obtain ⟨k, _, rfl⟩ := List.mem_map.1 hr
      simp [hbxd, hp1, ivObs]
    have hlx : ∀ r ∈ rows, (bx.rows r.x).length = 2 := by
      intro r hr
      obtain ⟨k, _, rfl⟩ := List.mem_map.1 hr
      simp [hbxd, hp1, ivObs]
    have hdesign : ∀ (x : K) (v w : List K), design (bx.rows [x]) (some (bv.rows v)) (adj false w) = [1, x, 1] := by
      intro x v w
      simp [design, adj, hbxd, hbvd, hp0, hp1, kron_one]
    have hstr : ∀ (x : K) (v w : List K), structural bx bv false mean [0, τ, 0] [x] v w = mean + τ * x := by
      intro x v w
      unfold structural
      rw [hdesign]
      simp [DML.dot]
    obtain ⟨f, hf, hest⟩ := C102_valid_instruments (poly := poly) (fitX := fitX) (fitY := fitY) (a := ivLinear) (xd := 1) (rows := rows) hbx hbz hbv rfl
      one_pos (fun v => hp0 v) hlx hlz (xh := xh) rfl hX' hY' mean [0, τ, 0] e
      (by
        intro r hr
        obtain ⟨k, _, rfl⟩ := List.mem_map.1 hr
        show _ = structural bx bv false mean [0, τ, 0] [val k t] (cov k) [] + _
        rw [hstr]
        simp only [e, ivObs, List.headD_cons]
        ring)
      (by
        intro b' c'
        have := orth_features L ((fun _ => 1) :: (Zs.map (fun z k => val k z) ++ [fun _ => 1])) (fun k => e (ivObs t y Zs cov val k)) hs0
          (by
            intro g hg
            rcases List.mem_cons.1 hg with rfl | hg
            · simpa using hs0
            · rcases List.mem_append.1 hg with hg | hg
              · obtain ⟨z, hz, rfl⟩ := List.mem_map.1 hg
                exact hsz z hz
              · rw [List.mem_singleton.1 hg]
                simpa using hs0) b' c'
        show ((L.map (ivObs t y Zs cov val)).map _).sum = 0
        rw [List.map_map]
        refine Eq.trans ?_ this
        congr 1
        apply List.map_congr_left
        intro k _
        simp only [Function.comp_apply]
        rw [show stage1 bx bv (ivLinear (K := K)).hasAdjustment (ivObs t y Zs cov val k) = _ from hs1 k]
        simp [List.map_map, Function.comp_def])
      (t := [a]) (c := [a']) rfl rfl
    have hff := hfit.symm.trans hf
    injection hff with hff
    rw [hff, hest d]
    · congr 1
      apply List.map_congr_left
      intro r _
      rw [show structural bx bv (ivLinear (K := K)).hasAdjustment mean [0, τ, 0] [a] r.v r.w = _ from hstr a r.v r.w,
        show structural bx bv (ivLinear (K := K)).hasAdjustment mean [0, τ, 0] [a'] r.v r.w = _ from hstr a' r.v r.w]
      ring
    · -- relevance: the predicted treatment is not constant
      intro r _ b1 b2 c1 c2 hag
      rw [show design (bx.rows [a]) (some (bv.rows r.v)) (adj (ivLinear (K := K)).hasAdjustment r.w) = _ from hdesign a r.v r.w,
        show design (bx.rows [a']) (some (bv.rows r.v)) (adj (ivLinear (K := K)).hasAdjustment r.w) = _ from hdesign a' r.v r.w]
      have hone : ∀ r ∈ rows, (xh (stage1 bx bv false r)).getD 0 0 = 1 := by
        have h0 := hX'.2 0 (by omega)
        rw [List.map_map] at h0
        have h1 := ols_exact rows (stage1 bx bv false) (fun _ => (1 : K)) (fun _ => 0) (f := fun s => (xh s).getD 0 0) (by
          refine Eq.mp (congrArg₂ IsOLS ?_ rfl) h0
          apply List.map_congr_left
          intro r hr
          obtain ⟨k, _, rfl⟩ := List.mem_map.1 hr
          simp [hbxd, hp1]) 1 [] (fun _ _ => by simp [DML.dot]) (fun _ _ => by simp)
        intro r hr
        rw [h1 r hr]
        simp [DML.dot]
      have hvar : ∃ r1 ∈ rows, ∃ r2 ∈ rows, (xh (stage1 bx bv false r1)).getD 1 0 ≠ (xh (stage1 bx bv false r2)).getD 1 0 := by
        by_contra hcon
        push Not at hcon
        obtain ⟨z, hz, hzr⟩ := hrel
        apply hzr
        obtain ⟨r0, hr0⟩ := List.exists_mem_of_ne_nil _ hrne
        set C := (xh (stage1 bx bv false r0)).getD 1 0 with hC
        have hconst : ∀ k ∈ L, (xh (stage1 bx bv false (ivObs t y Zs cov val k))).getD 1 0 = C := fun k hk =>
          hcon _ (List.mem_map.2 ⟨k, hk, rfl⟩) r0 hr0
        have h1 := (hX'.2 1 (by omega)).2
        have key : ∀ (b : K) (c : List K), (L.map (fun k => (b + DML.dot c (1 :: (Zs.map (val k) ++ [1]))) * (val k t - C))).sum = 0 := by
          intro b c
          have := h1 b c
          rw [List.map_map] at this
          refine Eq.trans ?_ this
          rw [List.map_map, show rows = L.map (ivObs t y Zs cov val) from rfl, List.map_map]
          congr 1
          apply List.map_congr_left
          intro k hk
          simp only [Function.comp_apply]
          rw [hconst k hk, hs1]
          simp [hbxd, hp1, ivObs]
        obtain ⟨i, hi, hzi⟩ := List.getElem_of_mem hz
        have k0 := key 1 []
        have kz := key 0 (0 :: (List.replicate i 0 ++ [1]))
        have ez : ∀ k, DML.dot (0 :: (List.replicate i 0 ++ [1])) (1 :: (Zs.map (val k) ++ [1])) = val k z := by
          intro k
          have : DML.dot (0 :: (List.replicate i 0 ++ [1])) (1 :: (Zs.map (val k) ++ [1])) = DML.dot (List.replicate i 0 ++ [1]) (Zs.map (val k) ++ [1]) := by
            simp [DML.dot]
          rw [this, dot_pick, List.getD_eq_getElem?_getD, List.getElem?_append_left (by simpa using hi)]
          simp [hi, hzi]
        simp only [ez, zero_add] at kz
        have e0 : (fun k => (1 + DML.dot [] (1 :: (Zs.map (val k) ++ [1]))) * (val k t - C)) = fun k => val k t + (-C) * 1 := by
          funext k; simp [DML.dot]; ring
        have ez' : (fun k => val k z * (val k t - C)) = fun k => val k z * val k t + (-C) * val k z := by
          funext k; ring
        rw [e0, list_sum_add, list_sum_smul] at k0
        rw [ez', list_sum_add, list_sum_smul] at kz
        simp only [List.map_const', List.sum_replicate, nsmul_eq_mul, mul_one] at k0
        unfold Uncorrelated
        linear_combination (L.length : K) * kz - (L.map (fun k => val k z)).sum * k0
      obtain ⟨r1, hr1, r2, hr2, hne⟩ := hvar
      have g1 := hag r1 hr1
      have g2 := hag r2 hr2
      rw [show stage2 bx bv (ivLinear (K := K)).hasAdjustment xh r1 = _ from hs2 r1, hone r1 hr1] at g1
      rw [show stage2 bx bv (ivLinear (K := K)).hasAdjustment xh r2 = _ from hs2 r2, hone r2 hr2] at g2
      simp only [dot_range, List.length_cons, List.length_nil, List.range_succ, List.range_zero] at g1 g2 ⊢
      simp at g1 g2 ⊢
      have hsub : (xh (stage1 bx bv false r1)).getD 1 0 - (xh (stage1 bx bv false r2)).getD 1 0 ≠ 0 := sub_ne_zero.2 hne
      simp only [List.getD_eq_getElem?_getD] at hsub
      have : c1[1]?.getD 0 = c2[1]?.getD 0 := by
        apply mul_right_cancel₀ hsub
        linear_combination g1 - g2
      linear_combination (a - a') * this
  · intro u v v' h1 h2
    rw [hd2 u v a h1, hd2 u v' a' h2]
    ring

/-- **C144**: instruments found by `get_iv`, linear two-stage least squares, any linear causal model of the diagram with uncorrelated noise (latent variables
included, the treatment may be confounded): if one of the instruments is correlated with the treatment, `NP2SLS` answers, in every query row, exactly by how
much the outcome of an individual (any individual of the model) changes when the treatment is set to `a` instead of `a'`. -/
theorem C144_iv_pipeline (c : Causation α) (A : List (α × α)) (hD : IsDict c) (h : IsDiagram c A U) :
    ∃ G, IsExplicit c A U G ∧ ∀ (t y : α) (r : Option (List α)), getIV (CG.init c A) t y = .ok r → t ≠ y → Reach G t y →
      ∀ (Zs : List α), (∀ z ∈ Zs, z ∈ r.getD []) →
      ∀ (V : Finset α), (∀ a b, G a b → a ∈ V ∧ b ∈ V) →
      ∀ (K I : Type) [Field K] [LinearOrder K] [IsStrictOrderedRing K] (b : α → α → K), (∀ i j, b i j ≠ 0 → G i j) →
      ∀ (L : List I) (noise val : I → α → K), (∀ k ∈ L, LinSolves V b (noise k) (val k)) →
      (∀ i ∈ V, ∀ j ∈ V, i ≠ j → Uncorrelated L (fun k => noise k i) (fun k => noise k j)) →
      (∃ z ∈ Zs, ¬ Uncorrelated L (fun k => val k z) (fun k => val k t)) →
      ∀ (cov : I → List K) (poly : Nat → List K → List K), (∀ l, poly 1 l = 1 :: l) → (∀ l, poly 0 l = [1]) →
      ∀ (fitX : List (List K × List K) → List K → List K) (fitY : List (List K × K) → List K → K), FitsLSVec fitX → FitsLS fitY →
      ∃ f, fit poly fitX fitY ivLinear none 1 (L.map (ivObs t y Zs cov val)) = .ok f ∧
        ∀ (d : List (Obs K)) (a a' : K), ∃ eff, estimate f (some d) (some [a]) (some [a']) .none = .ok (d.map (fun _ => eff)) ∧
          ∀ (u v v' : α → K), LinSolvesDo V b t a u v → LinSolvesDo V b t a' u v' → v y - v' y = eff := by
  obtain ⟨G, hE, hm⟩ := C24_get_iv_partial c A hD h
  refine ⟨G, hE, fun t y r hok hty hr Zs hZs V hV K I _ _ _ b hb L noise val hsol hunc hrel cov poly hp1 hp0 fitX fitY hX hY => ?_⟩
  have hzt : ∀ z ∈ Zs, G z t ∧ DSep (CutIn G {t}) {z} {y} ∅ := by
    intro z hz
    obtain ⟨hp, hs⟩ := (hm t y r hok hty hr z).1 (hZs z hz)
    have hzl : ∀ i, z ≠ U i := by
      rintro i rfl
      exact (h.fresh i).2.1 ⟨t, .inr hp⟩
    exact ⟨(hE.observed z t hzl).2 hp, hs⟩
  obtain ⟨z0, hz0, _⟩ := id hrel
  have htV : t ∈ V := (hV _ _ (hzt z0 hz0).1).2
  have hyV : y ∈ V := by
    rcases Relation.ReflTransGen.cases_tail hr with e | ⟨w, _, hw⟩
    · exact absurd e.symm hty
    · exact (hV _ _ hw).2
  exact iv_effect hE.acyclic hb htV hyV (fun z hz => (hV _ _ (hzt z hz).1).1) hzt hsol hunc hrel cov hp1 hp0 hX hY

/-- the equations have a solution under every intervention: the effects C144 speaks about exist -/
theorem C144_interventions_exist {V : Finset α} {E : α → α → Prop} (hac : Acyclic E) {b : α → α → K} (hb : ∀ i j, b i j ≠ 0 → E i j) (t : α) (a : K)
    (u : α → K) : ∃ v, LinSolvesDo V b t a u v := by
  classical
  have key : ∀ W : Finset α, ∀ w : α → K, W ⊆ V → (∀ i ∈ W, ∀ j ∈ V, E j i → j ∈ W ∨ j = t) → w t = a →
      ∃ v : α → K, v t = a ∧ (∀ i ∉ W, v i = w i) ∧ ∀ i ∈ W, i ≠ t → v i = u i + ∑ j ∈ V, b j i * v j := by
    intro W
    induction hn : W.card using Nat.strong_induction_on generalizing W with
    | _ n ih =>
      intro w hW hcl hw
      by_cases hne : W = ∅
      · subst hne
        exact ⟨w, hw, fun _ _ => rfl, fun i hi => absurd hi (Finset.notMem_empty i)⟩
      · obtain ⟨i, hi, hsink⟩ := exists_sink hac W (Finset.nonempty_iff_ne_empty.2 hne)
        have hlt : (W.erase i).card < n := by rw [← hn]; exact Finset.card_erase_lt_of_mem hi
        obtain ⟨v, hv0, hv1, hv2⟩ := ih _ hlt (W.erase i) rfl w (fun x hx => hW (Finset.mem_of_mem_erase hx)) (fun x hx j hj hjx => by
          rcases hcl x (Finset.mem_of_mem_erase hx) j hj hjx with h | h
          · refine Or.inl (Finset.mem_erase.2 ⟨?_, h⟩)
            rintro rfl
            exact hsink x (Finset.mem_of_mem_erase hx) hjx
          · exact Or.inr h) hw
        by_cases hit : i = t
        · refine ⟨v, hv0, fun x hx => hv1 x (fun h => hx (Finset.mem_of_mem_erase h)), fun x hx hxt => hv2 x (Finset.mem_erase.2 ⟨?_, hx⟩) hxt⟩
          exact fun e => hxt (e.trans hit)
        · refine ⟨Function.update v i (u i + ∑ j ∈ V, b j i * v j), by rw [Function.update_of_ne (Ne.symm hit), hv0], fun x hx => ?_, fun x hx hxt => ?_⟩
          · rw [Function.update_of_ne (fun e => hx (by rw [e]; exact hi)), hv1 x (fun h => hx (Finset.mem_of_mem_erase h))]
          · have hno : ∀ x ∈ W, ∀ j ∈ V, b j x * Function.update v i (u i + ∑ j ∈ V, b j i * v j) j = b j x * v j := by
              intro x hx j hj
              by_cases hji : j = i
              · subst hji
                have : b j x = 0 := by
                  by_contra hne
                  exact hsink x hx (hb j x hne)
                rw [this, zero_mul, zero_mul]
              · rw [Function.update_of_ne hji]
            rw [Finset.sum_congr rfl (hno x hx)]
            by_cases hxi : x = i
            · subst hxi
              rw [Function.update_self]
            · rw [Function.update_of_ne hxi]
              exact hv2 x (Finset.mem_erase.2 ⟨hxi, hx⟩) hxt
  obtain ⟨v, h0, -, h2⟩ := key V (fun _ => a) (Finset.Subset.refl _) (fun i _ j hj _ => Or.inl hj) rfl
  exact ⟨v, h0, h2⟩

end main

/-! ### Non-vacuity -/

/-- `z → x → y` with a latent common cause of `x` and `y` -/
def ivDiagram : CG String := CG.init [("z", []), ("x", ["z"]), ("y", ["x"])] [("x", "y")]

/-- the coefficients: `x = z + U0`, `y = 2 x + U0` -/
def ivCoef (i j : String) : ℚ :=
  if i = "z" ∧ j = "x" then 1 else if i = "U0" ∧ j = "x" then 1 else if i = "x" ∧ j = "y" then 2 else if i = "U0" ∧ j = "y" then 1 else 0

/-- four individuals: instrument and confounder are fair coins -/
def ivNoise (k : ℚ × ℚ) (i : String) : ℚ := if i = "z" then k.1 else if i = "U0" then k.2 else 0

def ivVal (k : ℚ × ℚ) (i : String) : ℚ :=
  if i = "z" then k.1 else if i = "U0" then k.2 else if i = "x" then k.1 + k.2 else if i = "y" then 2 * k.1 + 3 * k.2 else 0

def ivPeople : List (ℚ × ℚ) := [(0, 0), (0, 1), (1, 0), (1, 1)]

/-- all hypotheses of C144 hold of this example, and the treatment is confounded: it is correlated with the part of the outcome it does not cause -/
example : getIV ivDiagram "x" "y" = .ok (some ["z"]) ∧ Reach ivDiagram.explicitDag.E "x" "y" ∧
    (∀ a b, ivDiagram.explicitDag.E a b → a ∈ ["z", "x", "y", "U0"].toFinset ∧ b ∈ ["z", "x", "y", "U0"].toFinset) ∧
    (∀ i j, ivCoef i j ≠ 0 → ivDiagram.explicitDag.E i j) ∧
    (∀ k ∈ ivPeople, LinSolves ["z", "x", "y", "U0"].toFinset ivCoef (ivNoise k) (ivVal k)) ∧
    (∀ i ∈ ["z", "x", "y", "U0"].toFinset, ∀ j ∈ ["z", "x", "y", "U0"].toFinset, i ≠ j →
      Uncorrelated ivPeople (fun k => ivNoise k i) (fun k => ivNoise k j)) ∧
    ¬ Uncorrelated ivPeople (fun k => ivVal k "z") (fun k => ivVal k "x") ∧
    ¬ Uncorrelated ivPeople (fun k => ivVal k "x") (fun k => ivVal k "y" - 2 * ivVal k "x") := by
  have hed : ivDiagram.explicitDag.edges = [("z", "x", .num 0), ("x", "y", .num 0), ("U0", "x", .n), ("U0", "y", .n)] := by decide +kernel
  have hE : ∀ a b, ivDiagram.explicitDag.E a b ↔ (a, b) ∈ [("z", "x"), ("x", "y"), ("U0", "x"), ("U0", "y")] := by
    intro a b
    unfold MDG.E
    rw [hed]
    constructor
    · rintro ⟨k, hk⟩
      simp only [List.mem_cons, Prod.mk.injEq, List.not_mem_nil, or_false] at hk ⊢
      rcases hk with ⟨rfl, rfl, _⟩ | ⟨rfl, rfl, _⟩ | ⟨rfl, rfl, _⟩ | ⟨rfl, rfl, _⟩ <;> simp
    · intro hk
      simp only [List.mem_cons, Prod.mk.injEq, List.not_mem_nil, or_false] at hk
      rcases hk with ⟨rfl, rfl⟩ | ⟨rfl, rfl⟩ | ⟨rfl, rfl⟩ | ⟨rfl, rfl⟩
      · exact ⟨.num 0, by simp⟩
      · exact ⟨.num 0, by simp⟩
      · exact ⟨.n, by simp⟩
      · exact ⟨.n, by simp⟩
  refine ⟨by decide +kernel, .single ((hE _ _).2 (by decide)), fun a b h => ?_, fun i j h => ?_, ?_, ?_, ?_, ?_⟩
  · have := (hE a b).1 h
    simp at this ⊢
    rcases this with ⟨rfl, rfl⟩ | ⟨rfl, rfl⟩ | ⟨rfl, rfl⟩ | ⟨rfl, rfl⟩ <;> simp
  · rw [hE]
    unfold ivCoef at h
    by_contra hc
    simp only [List.mem_cons, Prod.mk.injEq, List.not_mem_nil, or_false, not_or] at hc
    obtain ⟨h1, h2, h3, h4⟩ := hc
    simp only [if_neg h1, if_neg h2, if_neg h3, if_neg h4] at h
    exact h rfl
  · unfold LinSolves; decide +kernel
  · unfold Uncorrelated; decide +kernel
  · unfold Uncorrelated; decide +kernel
  · unfold Uncorrelated; decide +kernel

/-- what ordinary least squares would report on the same data is not the effect 2: the instrument matters -/
theorem C144_confounding_matters : ¬ IsOLS (ivPeople.map (fun k => ([ivVal k "x"], ivVal k "y"))) (fun r => 2 * r.getD 0 0) := by
  intro h
  have := h.2 0 [1]
  exact absurd this (by decide +kernel)

end YL.Props
