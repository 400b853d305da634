import Verif.Model.WhyScore
import Verif.Props.RLoss
import Verif.Props.WhyArms
/-!
C146: `Why.score`.
-/
set_option linter.unusedSectionVars false
set_option linter.unusedSimpArgs false
set_option linter.unusedVariables false
namespace YL.Props
open YL YL.Why YL.Meta

variable {C V K N O : Type} [DecidableEq C] [DecidableEq V] [Field K] [DecidableEq K]

/-! ### Specification -/

/-- the entry of an arm argument for the treatment number `i` -/
def armEntry : TC V → Nat → Option (Item V)
  | .none, _ => none
  | .atom v, i => if i = 0 then some (.atom v) else none
  | .seq l, i => l[i]?

/-- the argument has one entry for each of `n` treatments, or is missing -/
def OneEach (n : Nat) : TC V → Prop
  | .none => True
  | .atom _ => n = 1
  | .seq l => l.length = n

/-- what the estimator of the treatment `x`, the `i`-th, is to get for an arm argument: nothing if nothing was said, the code of the value among the
classes of `x` if treatments are discrete, the value itself otherwise -/
def ArmIs (s : ScoreState C V) (x : C) (i : Nat) (arg : TC V) : Option (ArmArg V) → Prop
  | none => arg = .none
  | some (.code n) => s.discrete = true ∧ ∃ v, armEntry arg i = some (.atom v) ∧ (s.classes x)[n]? = some v
  | some (.raw v) => s.discrete = false ∧ armEntry arg i = some v

/-! ### Lemmas -/

theorem safeTC_ok {n : Nat} {a : TC V} (h : OneEach n a) : ∃ o, safeTC n a = .ok o ∧ (a = .none → o = none) ∧
    (a ≠ .none → ∃ l : List (Item V), o = some l ∧ ∀ i, l[i]? = armEntry a i) := by
  cases a with
  | none => exact ⟨none, rfl, fun _ => rfl, fun h => absurd rfl h⟩
  | atom v =>
    refine ⟨some [.atom v], by simpa [safeTC, OneEach] using h, by simp, fun _ => ⟨_, rfl, ?_⟩⟩
    intro i
    cases i <;> simp [armEntry]
  | seq l =>
    refine ⟨some l, by simpa [safeTC, OneEach] using h, by simp, fun _ => ⟨_, rfl, fun i => rfl⟩⟩

theorem code_at {l : List V} (hl : l.Nodup) {n : Nat} {v : V} (h : l[n]? = some v) : Why.code l v = .ok n := by
  unfold Why.code
  have : l.findIdx? (fun u => decide (u = v)) = some n := by
    rw [List.findIdx?_eq_some_iff_getElem]
    obtain ⟨hn, e⟩ := List.getElem?_eq_some_iff.mp h
    refine ⟨hn, by simp [e], ?_⟩
    intro j hj
    simp only [decide_eq_true_eq, ← e]
    intro e'
    have := (hl.getElem_inj_iff).mp e'
    omega
  rw [this]

theorem armAt_ok {s : ScoreState C V} (hc : ∀ x ∈ s.treatment, (s.classes x).Nodup) {x : C} (hx : x ∈ s.treatment) {i : Nat} {arg : TC V}
    (h1 : OneEach s.treatment.length arg) {o : Option (List (Item V))} (ho : safeTC s.treatment.length arg = .ok o) {a : Option (ArmArg V)}
    (ha : ArmIs s x i arg a) : armAt s x o i = .ok a := by
  obtain ⟨o', e, e1, e2⟩ := safeTC_ok h1
  rw [ho] at e
  cases e
  cases a with
  | none =>
    rw [e1 ha]
    rfl
  | some b =>
    have hne : arg ≠ .none := by
      rintro rfl
      cases b <;> simp [ArmIs, armEntry] at ha
    obtain ⟨l, rfl, hl⟩ := e2 hne
    cases b with
    | code n =>
      obtain ⟨hd, v, hv, hn⟩ := ha
      simp [armAt, hl, hv, armArg, hd, code_at (hc x hx) hn]
    | raw v =>
      obtain ⟨hd, hv⟩ := ha
      simp [armAt, hl, hv, armArg, hd]

/-! ### Theorems -/

/-- **C146.** Without instruments and with covariates, `score` (other than by uplift curves) is the average over the treatments of the R-loss that the estimator of the treatment has
under the scorer fitted for that treatment, with the arm the user named for it. -/
theorem C146_score_is_mean (s : ScoreState C V) (uplift : String → TC V → TC V → Option O → Except Err K) (fit : C → Except Err (RLoss.Scorer K))
    (est : C → RLoss.TestEstimator K N (ArmArg V)) (treat control : TC V) (target : Option O) (scorer : String)
    (hs : scorer ≠ "auuc" ∧ scorer ≠ "qini") (hi : s.instrument = none) (hv : s.covariate.isSome) (hc : ∀ x ∈ s.treatment, (s.classes x).Nodup)
    (ht : OneEach s.treatment.length treat) (hct : OneEach s.treatment.length control)
    (sc : C → RLoss.Scorer K) (hfit : ∀ x ∈ s.treatment, fit x = .ok (sc x)) (t c : Nat → Option (ArmArg V)) (z : Nat → K)
    (hz : ∀ i x, s.treatment[i]? = some x → ArmIs s x i treat (t i) ∧ ArmIs s x i control (c i) ∧ RLoss.score (sc x) (est x) (t i) (c i) = .ok (z i)) :
    score s uplift fit est true treat control target scorer =
      .ok (((List.range s.treatment.length).map z).sum / (s.treatment.length : K)) := by
  obtain ⟨o1, e1, _⟩ := safeTC_ok ht
  obtain ⟨o2, e2, _⟩ := safeTC_ok hct
  have hm : mapE (scoreOne s fit est o1 o2) s.treatment.zipIdx = .ok (s.treatment.zipIdx.map (fun p => z p.2)) := by
    apply mapE_eq
    rintro ⟨x, i⟩ hp
    have hx : s.treatment[i]? = some x := by
      rw [List.mem_zipIdx_iff_getElem?] at hp
      exact hp
    have hmem := List.mem_of_getElem? hx
    obtain ⟨h1, h2, h3⟩ := hz i x hx
    have hf : fitScorer s fit x = .ok (sc x) := by
      cases hcv : s.covariate with
      | none => simp [hcv] at hv
      | some l => simp [fitScorer, hi, hcv, hfit x hmem]
    simp only [scoreOne, armAt_ok hc hmem ht e1 h1, armAt_ok hc hmem hct e2 h2, hf, h3]
  have hl : s.treatment.zipIdx.map (fun p => z p.2) = (List.range s.treatment.length).map z := by
    apply List.ext_getElem
    · simp
    · intro i h1 h2
      simp
  unfold score
  simp only [Bool.true_eq_false, if_false, hs.1, hs.2, or_self]
  unfold scoreRloss
  simp only [e1, e2, hm, hl, List.length_map, List.length_range]

/-- **C146.** A score by R-loss is never negative. -/
theorem C146_nonneg [LinearOrder K] [IsStrictOrderedRing K] (s : ScoreState C V) (fit : C → Except Err (RLoss.Scorer K))
    (est : C → RLoss.TestEstimator K N (ArmArg V)) (treat control : TC V) (z : K) (h : scoreRloss s fit est treat control = .ok z) : 0 ≤ z := by
  unfold scoreRloss at h
  split at h
  · cases h
  split at h
  · cases h
  split at h
  · cases h
  rename_i sa hsa
  cases h
  apply div_nonneg _ (Nat.cast_nonneg _)
  apply List.sum_nonneg
  intro x hx
  rw [mapE_ok] at hsa
  obtain ⟨i, hi, rfl⟩ := List.getElem_of_mem hx
  have := hsa.get (i := i) (by rw [hsa.length_eq]; exact hi) hi
  simp only [List.get_eq_getElem] at this
  unfold scoreOne at this
  split at this
  · cases this
  split at this
  · cases this
  split at this
  · cases this
  rename_i w _
  exact C105_nonneg _ _ _ _ _ this

/-- **C146, refuted.** An object that was fitted with instruments cannot be scored with the default scorer: whenever the arms are valid, `TypeError`. -/
theorem C146_instrument_refuted (s : ScoreState C V) (uplift : String → TC V → TC V → Option O → Except Err K) (fit : C → Except Err (RLoss.Scorer K))
    (est : C → RLoss.TestEstimator K N (ArmArg V)) (target : Option O) (scorer : String) (hs : scorer ≠ "auuc" ∧ scorer ≠ "qini")
    (hi : s.instrument.isSome) (hx : s.treatment ≠ []) : score s uplift fit est true .none .none target scorer = .error .type := by
  unfold score
  simp only [Bool.true_eq_false, if_false, hs.1, hs.2, or_self]
  cases hl : s.treatment with
  | nil => exact absurd hl hx
  | cons x l =>
    have h1 : ∀ p : C × Nat, scoreOne s fit est none none p = .error .type := by
      intro p
      simp [scoreOne, armAt, fitScorer, hi]
    unfold scoreRloss
    simp [hl, safeTC, mapE, h1, List.zipIdx_cons]

/-- **C146, refuted.** Without covariates the default scorer raises `AssertionError`. -/
theorem C146_covariate_needed (s : ScoreState C V) (uplift : String → TC V → TC V → Option O → Except Err K) (fit : C → Except Err (RLoss.Scorer K))
    (est : C → RLoss.TestEstimator K N (ArmArg V)) (target : Option O) (scorer : String) (hs : scorer ≠ "auuc" ∧ scorer ≠ "qini")
    (hi : s.instrument = none) (hv : s.covariate = none) (hx : s.treatment ≠ []) :
    score s uplift fit est true .none .none target scorer = .error .assertion := by
  unfold score
  simp only [Bool.true_eq_false, if_false, hs.1, hs.2, or_self]
  cases hl : s.treatment with
  | nil => exact absurd hl hx
  | cons x l =>
    have h1 : ∀ p : C × Nat, scoreOne s fit est none none p = .error .assertion := by
      intro p
      simp [scoreOne, armAt, fitScorer, hi, hv]
    unfold scoreRloss
    simp [hl, safeTC, mapE, h1, List.zipIdx_cons]

/-- **C146, refuted.** The target outcome has no influence on any score, though the score by an uplift curve depends on it: `uplift` here is any function of
it. -/
theorem C146_target_ignored_refuted (s : ScoreState C V) (uplift : String → TC V → TC V → Option O → Except Err K) (fit : C → Except Err (RLoss.Scorer K))
    (est : C → RLoss.TestEstimator K N (ArmArg V)) (given : Bool) (treat control : TC V) (target target' : Option O) (scorer : String) :
    score s uplift fit est given treat control target scorer = score s uplift fit est given treat control target' scorer := rfl

/-- **C146.** Scores by uplift curves are those of the uplift model for the default target; the data are needed for every scorer. -/
theorem C146_uplift (s : ScoreState C V) (uplift : String → TC V → TC V → Option O → Except Err K) (fit : C → Except Err (RLoss.Scorer K))
    (est : C → RLoss.TestEstimator K N (ArmArg V)) (treat control : TC V) (target : Option O) (scorer : String) :
    (scorer = "auuc" ∨ scorer = "qini" → score s uplift fit est true treat control target scorer = uplift scorer treat control none) ∧
    score s uplift fit est false treat control target scorer = .error .assertion := by
  refine ⟨fun h => ?_, rfl⟩
  simp [score, h]

/-- **C146, refuted.** A name that is no scorer is not refused: it is scored by R-loss. -/
theorem C146_unknown_scorer_refuted (s : ScoreState C V) (uplift : String → TC V → TC V → Option O → Except Err K) (fit : C → Except Err (RLoss.Scorer K))
    (est : C → RLoss.TestEstimator K N (ArmArg V)) (given : Bool) (treat control : TC V) (target : Option O) (scorer : String)
    (hs : scorer ≠ "auuc" ∧ scorer ≠ "qini") :
    score s uplift fit est given treat control target scorer = score s uplift fit est given treat control target "rloss" := by
  have h1 : ¬ (scorer = "auuc" ∨ scorer = "qini") := by rintro (h | h); exacts [hs.1 h, hs.2 h]
  have h2 : ¬ ("rloss" = "auuc" ∨ "rloss" = "qini") := by decide
  simp only [score, if_neg h1, if_neg h2]

/-! ### A concrete case -/

def scoreState : ScoreState String String :=
  ⟨["a", "b"], true, fun x => if x = "a" then ["hi", "lo"] else ["no", "yes"], none, some ["v"], none⟩

def scoreScorer (x : String) : RLoss.Scorer ℚ :=
  ⟨true, if x = "a" then [[1 / 2, -1 / 2], [-1 / 2, 1 / 2]] else [[0, 0], [1, -1]], [1, 3], [[5], [6]], none⟩

def codeNum : Option (ArmArg String) → Option Nat
  | some (.code n) => some n
  | _ => some 1

def scoreEst : RLoss.TestEstimator ℚ String (ArmArg String) :=
  ⟨some ["v"], some [], fun t a _ => .ok (t.map (fun _ => [if a = some (.code 0) then 2 else 4])), codeNum⟩

/-- the scorers differ, the arms are named by their values and differ in code, and the score is the average of the two -/
example : score scoreState (fun _ _ _ (_ : Option Nat) => .error .value) (fun x => .ok (scoreScorer x)) (fun _ => scoreEst) true
    (.seq [.atom "hi", .atom "yes"]) .none none "auto" = .ok (((0 : ℚ) + 16) / 2 / 2 + (1 + 49) / 2 / 2) := by decide +kernel

example : ArmIs scoreState "b" 1 (.seq [.atom "hi", .atom "yes"]) (some (.code 1)) := ⟨rfl, "yes", rfl, rfl⟩

end YL.Props
