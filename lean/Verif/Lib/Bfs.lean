import Verif.Model.Nx
import Verif.Spec.Graph

/-! Correctness of the breadth first search of `Model/Nx.lean`. -/

namespace YL.MDG

variable {α : Type} [DecidableEq α]

/-- one step inside the node list -/
def StepIn (N : List α) (next : α → List α) (a b : α) : Prop := b ∈ next a ∧ b ∈ N

theorem bfs_sound (N : List α) (next : α → List α) (s : α) (f : Nat) :
    ∀ vis q, (∀ v ∈ vis, Relation.ReflTransGen (StepIn N next) s v) → (∀ v ∈ q, v ∈ vis) →
      ∀ v ∈ bfs N next f vis q, Relation.ReflTransGen (StepIn N next) s v := by
  induction f with
  | zero => intro vis q h _ v hv; exact h v (by simpa [bfs] using hv)
  | succ f ih =>
    intro vis q h hq v hv
    cases q with
    | nil => exact h v (by simpa [bfs] using hv)
    | cons u q =>
      simp only [bfs] at hv
      refine ih _ _ ?_ ?_ v hv
      · intro w hw
        rcases List.mem_append.1 hw with hw | hw
        · exact h w hw
        · simp at hw
          exact (h u (hq u (by simp))).tail ⟨hw.2.1, hw.1⟩
      · intro w hw
        rcases List.mem_append.1 hw with hw | hw
        · exact List.mem_append_left _ (hq w (by simp [hw]))
        · exact List.mem_append_right _ hw

theorem bfs_mono (N : List α) (next : α → List α) (f : Nat) :
    ∀ vis q, ∀ v ∈ vis, v ∈ bfs N next f vis q := by
  induction f with
  | zero => intro vis q v hv; simpa [bfs] using hv
  | succ f ih =>
    intro vis q v hv
    cases q with
    | nil => simpa [bfs] using hv
    | cons u q => simp only [bfs]; exact ih _ _ _ (List.mem_append_left _ hv)

omit [DecidableEq α] in
theorem filter_split (N : List α) (p vis : α → Prop) [DecidablePred p] [DecidablePred vis] :
    (N.filter (fun v => p v ∧ ¬ vis v)).length + (N.filter (fun v => ¬ (vis v ∨ p v))).length
      = (N.filter (fun v => ¬ vis v)).length := by
  induction N with
  | nil => simp
  | cons a N ih =>
    by_cases h1 : vis a <;> by_cases h2 : p a <;> simp [h1, h2] at * <;> omega

theorem bfs_closed (N : List α) (next : α → List α) (f : Nat) :
    ∀ vis q, (N.filter (fun v => v ∉ vis)).length + q.length ≤ f →
      (∀ u ∈ vis, u ∈ q ∨ ∀ v, StepIn N next u v → v ∈ vis) →
      ∀ u ∈ bfs N next f vis q, ∀ v, StepIn N next u v → v ∈ bfs N next f vis q := by
  induction f with
  | zero =>
    intro vis q hf h u hu v hv
    have hq : q = [] := by
      apply List.eq_nil_of_length_eq_zero; omega
    simp only [bfs] at *
    rcases h u hu with h | h
    · simp [hq] at h
    · exact h v hv
  | succ f ih =>
    intro vis q hf h u hu v hv
    cases q with
    | nil =>
      simp only [bfs] at *
      rcases h u hu with h | h
      · simp at h
      · exact h v hv
    | cons w q =>
      simp only [bfs] at *
      refine ih _ _ ?_ ?_ u hu v hv
      · have := filter_split N (fun v => v ∈ next w) (fun v => v ∈ vis)
        simp only [List.length_append, List.length_cons] at *
        have e : (N.filter (fun v => v ∉ vis ++ N.filter (fun v => v ∈ next w ∧ v ∉ vis))).length
            = (N.filter (fun v => ¬ (v ∈ vis ∨ v ∈ next w))).length := by
          congr 1
          apply List.filter_congr
          intro a ha
          simp only [List.mem_append, List.mem_filter, decide_eq_true_eq, decide_eq_decide]
          tauto
        rw [e]
        omega
      · intro a ha
        by_cases haw : a = w
        · right
          subst haw
          intro b hb
          by_cases hbv : b ∈ vis
          · exact List.mem_append_left _ hbv
          · exact List.mem_append_right _ (by simp [hb.2, hb.1, hbv])
        · rcases List.mem_append.1 ha with ha | ha
          · rcases h a ha with h | h
            · left
              rcases List.mem_cons.1 h with h | h
              · exact absurd h haw
              · exact List.mem_append_left _ h
            · right; intro b hb; exact List.mem_append_left _ (h b hb)
          · left; exact List.mem_append_right _ ha

/-- The search returns exactly the nodes reachable from the start. -/
theorem mem_reachList (N : List α) (next : α → List α) (s v : α) :
    v ∈ reachList N next s ↔ Relation.ReflTransGen (StepIn N next) s v := by
  constructor
  · intro h
    exact bfs_sound N next s _ [s] [s] (by intro v hv; simp at hv; subst hv; exact .refl)
      (by simp) v h
  · intro h
    induction h with
    | refl => exact bfs_mono _ _ _ _ _ _ (by simp)
    | tail _ hbc ih =>
      refine bfs_closed N next _ [s] [s] ?_ ?_ _ ih _ hbc
      · have := List.length_filter_le (fun v => decide (v ∉ [s])) N
        simp only [List.length_singleton]; omega
      · intro u hu; left; exact hu

end YL.MDG
