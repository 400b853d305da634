import Verif.Spec.Graph

/-!
# What a causal graph means (independent of the model)

A causation dictionary is a list of `(node, parents)` entries; latent confounding arcs are unordered
pairs.
-/

namespace YL.Spec

variable {α : Type}

/-- `u` is listed as a parent of `v`. -/
def Parent (c : List (α × List α)) (u v : α) : Prop := ∃ ps, (v, ps) ∈ c ∧ u ∈ ps

/-- `v` is one end of an observed edge. -/
def OnEdge (c : List (α × List α)) (v : α) : Prop := ∃ u, Parent c u v ∨ Parent c v u

/-- A proper causation dictionary: keys are distinct and no parent is listed twice. -/
def IsDict (c : List (α × List α)) : Prop := (c.map (·.1)).Nodup ∧ ∀ kv ∈ c, kv.2.Nodup

/-- `{a, b}` is one of the pairs in `A`. -/
def Paired (A : List (α × α)) (a b : α) : Prop := (a, b) ∈ A ∨ (b, a) ∈ A

/-- A chain of pairs of `A` (of any length, zero included) links `a` and `b`. -/
def Linked (A : List (α × α)) : α → α → Prop := Relation.ReflTransGen (Paired A)

/-- `cs` is the partition of the set `N` into classes of the relation `R`. -/
def IsPartitionInto (N : Set α) (R : α → α → Prop) (cs : List (List α)) : Prop :=
  (∀ c ∈ cs, c ≠ []) ∧
  (∀ v, v ∈ N ↔ ∃ c ∈ cs, v ∈ c) ∧
  (cs.Pairwise fun c d => ∀ v, v ∈ c → v ∉ d) ∧
  ∀ c ∈ cs, ∀ a ∈ c, ∀ b ∈ N, (b ∈ c ↔ R a b)

/-- `G` is the causal diagram of the causation `c` with the latent confounding arcs `A` made explicit:
acyclic; between ordinary names exactly the observed edges; the reserved names have no causes; every arc
`{a, b}` has exactly one reserved name whose effects are `a` and `b`; and every reserved name that has an
effect belongs to such an arc. -/
structure IsExplicit (c : List (α × List α)) (A : List (α × α)) (latent : ℕ → α) (G : α → α → Prop) :
    Prop where
  acyclic : Acyclic G
  observed : ∀ a b, (∀ i, a ≠ latent i) → (G a b ↔ Parent c a b)
  root : ∀ a i, ¬ G a (latent i)
  arc : ∀ a b, Paired A a b → ∃ i, (∀ v, G (latent i) v ↔ v = a ∨ v = b) ∧
      ∀ j, (∀ v, G (latent j) v ↔ v = a ∨ v = b) → j = i
  only : ∀ i v, G (latent i) v → ∃ a b, Paired A a b ∧ ∀ w, G (latent i) w ↔ w = a ∨ w = b

/-- The causation `c` and the arcs `A` describe a semi-Markovian causal diagram: no directed cycle, arcs
join distinct nodes, and the reserved names are not used. -/
structure IsDiagram (c : List (α × List α)) (A : List (α × α)) (latent : ℕ → α) : Prop where
  acyclic : Acyclic (Parent c)
  irrefl : ∀ a, (a, a) ∉ A
  fresh : ∀ i, latent i ∉ c.map (·.1) ∧ ¬ OnEdge c (latent i) ∧ ∀ u, ¬ Paired A u (latent i)

end YL.Spec

/-! ### Histories of edits, abstractly -/

namespace YL.Spec

/-- The public in-place edits of a causal graph. -/
inductive Edit (α : Type) where
  | addNodes (ns : List α)
  | addEdgesFrom (es : List (α × α)) (observed : Bool)
  | addEdge (s t : α) (observed : Bool)
  | removeNodes (ns : List α)
  | removeEdge (e : α × α) (observed : Bool)
  | removeEdgesFrom (es : List (α × α)) (observed : Bool)

/-- An abstract causal graph: a relation of observed edges and a symmetric relation of latent arcs. -/
structure AbsGraph (α : Type) where
  obs : α → α → Prop
  lat : α → α → Prop

open Classical in
/-- Remove observed edges one after the other, stopping at the first missing one. The flag says whether
one was missing. -/
noncomputable def AbsGraph.removeObs {α : Type} (a : AbsGraph α) : List (α × α) → AbsGraph α × Bool
  | [] => (a, false)
  | e :: es => if a.obs e.1 e.2 then
      AbsGraph.removeObs ⟨fun u v => a.obs u v ∧ (u, v) ≠ e, a.lat⟩ es else (a, true)

/-- What each edit means for the abstract graph; the flag says whether the call must raise. -/
noncomputable def AbsGraph.step {α : Type} (a : AbsGraph α) : Edit α → AbsGraph α × Bool
  | .addNodes _ => (a, false)
  | .addEdgesFrom es true => (⟨fun u v => a.obs u v ∨ (u, v) ∈ es, a.lat⟩, false)
  | .addEdgesFrom es false => (⟨a.obs, fun u v => a.lat u v ∨ Paired es u v⟩, false)
  | .addEdge s t true => (⟨fun u v => a.obs u v ∨ (u, v) = (s, t), a.lat⟩, false)
  | .addEdge s t false => (⟨a.obs, fun u v => a.lat u v ∨ Paired [(s, t)] u v⟩, false)
  | .removeNodes ns => (⟨fun u v => a.obs u v ∧ u ∉ ns ∧ v ∉ ns, fun u v => a.lat u v ∧ u ∉ ns ∧ v ∉ ns⟩, false)
  | .removeEdge e true => a.removeObs [e]
  | .removeEdge e false => (⟨a.obs, fun u v => a.lat u v ∧ ¬ Paired [e] u v⟩, false)
  | .removeEdgesFrom es true => a.removeObs es
  | .removeEdgesFrom es false => (⟨a.obs, fun u v => a.lat u v ∧ ¬ Paired es u v⟩, false)

/-- The abstract graph after a history, and the list of flags. -/
noncomputable def AbsGraph.run {α : Type} (a : AbsGraph α) : List (Edit α) → AbsGraph α × List Bool
  | [] => (a, [])
  | e :: es => let r := (a.step e).1.run es; (r.1, (a.step e).2 :: r.2)

/-- An edit that does not re-add an observed edge that is already there (and does not use
`add_edge(..., observed=False)`). -/
def AbsGraph.Legal {α : Type} (a : AbsGraph α) : Edit α → Prop
  | .addEdgesFrom es true => es.Nodup ∧ ∀ e ∈ es, ¬ a.obs e.1 e.2
  | .addEdge s t true => ¬ a.obs s t
  | .addEdge _ _ false => False
  | _ => True

/-- All edits of a history are legal when their turn comes. -/
def AbsGraph.LegalHistory {α : Type} (a : AbsGraph α) : List (Edit α) → Prop
  | [] => True
  | e :: es => a.Legal e ∧ (a.step e).1.LegalHistory es

end YL.Spec
