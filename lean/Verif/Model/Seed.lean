import Mathlib.Logic.Function.Basic

/-!
# `set_random_state` and the calls that use it

Model of `/repo/ylearn/utils/_common.py:19-29` and of where the library seeds the global
random streams of numpy and torch: `Why.fit`, the causal discovery classes, the methods of
`BayesianNetwork`, and `DeepIV.fit`, which keeps its `random_state` but never uses it.

What the calls do with the streams is left open: a call is any function of its argument and
of the two streams.  Simplified: torch can be imported; a call draws from no generator of
its own.
-/
set_option linter.unusedSectionVars false

namespace YL.Seed

inductive Err | value | attr
  deriving DecidableEq, Repr

/-- The values users pass as `random_state`: nothing, a Python integer (or a bool), a
`RandomState` object, a numpy integer. -/
inductive Arg | none | int (i : Int) | obj (k : Nat) | npInt (i : Int)
  deriving DecidableEq, Repr

/-- The generators: `np.random.seed`, `torch.random.manual_seed`, and one
`randint(0, 65535)` of a `RandomState`. -/
structure Gens (N T O : Type) where
  npSeed : Int → N
  torchSeed : Int → T
  randint : O → Nat × O

/-- The process's random streams, and the state of each `RandomState` object. -/
structure World (N T O : Type) where
  np : N
  torch : T
  objs : Nat → O

variable {N T O A R : Type}

/-- `np.random.seed(seed)` accepts 0 ≤ seed < 2³². -/
def seedable (i : Int) : Bool := decide (0 ≤ i ∧ i < 2 ^ 32)

/-- `set_random_state` (`utils/_common.py:19-29`).  A numpy integer is no `int` and has no
`randint`; a number out of numpy's range raises before torch is seeded. -/
def setRandomState (g : Gens N T O) (s : Arg) (w : World N T O) : Except Err Unit × World N T O :=
  match s with
  | .none => (.ok (), w)
  | .int i =>
    if seedable i then (.ok (), { w with np := g.npSeed i, torch := g.torchSeed i })
    else (.error .value, w)
  | .obj k =>
    let r := g.randint (w.objs k)
    (.ok (), { np := g.npSeed r.1, torch := g.torchSeed r.1,
               objs := Function.update w.objs k r.2 })
  | .npInt _ => (.error .attr, w)

/-- `if random_state:`. -/
def truthy : Arg → Bool
  | .none => false
  | .int i => i != 0
  | .obj _ => true
  | .npInt i => i != 0

/-- The kinds of calls. -/
inductive Site | why | discovery | network | deepIV
  deriving DecidableEq, Repr

/-- Where they seed: `Why.fit` (`api/_why.py:240`) and the discovery classes
(`causal_discovery/_discovery.py:179, 341, 545`, `_dydiscovery.py:103, 253`,
`_proxy_gcastle.py:52`, `_proxy_pgm.py:47`) always; `sample`, `predict`, `predict_raw`,
`estimate`, `fit` and `do` of the networks (`bayesian/_network.py:257, 290, 337, 458, 593,
651`) if the argument is truthy; `DeepIV.fit` (`estimator_model/deepiv.py:669-793`) never. -/
def seedAt (g : Gens N T O) : Site → Arg → World N T O → Except Err Unit × World N T O
  | .why, s, w => setRandomState g s w
  | .discovery, s, w => setRandomState g s w
  | .network, s, w => if truthy s then setRandomState g s w else (.ok (), w)
  | .deepIV, _, w => (.ok (), w)

/-- What a call computes from its argument and the two streams, and the streams after it. -/
abbrev Body (N T A R : Type) := A → N → T → R × N × T

/-- A call: seed, then compute. -/
def call (g : Gens N T O) (body : Body N T A R) (site : Site) (s : Arg) (a : A)
    (w : World N T O) : Except Err R × World N T O :=
  match seedAt g site s w with
  | (.error e, w) => (.error e, w)
  | (.ok (), w) =>
    let r := body a w.np w.torch
    (.ok r.1, { w with np := r.2.1, torch := r.2.2 })

/-- What happens in a process: the user's own code draws from the global streams or from
an object, or seeds them; calls of the library. -/
inductive Op (N T O A R : Type)
  | user (f : World N T O → World N T O)
  | lib (body : Body N T A R) (site : Site) (s : Arg) (a : A)

/-- A history. -/
def run (g : Gens N T O) (w : World N T O) : List (Op N T O A R) → World N T O
  | [] => w
  | .user f :: os => run g (f w) os
  | .lib body site s a :: os => run g (call g body site s a w).2 os

/-- `BayesianNetwork.estimate_raw` (`bayesian/_network.py:519-532`): `do` makes a network with
the intervention (it draws when it trains), that network predicts; the same seed is given
four times; the result is the difference of the predictions. -/
def estimateRaw {P : Type} (g : Gens N T O) (doBody : Body N T A P) (predict : Body N T P Int)
    (s : Arg) (treat control : A) (w : World N T O) : Except Err Int × World N T O :=
  match call g doBody .network s treat w with
  | (.error e, w) => (.error e, w)
  | (.ok objTreat, w) =>
    match call g predict .network s objTreat w with
    | (.error e, w) => (.error e, w)
    | (.ok t, w) =>
      match call g doBody .network s control w with
      | (.error e, w) => (.error e, w)
      | (.ok objControl, w) =>
        match call g predict .network s objControl w with
        | (.error e, w) => (.error e, w)
        | (.ok c, w) => (.ok (t - c), w)

end YL.Seed
