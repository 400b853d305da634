/-!
# Model of the parameter-store discipline of `ylearn/bayesian/_network.py`

Pyro keeps all learned parameters in one store of the process. `with_pyro_ps` wraps the methods of `SviBayesianNetwork` that
train or sample. The state of the store is an arbitrary type; what a method does to it is an arbitrary function.
-/

namespace YL.Pyro

/-- what the body of a method ends with: an exception, a result, or a result after `pyro_param_state_ = _get_pyro_params()`
(_network.py:635-644, 696-708) -/
inductive Outcome (R E : Type) where
  | raised (e : E)
  | ret (r : R)
  | saved (r : R)

/-- a network object: `_is_fitted` and `pyro_param_state_` (_network.py:223-227, 583-584) -/
structure Obj (S : Type) where
  isFitted : Bool
  saved : Option S

/-- the process: Pyro's store and the network objects -/
structure World (S : Type) where
  store : S
  objs : Nat → Obj S

/-- one call of a wrapped method: on which object, into which (`inplace=False` makes a new one, `_get_stub`,
_network.py:533-551), `check_fitted`, `resume_param_state`, whether it is `fit` (which sets `_is_fitted` afterwards,
_network.py:229-233), and the body -/
structure Call (S R E : Type) where
  obj : Nat
  dest : Nat
  check : Bool
  resume : Bool
  isFit : Bool
  body : S → S × Outcome R E

/-- the answer of a call -/
inductive Answer (R E : Type) where
  | refused
  | raised (e : E)
  | ok (r : R)
  deriving DecidableEq

/-- the answer the caller sees -/
def answerOf {R E : Type} : Outcome R E → Answer R E
  | .raised e => .raised e
  | .ret r => .ok r
  | .saved r => .ok r

/-- the objects after the body ended with the store `s` (_network.py:637-644, 229-233, 704-708) -/
def after {S R E : Type} (objs : Nat → Obj S) (c : Call S R E) (s : S) : Outcome R E → Nat → Obj S
  | .raised _ => objs
  | .ret _ => objs
  | .saved _ => fun j => if j = c.dest then { isFitted := c.isFit || (objs c.obj).isFitted, saved := some s } else objs j

/-- `_with_params` (_network.py:43-63); `empty` is the cleared store -/
def step {S R E : Type} (empty : S) (w : World S) (c : Call S R E) : World S × Answer R E :=
  if c.check && !(w.objs c.obj).isFitted then (w, .refused)
  else if c.resume then
    let r := c.body ((w.objs c.obj).saved.getD empty)
    ({ store := w.store, objs := after w.objs c r.1 r.2 }, answerOf r.2)
  else
    let r := c.body w.store
    ({ store := r.1, objs := after w.objs c r.1 r.2 }, answerOf r.2)

/-- a history of calls: the final world and the answers -/
def run {S R E : Type} (empty : S) : World S → List (Call S R E) → World S × List (Answer R E)
  | w, [] => (w, [])
  | w, c :: cs =>
    let r := step empty w c
    let q := run empty r.1 cs
    (q.1, r.2 :: q.2)

end YL.Pyro
