import Mathlib.Algebra.Order.Field.Basic
import Mathlib.Algebra.Order.Ring.Rat
import Mathlib.Algebra.Field.Rat
import Mathlib.Data.Rat.Defs
import Mathlib.Data.List.Range

/-!
# Sampling integers without replacement

Model of `/repo/ylearn/sklearn_ex/cloned/utils/_random.pyx:28-312`.

Random numbers are the list of what the generator returns, call by call; `Permutation` is what
`rng.permutation` returns.  Simplified: sizes are integers without overflow; `ratio` is an exact
quotient; a generator that has no more numbers to give is the result `starved` (a real generator
goes on, so the loop goes on).
-/
set_option linter.unusedSectionVars false

namespace YL.Swr

/-- What can happen instead of a sample. -/
inductive Err | value | starved
  deriving DecidableEq, Repr

/-- `_sample_without_replacement_check_input` (`_random.pyx:28-38`). -/
def checkInput (n k : Int) : Except Err Unit :=
  if n < 0 then .error .value
  else if k > n then .error .value
  else .ok ()

/-- The loops of the tracking selection (`_random.pyx:96-101`): `k` numbers are still wanted. -/
def track : Nat → List Nat → List Nat → Except Err (List Nat)
  | 0, out, _ => .ok out
  | _ + 1, _, [] => .error .starved
  | k + 1, out, j :: ds =>
    if j ∈ out then track (k + 1) out ds else track k (out ++ [j]) ds

/-- One step of the pool method (`_random.pyx:156-160`): the part of the pool that is in use. -/
def poolStep (pool : List Nat) (j : Nat) : List Nat :=
  (pool.set j (pool.getD (pool.length - 1) 0)).dropLast

/-- The loop of the pool method (`_random.pyx:156-160`). -/
def poolLoop : Nat → List Nat → List Nat → Except Err (List Nat)
  | 0, _, _ => .ok []
  | _ + 1, _, [] => .error .starved
  | k + 1, pool, j :: ds => (poolLoop k (poolStep pool j) ds).map (fun o => pool.getD j 0 :: o)

/-- `_sample_without_replacement_with_pool` (`_random.pyx:106-162`). -/
def pool (n k : Nat) (ds : List Nat) : Except Err (List Nat) := poolLoop k (List.range n) ds

/-- One step of the reservoir sampling (`_random.pyx:216-219`). -/
def reservoirStep (k i : Nat) (out : List Nat) (j : Nat) : List Nat :=
  if j < k then out.set j i else out

/-- The loop of the reservoir sampling (`_random.pyx:216-219`): `m` numbers to go, from `i` on. -/
def reservoirLoop (k : Nat) : Nat → Nat → List Nat → List Nat → Except Err (List Nat)
  | 0, _, out, _ => .ok out
  | _ + 1, _, _, [] => .error .starved
  | m + 1, i, out, j :: ds => reservoirLoop k m (i + 1) (reservoirStep k i out j) ds

/-- `_sample_without_replacement_with_reservoir_sampling` (`_random.pyx:165-221`). -/
def reservoir (n k : Nat) (ds : List Nat) : Except Err (List Nat) :=
  reservoirLoop k (n - k) k (List.range k) ds

/-- The names of methods. -/
inductive Method | auto | tracking | reservoir | pool | other
  deriving DecidableEq, Repr

/-- Which algorithm runs. -/
inductive Algo | permutation | tracking | reservoir | pool
  deriving DecidableEq, Repr

/-- The choice of the algorithm (`_random.pyx:280-312`). -/
def choose (n k : Nat) (m : Method) : Except Err Algo :=
  let ratio : ℚ := if n = 0 then 1 else k / n
  if m = .auto ∧ ratio > 1 / 100 ∧ ratio < 99 / 100 then .ok .permutation
  else if m = .auto ∨ m = .tracking then
    if ratio < 1 / 5 then .ok .tracking else .ok .reservoir
  else if m = .reservoir then .ok .reservoir
  else if m = .pool then .ok .pool
  else .error .value

/-- `sample_without_replacement` (`_random.pyx:224-312`); a negative number of samples is refused
by `np.empty` (a permutation's slice is not reached: the ratio is negative). -/
def sample (n k : Int) (m : Method) (perm : List Nat) (ds : List Nat) : Except Err (List Nat) :=
  match checkInput n k with
  | .error e => .error e
  | .ok () =>
    if k < 0 then .error .value
    else
      match choose n.toNat k.toNat m with
      | .error e => .error e
      | .ok .permutation => .ok (perm.take k.toNat)
      | .ok .tracking => track k.toNat [] ds
      | .ok .reservoir => reservoir n.toNat k.toNat ds
      | .ok .pool => pool n.toNat k.toNat ds

end YL.Swr
