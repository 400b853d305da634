import Verif.Model.Nx
import Mathlib.Algebra.Field.Basic
import Mathlib.Data.List.Sort
import Mathlib.Algebra.BigOperators.Group.List.Basic

/-!
# Model of what the uplift plots show

`_sample` and `_split` of `ylearn/uplift/_plot.py`, with pandas' `qcut` (linear interpolation between order statistics) in exact arithmetic. Drawing itself and
missing values are not modelled.
-/

namespace YL.UPlot

open YL

/-- `np.linspace(0, len(df) - 1, n_sample, endpoint=True, dtype='int')`: the positions are rounded down (_plot.py:8) -/
def positions (len n : Nat) : List Nat := (List.range n).map (fun i => if n = 1 then 0 else i * (len - 1) / (n - 1))

/-- `_sample`: the rows at the positions, which become their index (_plot.py:5-13) -/
def sample {V : Type} (df : List V) (n : Nat) : Except Err (List (Nat × V)) :=
  if n < df.length then .ok ((positions df.length n).filterMap (fun i => (df[i]?).map (fun v => (i, v)))) else .error .assertion

variable {K : Type} [Field K] [LinearOrder K]

/-- the quantile `k / b` of sorted values, by linear interpolation (`qcut`, _plot.py:22) -/
def quantile (s : List K) (b k : Nat) : K :=
  let lo := k * (s.length - 1) / b
  let a := s.getD lo 0
  let frac := (((k * (s.length - 1)) % b : Nat) : K) / ((b : Nat) : K)
  a + frac * (s.getD (lo + 1) a - a)

/-- the edges of the bins of `qcut` (_plot.py:22) -/
def edges (x : List K) (b : Nat) : List K := (List.range (b + 1)).map (quantile (x.insertionSort (· ≤ ·)) b)

/-- the bin of a value: the number of edges below it, less one; the lowest edge belongs to the first bin (`qcut`, _plot.py:22) -/
def binOf (es : List K) (v : K) : Nat := (es.filter (fun e => decide (e < v))).length - 1

/-- `mean` of a group; an empty group has none (_plot.py:23) -/
def meanOf (l : List K) : Option K := if l = [] then none else some (l.sum / ((l.length : Nat) : K))

/-- `_split` for one column: the means of the bins, from the highest to the lowest (_plot.py:16-29); equal edges are a `ValueError` of `qcut` -/
def split (x : List K) (b : Nat) : Except Err (List (Option K)) :=
  if (edges x b).Nodup then
    .ok ((List.range b).reverse.map (fun k => meanOf (x.filter (fun v => decide (binOf (edges x b) v = k)))))
  else .error .value

end YL.UPlot
