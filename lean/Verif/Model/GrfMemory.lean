/-!
# Model of the workspace of `init_criterion`

`ylearn/estimator_model/_generalized_forest/tree/_util_lib.cpp:58-215`. The C++ function allocates one block of doubles
and cuts it into eight arrays. An access is the distance of the double from the start of the block. `n` is
`n_node_samples`, `dy` is `d_y` (the number of outcomes), `dt` is `d_tr` (the number of treatments).

Simplification: 32-bit `int` arithmetic is unbounded.
-/

namespace YL.GrfMem

/-- `mem_size` (_util_lib.cpp:84-91) -/
def memSize (n dy dt : Nat) : Nat := n * dy + n * dt + dy * dt + dt * dt + n * dt + n * dy + n * dt + n * dy

/-- `y_node` (_util_lib.cpp:94) -/
def yNode : Nat := 0
/-- `tr_node` (_util_lib.cpp:95) -/
def trNode (n dy : Nat) : Nat := yNode + n * dy
/-- `ls_coef` (_util_lib.cpp:96) -/
def lsCoef (n dy dt : Nat) : Nat := trNode n dy + n * dt
/-- `f_grad` (_util_lib.cpp:97) -/
def fGrad (n dy dt : Nat) : Nat := lsCoef n dy dt + dy * dt
/-- `grad_coef` (_util_lib.cpp:98) -/
def gradCoef (n dy dt : Nat) : Nat := fGrad n dy dt + dt * dt
/-- `y_dif` (_util_lib.cpp:99), never used -/
def yDif (n dy dt : Nat) : Nat := gradCoef n dy dt + n * dt
/-- `tr_dif` (_util_lib.cpp:100) -/
def trDif (n dy dt : Nat) : Nat := yDif n dy dt + n * dy
/-- `y_node_cpy` (_util_lib.cpp:101) -/
def yCopy (n dy dt : Nat) : Nat := trDif n dy dt + n * dt

/-- all pairs of loop variables `i < m`, `k < l` (_util_lib.cpp:113-133) -/
def pairs (m l : Nat) : List (Nat × Nat) := (List.range m).flatMap (fun i => (List.range l).map (fun k => (i, k)))

/-- copying outcomes and treatments of the node (_util_lib.cpp:108-133) -/
def copyIn (n dy dt : Nat) : List Nat :=
  (pairs n dy).map (fun p => yNode + (p.1 + n * p.2)) ++ (pairs n dt).map (fun p => trNode n dy + (p.1 + n * p.2))

/-- what `eigen_solve(m, n, r, A, B, X)` touches: the matrices `A` (m x n) and `B` (m x r), and
`memcpy(X, ..., n * r * sizeof(double))` (_util_lib.cpp:11-21) -/
def eigenSolve (m n r a b x : Nat) : List Nat :=
  (List.range (m * n)).map (fun i => a + i) ++ (List.range (m * r)).map (fun i => b + i) ++
    (List.range (n * r)).map (fun i => x + i)

/-- where the coefficient of treatment `k` for outcome `o` is read back (_util_lib.cpp:147-151) -/
def readCoef (n dy dt k o : Nat) : Nat := yCopy n dy dt + (k + o * n)

/-- where `eigen_solve` put it: the solution is `d_tr` x `d_y`, column by column (_util_lib.cpp:16-18) -/
def solvedCoef (n dy dt k o : Nat) : Nat := yCopy n dy dt + (k + o * dt)

/-- the least squares step (_util_lib.cpp:145-151) -/
def leastSquares (n dy dt : Nat) : List Nat :=
  eigenSolve n dt dy (trNode n dy) yNode (yCopy n dy dt) ++
    (pairs dt dy).map (fun p => readCoef n dy dt p.1 p.2) ++
    (pairs dt dy).map (fun p => lsCoef n dy dt + (p.1 + p.2 * dt))

/-- differences, residuals and gradient (_util_lib.cpp:157-183) -/
def differences (n dy dt : Nat) : List Nat :=
  (pairs n dt).map (fun p => trDif n dy dt + (p.1 + n * p.2)) ++
    (pairs n dt).map (fun p => trNode n dy + (p.1 + n * p.2)) ++
    (pairs n dy).map (fun p => yNode + (p.1 + n * p.2)) ++
    (pairs dt dy).map (fun p => lsCoef n dy dt + (p.1 + p.2 * dt)) ++
    (pairs n dt).map (fun p => gradCoef n dy dt + (p.1 + n * p.2))

/-- the matrix, its pseudo inverse and the pseudo outcomes (_util_lib.cpp:186-213) -/
def pseudo (n dy dt : Nat) : List Nat :=
  (pairs dt dt).map (fun p => fGrad n dy dt + (p.1 + dt * p.2)) ++
    (List.range (dt * dt)).map (fun i => fGrad n dy dt + i) ++
    (pairs n dt).map (fun p => gradCoef n dy dt + (p.1 + n * p.2))

/-- everything `init_criterion` touches in its workspace (_util_lib.cpp:104-213) -/
def accesses (n dy dt : Nat) : List Nat :=
  copyIn n dy dt ++ leastSquares n dy dt ++ differences n dy dt ++ pseudo n dy dt

end YL.GrfMem
