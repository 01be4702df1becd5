/-!
# `check_boundary` and the boundary-condition enumeration

Model of `include/MMSP.utility.h` lines 23-29 (the enumeration) and `include/MMSP.utility.cpp` lines 42-57.
Simplification: `int` is `Int` (no overflow).
-/

namespace MMSP

/-- `include/MMSP.utility.h` 23-29: `mirror, Neumann, periodic, parallel, Dirichlet`. -/
inductive BC where
  | mirror | neumann | periodic | parallel | dirichlet
  deriving DecidableEq, Repr

/-- The integer stored in `b0`/`b1` and in files (`include/MMSP.utility.h` 23-29). -/
def BC.code : BC → Int
  | .mirror => 0
  | .neumann => 1
  | .periodic => 2
  | .parallel => 3
  | .dirichlet => 4

/-- Whether `MPI_VERSION` is defined when the library is compiled. -/
inductive Build where
  | serial | mpi
  deriving DecidableEq, Repr

/-- `include/MMSP.utility.cpp` 42-57, `check_boundary(int& x, int x0, int x1, int b0, int b1)`;
the value returned is the new value of the reference parameter `x`. -/
def checkBoundary (bd : Build) (x x0 x1 : Int) (b0 b1 : BC) : Int :=
  if x < x0 then
    if b0 = .neumann ∨ b0 = .dirichlet then x0
    else if bd = .serial ∧ b0 = .periodic then x1 - (x0 - x)
    else if b0 = .mirror then 2 * x0 - x
    else x
  else if x ≥ x1 then
    if b1 = .neumann ∨ b1 = .dirichlet then x1 - 1
    else if bd = .serial ∧ b1 = .periodic then x0 + (x - x1)
    else if b1 = .mirror then 2 * (x1 - 1) - x
    else x
  else x

end MMSP
