import Verif.AsyncRun
/-!
# Ranks with programs of their own, in lock-step

Programs whose loops run a different number of times on different ranks, such as `update` of `examples/statistical_mechanics/Ising/ising.cpp` 46-124: between two calls of `ghostswap` each rank
executes statements of its own; the calls are made together. This is the simple semantics; `Verif/EachRunProps.lean` proves that every schedule of the machine of `Verif/AsyncRun.lean` ends
with its result.
-/

namespace MMSP.Async

open ParallelRun

variable {V : Type}

/-- The statements before the first call of `ghostswap`. -/
def untilCall : List (Stmt V) → List (Stmt V)
  | [] => []
  | .ghostswap _ :: _ => []
  | .loop dst kern :: p => .loop dst kern :: untilCall p
  | .swap a b :: p => .swap a b :: untilCall p

/-- The statements after it. -/
def afterCall : List (Stmt V) → List (Stmt V)
  | [] => []
  | .ghostswap _ :: p => p
  | .loop _ _ :: p => afterCall p
  | .swap _ _ :: p => afterCall p

/-- A statement without communication in an MPI build, e.g. `ising.cpp` 67-118. -/
def gridStmt (g : Shape) : Stmt V → Grids V → Outcome (Grids V)
  | .loop dst kern, σ => runLoop .mpi g dst kern σ
  | .swap a b, σ => .ok (swapGrids a b σ)
  | .ghostswap _, σ => .ok σ

/-- Several of them. -/
def runLocal (g : Shape) (p : List (Stmt V)) (o : Outcome (Grids V)) : Outcome (Grids V) := p.foldl (fun o s => o.bind (gridStmt g s)) o

/-- `N` times: every rank executes its statements up to its next call of `ghostswap`, then all ranks exchange the ghosts of grid `a` (`include/MMSP.grid.cpp` 414-512); then the rest. -/
def eachRun (c : Nat → Cell V) (w : World) (a : Nat) : Nat → (Int → List (Stmt V)) → (Int → Outcome (Grids V)) → Int → Outcome (Grids V)
  | 0, p, S => fun r => runLocal (w.shape r) (untilCall (p r)) (S r)
  | N + 1, p, S => eachRun c w a N (fun r => afterCall (p r)) (mpiStmt c w (.ghostswap a) fun r => runLocal (w.shape r) (untilCall (p r)) (S r))

end MMSP.Async
