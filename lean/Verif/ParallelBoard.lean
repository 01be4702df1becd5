import Verif.ParallelRun
import Verif.ConvexSplit
/-!
# Convex splitting in an MPI build

Model of `update` of `examples/phase_transitions/cahn-hilliard/convex_splitting/cahn-hilliard.cpp` 276-461 as it runs on several ranks. The serial program is that of C57
(`ConvexSplit.update`).

Simplifications: as in C50 all ranks execute a statement before the next one begins; `MPI_Allreduce` with `MPI_SUM` gives all ranks the sum of the numbers of the ranks, here of exact
numbers (its order of summation is free); `MMSP::Abort(-1)`, which all ranks call together, stops the program with that code.
-/

namespace MMSP.Board

open ParallelRun Stencil ConvexSplit

variable {V : Type}

/-- Lines 336-340: tiles whose sum of coordinates has the remainder `color` are left as they are; `kern` is the new value of the others. `x` is the position of the node in the whole
grid. -/
def boardKernel (d : Nat) (color : Int) (kern : Kernel V) : Kernel V := fun A x =>
  if Int.tmod (∑ j ∈ Finset.range d, x j) 2 = color then A 1 x else kern A x

/-- Lines 327-369: first colour, second colour, each followed by `ghostswap(newGrid)`. Grid 0 is `oldGrid`, grid 1 is `newGrid`. -/
def colours (d : Nat) (kern : Kernel V) : List (Stmt V) :=
  [.loop 1 (boardKernel d 1 kern), .ghostswap 1, .loop 1 (boardKernel d 0 kern), .ghostswap 1]

/-- Lines 380-414: the sum of the contributions of the nodes of a process. -/
def localSum {R : Type} [Add R] [Zero R] (bd : Build) (g : Shape) (res : (Nat → (Nat → Int) → Outcome V) → (Nat → Int) → Outcome R) (σ : Grids V) : Outcome R :=
  (List.range g.nodes.toNat).foldlM (fun s (i : Nat) => (res (fun k => gridAt bd g (σ k)) (g.position i)).bind fun e => .ok (s + e)) 0

/-- `MPI_Allreduce` with `MPI_SUM`, lines 297-300 and 417-422. -/
def allreduce {R : Type} [Add R] [Zero R] (np : Nat) (f : Int → Outcome R) : Outcome R :=
  (List.range np).foldlM (fun s (r : Nat) => (f r).bind fun e => .ok (s + e)) 0

/-- What has become of all ranks; if one of them failed, the run did. -/
def together {X : Type} (np : Nat) (S : Int → Outcome X) (D : Int → X) : Outcome (Int → X) :=
  (List.range np).foldlM (fun D (r : Nat) => (S r).bind fun s => .ok (Function.update D (r : Int) s)) D

section
variable (c : Nat → Cell V) (w : World) (np : Nat) {R : Type} [Add R] [Zero R] (kern : Kernel V) (res : (Nat → (Nat → Int) → Outcome V) → (Nat → Int) → Outcome R) (again : R → Bool)

/-- Lines 313-434 on all ranks, with `left` iterations left before `max_iter`; `again` is `residual>tolerance` as a function of the sums. -/
def mpiSolve : Nat → Nat → Bool → (Int → Grids V) → Outcome (Int → Grids V)
  | 0, _, _, _ => .abort (-1)
  | left + 1, iter, go, D =>
    if go then
      (together np (mpiRun c w (colours w.d kern) fun r => .ok (D r)) D).bind fun D =>
      (if iter + 1 < 5 ∨ (iter + 1) % 5 = 0 then (allreduce np fun r => localSum .mpi (w.shape r) res (D r)).bind fun s => .ok (again s) else .ok go).bind fun go =>
      mpiSolve left (iter + 1) go D
    else .ok D

/-- The time loop, lines 309-460: `ghostswap` of both grids, the solver, `swap(oldGrid,newGrid)`. -/
def mpiSteps (maxIter : Nat) : Nat → (Int → Grids V) → Outcome (Int → Grids V)
  | 0, D => .ok D
  | n + 1, D =>
    (together np (mpiRun c w [.ghostswap 0, .ghostswap 1] fun r => .ok (D r)) D).bind fun D =>
    (mpiSolve c w np kern res again maxIter 0 true D).bind fun D =>
    (together np (mpiRun c w [.swap 0 1] fun r => .ok (D r)) D).bind fun D => mpiSteps maxIter n D

/-- `update`, lines 276-461: `ghostswap(oldGrid)`, `newGrid.copy(oldGrid)`, which copies ghosts too, and the time loop. -/
def mpiUpdate (maxIter steps : Nat) (D : Int → Grids V) : Outcome (Int → Grids V) :=
  (together np (mpiRun c w [.ghostswap 0] fun r => .ok (D r)) D).bind fun D => mpiSteps c w np kern res again maxIter steps fun r => Function.update (D r) 1 (D r 0)
end

section
variable {α : Type} [Field α]

/-- `fringe_laplacian(newGrid, x, field)`, lines 160-177 -/
def fringeKernel (d : Nat) (dx : Nat → α) (sel : α × α → α) (A : Nat → (Nat → Int) → Outcome (α × α)) (x : Nat → Int) : Outcome α :=
  fringeLoop (fun y => (A 1 y).bind fun v => .ok (sel v)) (axisWeight dx) (List.range d) x 0

/-- `field_laplacian(newGrid, x, field)`, lines 138-157 -/
def fieldKernel (d : Nat) (dx : Nat → α) (sel : α × α → α) (A : Nat → (Nat → Int) → Outcome (α × α)) (x : Nat → Int) : Outcome α :=
  ((A 1 x).bind fun v => .ok (sel v)).bind fun y => lapLoop (fun y => (A 1 y).bind fun v => .ok (sel v)) (axisWeight dx) y (List.range d) x 0

/-- Lines 342-365. -/
def nodeKernel (p : Params α) (d : Nat) (dx : Nat → α) : Kernel (α × α) := fun A x =>
  (A 0 x).bind fun o =>
  (A 1 x).bind fun v =>
  let weight := (List.range d).foldl (fun w j => w + 2 / dx j ^ 2) 0
  let a12 := p.dt * p.D * weight
  let a21 := -p.nonlinear v.1 - p.K * weight
  let det := 1 - a12 * a21
  (fringeKernel d dx Prod.snd A x).bind fun fu =>
  (fringeKernel d dx Prod.fst A x).bind fun fc =>
  let b1 := o.1 + p.D * p.dt * fu
  let b2 := p.expansive o.1 - p.K * fc
  .ok (p.omega * ((b1 - b2 * a12) / det) + (1 - p.omega) * v.1, p.omega * ((b2 - b1 * a21) / det) + (1 - p.omega) * v.2)

/-- Lines 387-414. -/
def residualKernel (p : Params α) (d : Nat) (dx : Nat → α) (A : Nat → (Nat → Int) → Outcome (α × α)) (x : Nat → Int) : Outcome (α × α) :=
  (fieldKernel d dx Prod.fst A x).bind fun lapC =>
  (fieldKernel d dx Prod.snd A x).bind fun lapU =>
  (A 0 x).bind fun o =>
  (A 1 x).bind fun v =>
  let b1 := o.1
  let b2 := p.expansive o.1
  let r1 := b1 - (v.1 - p.D * p.dt * lapU)
  let r2 := b2 - (v.2 - p.contractive v.1 + p.K * lapC)
  .ok (r1 * r1 + r2 * r2, b1 * b1 + b2 * b2)

variable [LinearOrder α]

/-- Line 424 and the condition of the loop, with `gridSize` of lines 296-300: the numbers of nodes of all ranks added up. -/
def tooLargeAll (p : Params α) (sqrt : α → α) (size : Nat) (r : α × α) : Bool :=
  if r.2 = 0 then decide (r.1 ≠ 0) else decide (p.tol < sqrt (r.1 / r.2) / (2 * (size : α)))

/-- `update(oldGrid, steps)` on `np` ranks. -/
def convexUpdate (c : Nat → Cell (α × α)) (w : World) (np : Nat) (p : Params α) (dx : Nat → α) (sqrt : α → α) (maxIter steps : Nat) (D : Int → Grids (α × α)) : Outcome (Int → Grids (α × α)) :=
  mpiUpdate c w np (nodeKernel p w.d dx) (residualKernel p w.d dx) (tooLargeAll p sqrt ((List.range np).map fun r : Nat => (w.shape r).nodes.toNat).sum) maxIter steps D
end

end MMSP.Board
