import Verif.Ghost
import Verif.Stencil
import Verif.FileIOProps
/-!
# Update loops, in a serial and in an MPI build

Model of the `update` functions of the examples that follow the pattern

    ghostswap(oldGrid);
    for (int step=0; step<steps; step++) {
        for (int i=0; i<nodes(oldGrid); i++) newGrid(i) = f(oldGrid, i);
        swap(oldGrid,newGrid);
        ghostswap(oldGrid);
    }

(`examples/phase_transitions/allen-cahn/allen-cahn.cpp` 47-76, `examples/phase_transitions/cahn-hilliard/explicit/cahn-hilliard.cpp`
47-81, `examples/coarsening/grain_growth/isotropic/phase_field/graingrowth.cpp` 72-107 and others).

A program is a list of statements over numbered grids of equal shape (`newGrid`, `temp` are copy constructed from `oldGrid`).
Simplifications: all ranks execute a statement before the next one begins (loops and `swap` are local to the rank; that the
schedule inside `ghostswap` does not matter is C10); progress output is left out; `ghostswap` does not read boundary conditions,
so `Ghost.ghostswap` with the shapes of `setup()` serves here too.
-/

namespace MMSP.ParallelRun

open MMSP.Stencil MMSP.Ghost

/-- A right-hand side: given the accesses `GRIDk(x)` of all grids and the position of node `i`, the value assigned. -/
abbrev Kernel (V : Type) := (Nat → (Nat → Int) → Outcome V) → (Nat → Int) → Outcome V

/-- Statements of an `update` function. -/
inductive Stmt (V : Type) where
  /-- `for (int i=0; i<nodes(G); i++) G_dst(i) = kern(i);`, e.g. allen-cahn.cpp 67-70 -/
  | loop (dst : Nat) (kern : Kernel V)
  /-- `swap(G_a, G_b);`, e.g. allen-cahn.cpp 71 -/
  | swap (a b : Nat)
  /-- `ghostswap(G_a);`, e.g. allen-cahn.cpp 72 -/
  | ghostswap (a : Nat)

/-- The data arrays of the grids of one process. -/
abbrev Grids (V : Type) := Nat → Int → V

variable {V : Type}

/-- The loop over nodes. Every iteration sees the assignments of the earlier ones. -/
def runLoop (bd : Build) (g : Shape) (dst : Nat) (kern : Kernel V) (σ : Grids V) : Outcome (Grids V) :=
  (List.range g.nodes.toNat).foldlM (fun (σ : Grids V) (i : Nat) =>
    (kern (fun k => gridAt bd g (σ k)) (g.position i)).bind fun v =>
    (store g (σ dst) (g.atNode bd i) v).bind fun a => .ok (Function.update σ dst a)) σ

/-- `include/MMSP.grid.cpp` 1913-1991 for grids of equal shape: the data pointers change places. -/
def swapGrids (a b : Nat) (σ : Grids V) : Grids V := fun k => if k = a then σ b else if k = b then σ a else σ k

/-- A statement in a serial build, where `ghostswap` has an empty body (`include/MMSP.grid.cpp` 414-416, 514-515). -/
def serialStmt (g : Shape) : Stmt V → Grids V → Outcome (Grids V)
  | .loop dst kern, σ => runLoop .serial g dst kern σ
  | .swap a b, σ => .ok (swapGrids a b σ)
  | .ghostswap _, σ => .ok σ

def serialRun (g : Shape) (prog : List (Stmt V)) (σ : Grids V) : Outcome (Grids V) :=
  prog.foldlM (fun σ s => serialStmt g s σ) σ

/-- A parallel run: decomposition and the boundary conditions the program gives to the outer faces. -/
structure World extends Setup where
  B0 : Nat → BC
  B1 : Nat → BC

namespace World
/-- The grid of a rank. -/
def shape (w : World) (r : Int) : Shape := FileIO.faced w.d w.g0 w.g1 w.ghosts w.p w.B0 w.B1 r
/-- The grid of the serial program. -/
def serial (w : World) : Shape := FileIO.serialShape w.d w.g0 w.g1 w.B0 w.B1
end World

/-- A statement in an MPI build, all ranks together; `c k` are the buffer functions of the cells of grid `k`. -/
def mpiStmt (c : Nat → Cell V) (w : World) : Stmt V → (Int → Outcome (Grids V)) → Int → Outcome (Grids V)
  | .loop dst kern, S => fun r => (S r).bind (runLoop .mpi (w.shape r) dst kern)
  | .swap a b, S => fun r => (S r).bind fun σ => .ok (swapGrids a b σ)
  | .ghostswap a, S =>
    let T := ghostswap fullPlan (c a) w.toSetup fun r => (S r).bind fun σ => .ok ⟨σ a, 0⟩
    fun r => (S r).bind fun σ => (T r).bind fun st => .ok (Function.update σ a st.data)

def mpiRun (c : Nat → Cell V) (w : World) (prog : List (Stmt V)) (S : Int → Outcome (Grids V)) : Int → Outcome (Grids V) :=
  prog.foldl (fun S s => mpiStmt c w s S) S

/-- `steps` passes of the time loop. -/
def repeatProg (prog : List (Stmt V)) (steps : Nat) : List (Stmt V) := (List.replicate steps prog).flatten

section Programs
variable {T : Type} [Zero T] [One T] [Add T] [Sub T] [Mul T] [Div T]

/-- `laplacian(GRIDk, i)` as part of a right-hand side (`include/MMSP.grid.cpp` 2049-2066, 2130-2134). -/
def lapKernel (d : Nat) (dx : Nat → T) (k : Nat) : Kernel T := fun A x =>
  (A k x).bind fun y => lapLoop (A k) (fun i => lapWeight (dx i)) y (List.range d) x 0

/-- `G_k(i)` combined with `laplacian(G_l,i)`. -/
def pointKernel (d : Nat) (dx : Nat → T) (k l : Nat) (f : (Nat → Int) → T → T → T) : Kernel T := fun A x =>
  (A k x).bind fun phi => (lapKernel d dx l A x).bind fun lap => .ok (f x phi lap)

/-- allen-cahn.cpp 67-72: grid 0 is `oldGrid`, grid 1 is `newGrid`; `f phi lap` is the right-hand side of 69. -/
def allenCahn (d : Nat) (dx : Nat → T) (f : T → T → T) : List (Stmt T) :=
  [.loop 1 (pointKernel d dx 0 0 fun _ => f), .swap 0 1, .ghostswap 0]

/-- allen-cahn.cpp 54 followed by `steps` passes of its time loop. -/
def allenCahnUpdate (d : Nat) (dx : Nat → T) (f : T → T → T) (steps : Nat) : List (Stmt T) :=
  .ghostswap 0 :: repeatProg (allenCahn d dx f) steps

/-- cahn-hilliard.cpp 67-77: grid 2 is `temp`; `mu phi lap` is the right-hand side of 69, `f phi lap` that of 74. -/
def cahnHilliard (d : Nat) (dx : Nat → T) (mu f : T → T → T) : List (Stmt T) :=
  [.loop 2 (pointKernel d dx 0 0 fun _ => mu), .ghostswap 2, .loop 1 (pointKernel d dx 0 2 fun _ => f), .swap 0 1, .ghostswap 0]

/-- cahn-hilliard.cpp 52 followed by `steps` passes of its time loop. -/
def cahnHilliardUpdate (d : Nat) (dx : Nat → T) (mu f : T → T → T) (steps : Nat) : List (Stmt T) :=
  .ghostswap 0 :: repeatProg (cahnHilliard d dx mu f) steps

end Programs

end MMSP.ParallelRun
