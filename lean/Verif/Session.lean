import Verif.ParallelRun
import Verif.ParallelOutput
/-!
# A session: read a file, update, write a file

Model of the part of `include/MMSP.main.hpp` 300-324 that continues a run: `GRID2D grid(argv[1])` (the constructor
`include/MMSP.grid.cpp` 132-139 calls `input`, 1183-1246, which ends with `ghostswap()` at 1243), `update(grid, steps)` and
`output(grid, filename)` (1360-1401 without MPI, 1426-1543 with MPI and the standard path).

A session is the composition of the models of these parts: `FileIO.input`, `ParallelRun.mpiRun` or `serialRun`,
`FileIO.writeBuffer` and `FileIO.standardWrites`, or `outputBytes`. Simplifications are those of the parts; in addition `update`
is called once per session (the loop over increments, `MMSP.main.hpp` 305-323, is C30) and one program text serves all numbers
of ranks.
-/

namespace MMSP.Sessions

open FileIO ParallelRun

/-- What is fixed by the program's source: compression, cell type, its name, contents of new cells, text conversion of `double`
and the number of dimensions. -/
structure Format (T D : Type) where
  comp : Option Zlib
  cell : Cell T
  fresh : Int → T
  dec : Decimal D
  dx0 : D
  name : List Byte
  d : Nat

/-- How one session is run. -/
structure Session (T D : Type) where
  /-- `none`: the serial program; `some np`: the MPI program on `np` ranks -/
  ranks : Option Nat
  /-- `GHOSTS`, the second argument of `input` (default 1, `include/MMSP.grid.h` 195) -/
  ghosts : Int
  /-- the statements of `update`, which may look at the spacings -/
  prog : (Nat → D) → List (Stmt T)
  /-- what the other grids of each rank contain at the start (`newGrid` and `temp` are allocated, not set) -/
  junk : Int → Grids T
  /-- buffer functions of those grids of `update` whose cells are not of the type of the grid that is read (`wspace`, `refGrid`) -/
  other : Nat → Option (Cell T) := fun _ => none

variable {T D : Type}

/-- The buffer functions which `ghostswap` uses on grid `k` (`include/MMSP.grid.cpp` 414-515, those of its cell type). -/
def Session.cellOf (fmt : Format T D) (s : Session T D) (k : Nat) : Cell T := (s.other k).getD fmt.cell

/-- `include/MMSP.grid.cpp` 1183-1240 on one rank. -/
def openGrid (fmt : Format T D) (bd : Build) (ghosts : Int) (np : Nat) (file : List Byte) (r : Int) : Outcome (GridObject T D) :=
  input fmt.comp fmt.cell fmt.fresh fmt.dec fmt.dx0 bd fmt.name fmt.d ghosts np r file

/-- The ranks of a run as a `World`: limits as read, decomposition of `setup()`, lower faces from the first rank and upper faces
from the last one. `shape_eq` (in `SessionProps.lean`) states that the grid of every rank in this world is the one which that
rank has read. -/
def worldOf (fmt : Format T D) (ghosts : Int) (np : Nat) (first last : GridObject T D) : World where
  d := fmt.d
  g0 := first.g0
  g1 := first.g1
  ghosts := ghosts
  p := Decomp.choose np fmt.d first.g0 first.g1
  B0 := fun j => if j < fmt.d then first.local_.shape.b0 j else .periodic
  B1 := fun j => if j < fmt.d then last.local_.shape.b1 j else .periodic

/-- `mapM` over the ranks, in their order. -/
def gather {α : Type} (f : Nat → Outcome α) : Nat → Outcome (List α)
  | 0 => .ok []
  | n + 1 => (gather f n).bind fun l => (f n).bind fun a => .ok (l ++ [a])

/-- The MPI program on `np` ranks: the single-byte writes that make up its output file. -/
def parallelSession (fmt : Format T D) (s : Session T D) (np : Nat) (file : List Byte) : Outcome (List (Nat × Byte)) :=
  (openGrid fmt .mpi s.ghosts np file 0).bind fun first =>
  (openGrid fmt .mpi s.ghosts np file (np - 1)).bind fun last =>
  let w := worldOf fmt s.ghosts np first last
  let S := mpiRun (s.cellOf fmt) w (.ghostswap 0 :: s.prog first.dx) fun r =>
    (openGrid fmt .mpi s.ghosts np file r).bind fun o => .ok (Function.update (s.junk r) 0 o.local_.data)
  (gather (fun n => (S n).bind fun τ => writeBuffer fmt.comp fmt.cell (w.shape n) (τ 0)) np).bind fun blocks =>
  standardWrites (header fmt.dec fmt.name fmt.d first.fields first.g0 first.g1 first.dx) blocks

/-- The serial program: its output file. -/
def serialSession (fmt : Format T D) (s : Session T D) (file : List Byte) : Outcome (List Byte) :=
  (openGrid fmt .serial s.ghosts 1 file 0).bind fun o =>
  let w := worldOf fmt s.ghosts 1 o o
  (serialRun w.serial (.ghostswap 0 :: s.prog o.dx) (Function.update (s.junk 0) 0 o.local_.data)).bind fun σ =>
  outputBytes fmt.comp fmt.cell fmt.dec fmt.name fmt.d o.fields o.g0 o.g1 o.dx [⟨w.serial, σ 0⟩]

/-- The session may leave `file'`: with MPI, the writes take effect in some order. -/
def Produces (fmt : Format T D) (s : Session T D) (file file' : List Byte) : Prop :=
  match s.ranks with
  | none => serialSession fmt s file = .ok file'
  | some np => ∃ writes W, parallelSession fmt s np file = .ok writes ∧ W.Perm writes ∧ ∀ i, written W i = file'[i]?

/-- Sessions one after the other, each continuing from the file of the one before. -/
inductive Chain (fmt : Format T D) : List (Session T D) → List Byte → List Byte → Prop
  | nil (file : List Byte) : Chain fmt [] file file
  | cons {s : Session T D} {ss : List (Session T D)} {f f' f'' : List Byte} (head : Produces fmt s f f')
      (tail : Chain fmt ss f' f'') : Chain fmt (s :: ss) f f''

end MMSP.Sessions
