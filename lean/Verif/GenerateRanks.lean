import Verif.Generate
import Verif.SessionCells
/-!
# Initial conditions on several ranks

Model of the functions `generate` of the examples in an MPI build. `MMSP.main.hpp` 91-122 calls `generate` on every rank; each rank constructs its part of the grid (one layer of ghosts,
periodic outer faces), fills its own nodes, and all ranks write one file with `output`. In an MPI build `check_boundary` leaves coordinates beyond a periodic or parallel face as they are
(`include/MMSP.utility.cpp` 44, 49), so that an access one step outside reaches a ghost cell.

Simplifications: those of `Generate.lean`; call number `n` of `rand()` on rank `r` gives `rand r n` (`srand(time(NULL)+rank)`, `MMSP.main.hpp` 55); what `new T[n]` leaves in a cell is a
parameter.
-/

namespace MMSP.GenerateRanks

open Generate (cube inside quarter nParticles)
open DensePF (pass)
open FileIO ParallelRun Sessions

variable {V : Type}

/-! ## Particles -/

/-- One particle around node `i`: `zener_pinning/isotropic/phase_field/zener.cpp` 32-38, 60-67, 89-97 and the same lines of the other Zener examples; `mark` is what is done to a cell. -/
def spot (g : Shape) (mark : V → Outcome V) (i : Int) (data : Int → V) : Outcome (Int → V) :=
  (cube (g.position i) g.dim).foldlM (fun data p => (deref g data (g.atVec .mpi p)).bind fun c => (mark c).bind fun c => store g data (g.atVec .mpi p) c) data

/-- `zener_pinning/isotropic/phase_field/zener.cpp` 30-39, 58-68, 87-98 -/
def spots (g : Shape) (mark : V → Outcome V) (rand : Nat → Int) (n : Nat) (data : Int → V) : Outcome (Int → V) :=
  (List.range n).foldlM (fun data j => spot g mark (Int.tmod (rand j) g.nodes) data) data

/-- The Zener examples on one rank with the grid `g`: all nodes, then the particles; `zener_pinning/isotropic/phase_field/zener.cpp` 18-39, 46-68, 75-98. -/
def zener (g : Shape) (node : (Nat → Int) → V → Outcome V) (mark : V → Outcome V) (rand : Nat → Int) (new : Int → V) : Outcome (Int → V) :=
  (pass .mpi g (fun i c => node (g.position i) c) new).bind (spots g mark rand (nParticles g.nodes))

/-- `initGrid(i)[j] = v`, `include/MMSP.vector.h` 29-36 -/
def assign {α : Type} (j : Nat) (v : α) (c : List α) : Outcome (List α) := if j < c.length then .ok (c.set j v) else .abort 134

section
variable {α : Type} [Zero α] [One α]

/-- `zener_pinning/isotropic/phase_field/zener.cpp` 20-27, 48-55, 77-84 and `anisotropic` 21-28, 49-56, 78-85 -/
def denseNode (d : Nat) (x : Nat → Int) (c : List α) : Outcome (List α) :=
  (assign 0 0 c).bind fun c => (assign 1 0 c).bind fun c => if inside d x then assign 2 1 c else assign 1 1 c

/-- `zener_pinning/isotropic/phase_field/zener.cpp` 35-37, 64-66, 94-96 and `anisotropic` 36-38, 65-67, 95-97 -/
def denseMark (c : List α) : Outcome (List α) := (assign 0 1 c).bind fun c => (assign 1 0 c).bind (assign 2 0)

/-- `set(initGrid(i),2) = 1.0` or `set(initGrid(i),1) = 1.0`, `zener_pinning/isotropic/sparsePF/zener.cpp` 20-25, 44-49, 69-74 and `anisotropic` 21-26, 45-50, 70-75 -/
def sparseNode (d : Nat) (x : Nat → Int) (c : Sparse.Cell α) : Outcome (Sparse.Cell α) := .ok (Sparse.update c (if inside d x then 2 else 1) fun _ => 1)

/-- `zener_pinning/isotropic/Monte_Carlo/zener.cpp` 20-25, 43-48, 67-72 and `anisotropic` 21-26, 44-49, 68-73 -/
def monteCarloNode (d : Nat) (x : Nat → Int) (_ : Int) : Outcome Int := .ok (if inside d x then 2 else 1)

/-! ## Grains only -/

/-- `grain_growth/isotropic/phase_field/graingrowth.cpp` 19-29, 38-48, 57-67 -/
def isoNode (d : Nat) (x : Nat → Int) (c : List α) : Outcome (List α) :=
  if inside d x then (assign 0 0 c).bind (assign 1 1) else (assign 0 1 c).bind (assign 1 0)

/-- `grain_growth/anisotropic/phase_field/graingrowth.cpp` 20-34, 44-61, 71-88 -/
def anisoNode (d : Nat) (x : Nat → Int) (c : List α) : Outcome (List α) :=
  ((List.range 4).foldlM (fun c h => assign h 0 c) c).bind (assign (quarter d x) 1)

/-- `for (int i=0; i<nodes(initGrid); i++) ...` in a build `bd` -/
def nodewise (bd : Build) (g : Shape) (node : (Nat → Int) → V → Outcome V) (new : Int → V) : Outcome (Int → V) := pass bd g (fun i c => node (g.position i) c) new

end

/-! ## The file -/

variable {T D : Type}

/-- `output(initGrid,filename)` of all ranks: the single-byte writes that make up the file. `gen r` is what rank `r` made of its grid; `include/MMSP.grid.cpp` 1426-1543. -/
def generateFile (fmt : Format T D) (m : Meta D) (ghosts : Int) (np : Nat) (gen : Int → Outcome (Int → T)) : Outcome (List (Nat × Byte)) :=
  (gather (fun n => (gen n).bind fun a => writeBuffer fmt.comp fmt.cell ((m.world fmt.d ghosts np).shape n) a) np).bind fun blocks =>
  standardWrites (header fmt.dec fmt.name fmt.d m.fields m.g0 m.g1 (m.spacing fmt.dx0)) blocks

/-- `output(initGrid,filename)` in a serial build, `include/MMSP.grid.cpp` 1360-1401 -/
def generateSerial (fmt : Format T D) (m : Meta D) (gen : Outcome (Int → T)) : Outcome (List Byte) :=
  gen.bind fun a => outputBytes fmt.comp fmt.cell fmt.dec fmt.name fmt.d m.fields m.g0 m.g1 (m.spacing fmt.dx0) [⟨m.serial fmt.d, a⟩]

end MMSP.GenerateRanks
