import Verif.ParallelRun
import Verif.SparseRun
import Verif.Ostwald
import Verif.Solid
/-!
# The other deterministic examples as parallel programs

The update loops of the phase-field examples with vector or sparse cells, of Ostwald ripening and of solidification as programs of `Verif.ParallelRun`. The loop bodies are
those of `Verif.DensePF`, `Verif.SparsePF`, `Verif.Ostwald` and `Verif.Solid`, here as functions of the accesses `GRID(x)`; that they are the same is proved in
`Verif.ParallelExamplesProps`.

Simplifications: those of these modules, except that nothing is assumed about the arithmetic: what is computed from the values read is a parameter. Grids whose cells differ in type are grids of lists with one length per grid; a scalar is a list of one element.
-/

namespace MMSP.ParallelRun

open Stencil (bump elem lapWeight lapLoop lapVecLoop lapSparseLoop)

/-- The accesses `GRID(x)` of one grid. -/
abbrev Access (V : Type) := (Nat → Int) → Outcome V

/-- `ghostswap(oldGrid)` and `steps` times: a loop that writes `newGrid`, `swap(oldGrid,newGrid)`, `ghostswap(oldGrid)`. Grid 0 is `oldGrid`, grid 1 is `newGrid`.
`isotropic/phase_field/graingrowth.cpp` 80, 87-110; `zener_pinning/isotropic/phase_field/zener.cpp` 111, 118-142; `anisotropic/phase_field/graingrowth.cpp` 101, 107-189;
`zener_pinning/anisotropic/phase_field/zener.cpp` 112, 118-202; `isotropic/sparsePF/graingrowth.cpp` 65, 72-119; `anisotropic/sparsePF/graingrowth.cpp` 97, 101-185;
`zener_pinning/anisotropic/sparsePF/zener.cpp` 106, 114-199 -/
def evolveUpdate {V : Type} (kern : Kernel V) (steps : Nat) : List (Stmt V) :=
  .ghostswap 0 :: repeatProg [.loop 1 kern, .swap 0 1, .ghostswap 0] steps

/-! ## Cells that are vectors -/

section Dense
variable {α : Type} [Zero α] [One α] [Add α] [Sub α] [Mul α] [Div α]

/-- `laplacian(GRID, x)`, `include/MMSP.grid.cpp` 2068-2089 (`Stencil.laplacianVec`) -/
def lapVec (d n : Nat) (dx : Nat → α) (at' : Access (List α)) (x : Nat → Int) : Outcome (List α) :=
  (at' x).bind fun y => lapVecLoop at' (fun i => lapWeight (dx i)) n y (List.range d) x (List.replicate n 0)

/-- `isotropic/phase_field/graingrowth.cpp` 91-107 (`DensePF.isoCell`): `value l y h` is assigned to entry `h`, where `l` is the Laplacian and `y` the old cell; all `n`
entries are assigned. -/
def isoKernel (d n : Nat) (dx : Nat → α) (value : List α → List α → Nat → α) : Kernel (List α) := fun A x =>
  (A 0 x).bind fun y => (lapVec d n dx (A 0) x).bind fun l => .ok ((List.range n).map (value l y))

/-- `anisotropic/phase_field/graingrowth.cpp` 119-128 (`DensePF.near`); `pos v` is `v > 0.0`. -/
def nearAt (pos : α → Bool) (d : Nat) (at' : Access (List α)) (x : Nat → Int) (h : Nat) : Outcome Bool :=
  (List.range d).foldlM (fun s (j : Nat) => [-1, 0, 1].foldlM (fun s (k : Int) =>
    if s then .ok true
    else (at' (bump x j k)).bind fun c => (elem c h).bind fun v => .ok (pos v)) s) false

/-- `anisotropic/phase_field/graingrowth.cpp` 116-130 (`DensePF.marked`) -/
def markedAt (pos : α → Bool) (d n : Nat) (at' : Access (List α)) (x : Nat → Int) : Outcome (List Int) :=
  (List.range n).foldlM (fun s (h : Nat) => (nearAt pos d at' x h).bind fun b => .ok (if b then s ++ [(h : Int)] else s)) []

/-- `anisotropic/phase_field/graingrowth.cpp` 111-186 (`DensePF.anisoCell`); `value s l y h` is the value of entry `h` when two fields or more are marked. -/
def anisoKernel (pos : α → Bool) (d n : Nat) (dx : Nat → α) (value : List Int → List α → List α → Nat → α) : Kernel (List α) := fun A x =>
  (markedAt pos d n (A 0) x).bind fun s => (A 0 x).bind fun y =>
  if s.length < 2 then .ok y
  else (lapVec d n dx (A 0) x).bind fun l => .ok ((List.range n).map (value s l y))

end Dense

/-! ## Sparse cells -/

section SparseCells
variable {α : Type} [Zero α] [One α] [Add α] [Sub α] [Mul α] [Div α]

/-- `isotropic/sparsePF/graingrowth.cpp` 79-90 (`SparsePF.nearby`) -/
def nearbyAt {α : Type} (d : Nat) (at' : Access (Sparse.Cell α)) (x : Nat → Int) : Outcome (Sparse.Cell Int) :=
  (List.range d).foldlM (fun s (j : Nat) => [-1, 0, 1].foldlM (fun s (k : Int) => (at' (bump x j k)).bind fun c =>
    .ok (c.foldl (fun s e => Sparse.update s e.1 fun _ => 1) s)) s) []

/-- `laplacian(GRID, x)`, `include/MMSP.grid.cpp` 2111-2128 (`Stencil.laplacianSparse`) -/
def lapSparse (d : Nat) (dx : Nat → α) (at' : Access (Sparse.Cell α)) (x : Nat → Int) : Outcome (Sparse.Cell α) :=
  (at' x).bind fun y => lapSparseLoop at' (fun i => lapWeight (dx i)) y (List.range d) x []

/-- Body of the loop in `SparsePF.sweep`, `isotropic/sparsePF/graingrowth.cpp` 74-116; `newGrid(n)` is not cleared, so what it held is read (`A 1 x`). -/
def sparseKernel (d : Nat) (dx : Nat → α) (f : Sparse.Cell Int → Sparse.Cell α → Sparse.Cell α → Sparse.Cell α → Sparse.Cell α) : Kernel (Sparse.Cell α) := fun A x =>
  (nearbyAt d (A 0) x).bind fun s => (A 0 x).bind fun y => (A 1 x).bind fun z =>
  (if s.length < 2 then .ok [] else lapSparse d dx (A 0) x).bind fun lap => .ok (f s lap y z)

end SparseCells

/-! ## Ostwald ripening -/

section Ostwald
variable {α : Type}

/-- Entry `j` of the cells of a grid. -/
def entryAt (at' : Access (List α)) (j : Nat) : Access α := fun x => (at' x).bind fun v => elem v j

variable [Zero α] [One α] [Add α] [Sub α] [Mul α] [Div α]

/-- ostwald.cpp 89-99 (`Ostwald.potentialAt`): `pot y lap` is assigned to `wspace(x)`, where `lap` is `laplacian(oldGrid,x,0)`; `pow2 h` is `pow(h, 2.0)`. -/
def potentialKernel (d : Nat) (pow2 : α → α) (dx : Nat → α) (pot : List α → α → α) : Kernel (List α) := fun A x =>
  (A 0 x).bind fun y => (entryAt (A 0) 0 x).bind fun y0 =>
  (lapLoop (entryAt (A 0) 0) (fun i => 1 / pow2 (dx i)) y0 (List.range d) x 0).bind fun lap => .ok [pot y lap]

/-- ostwald.cpp 104-119 (`Ostwald.cell`): `value y l lap h` is assigned to entry `h`, where `l` is `laplacian(oldGrid,x)` and `lap` is `laplacian(wspace,x)`; all `n` entries
are assigned. -/
def ostwaldKernel (d n : Nat) (dx : Nat → α) (value : List α → List α → α → Nat → α) : Kernel (List α) := fun A x =>
  (entryAt (A 2) 0 x).bind fun w0 => (lapLoop (entryAt (A 2) 0) (fun i => lapWeight (dx i)) w0 (List.range d) x 0).bind fun lap =>
  (A 0 x).bind fun y => (lapVec d n dx (A 0) x).bind fun l => .ok ((List.range n).map (value y l lap))

/-- ostwald.cpp 63, 85-123; grid 2 is `wspace`. -/
def ostwaldUpdate (d n : Nat) (pow2 : α → α) (dx : Nat → α) (pot : List α → α → α) (value : List α → List α → α → Nat → α) (steps : Nat) : List (Stmt (List α)) :=
  .ghostswap 0 :: repeatProg
    [.loop 2 (potentialKernel d pow2 dx pot), .ghostswap 2, .loop 1 (ostwaldKernel d n dx value), .swap 0 1, .ghostswap 0] steps

end Ostwald

/-! ## Solidification -/

section Solid
variable {α : Type}

/-- solidification.cpp 97-116 (`Solid.fluxAt`): the flux from the phase fraction at the node and at its upper neighbours along the two axes. -/
def fluxKernel (flux : α → α → α → α × α) : Kernel (List α) := fun A x =>
  (entryAt (A 0) 0 x).bind fun center => (entryAt (A 0) 0 (bump x 0 1)).bind fun right => (entryAt (A 0) 0 (bump x 1 1)).bind fun upper =>
  .ok [(flux center right upper).1, (flux center right upper).2]

/-- What the second loop reads at a node: the two fields, the flux there and behind along the two axes, the undercooling of the four neighbours, `refGrid`. -/
structure Around (α : Type) where
  phi : α
  u : α
  d0 : α
  d1 : α
  left : α
  lower : α
  r0 : α
  l0 : α
  r1 : α
  l1 : α
  ref : α

/-- solidification.cpp 123-156 (`Solid.solidCell`); grid 2 is `Dgradphi`, grid 3 is `refGrid`. -/
def solidKernel (value : Around α → α × α) : Kernel (List α) := fun A x =>
  (entryAt (A 0) 0 x).bind fun phi => (entryAt (A 0) 1 x).bind fun u =>
  (entryAt (A 2) 0 x).bind fun d0 => (entryAt (A 2) 1 x).bind fun d1 =>
  (entryAt (A 2) 0 (bump x 0 (-1))).bind fun left => (entryAt (A 2) 1 (bump x 1 (-1))).bind fun lower =>
  (entryAt (A 0) 1 (bump x 0 1)).bind fun r0 => (entryAt (A 0) 1 (bump x 0 (-1))).bind fun l0 =>
  (entryAt (A 0) 1 (bump x 1 1)).bind fun r1 => (entryAt (A 0) 1 (bump x 1 (-1))).bind fun l1 =>
  (entryAt (A 3) 0 x).bind fun ref =>
  .ok [(value ⟨phi, u, d0, d1, left, lower, r0, l0, r1, l1, ref⟩).1, (value ⟨phi, u, d0, d1, left, lower, r0, l0, r1, l1, ref⟩).2]

/-- `refGrid(i) = oldGrid(i)[0]`, solidification.cpp 64-65 and 159 (`Solid.keep`) -/
def keepKernel : Kernel (List α) := fun A x => (entryAt (A 0) 0 x).bind fun phi => .ok [phi]

/-- solidification.cpp 60, 64-65, 88, 90-165. The assignment to `refGrid(i)` at the end of the second loop is a loop of its own (as in `Solid.step`). -/
def solidUpdate (flux : α → α → α → α × α) (value : Around α → α × α) (steps : Nat) : List (Stmt (List α)) :=
  .ghostswap 0 :: .loop 3 keepKernel :: .ghostswap 0 :: repeatProg
    [.loop 2 (fluxKernel flux), .ghostswap 2, .loop 1 (solidKernel value), .loop 3 keepKernel, .swap 0 1, .ghostswap 0] steps

end Solid

/-! ## Buffers -/

/-- Cells `W` that are stored as cells `V`. -/
def mapCell {V W : Type} (c : Cell V) (store : W → V) (load : V → W) : Cell W where
  Valid := fun w => c.Valid (store w) ∧ load (store w) = w
  size := fun w => c.size (store w)
  enc := fun w => c.enc (store w)
  dec := fun buf => (c.dec buf).bind fun r => .ok (load r.1, r.2)

/-- Cells of `grid<dim,T>` seen as lists of one element, `include/MMSP.utility.h` 142-152. -/
def scalarCell {T : Type} [Zero T] (c : Codec T) : Cell (List T) := mapCell (primCell c) (fun l => l.headD 0) fun v => [v]

/-- The cells of `oldGrid`, `newGrid` and `Dgradphi` are vectors, those of `wspace` (grid 2 of Ostwald ripening) and `refGrid` scalars. -/
def mixedCell {T : Type} [Zero T] (c : Codec T) (scalars : Nat) (k : Nat) : Cell (List T) := if k = scalars then scalarCell c else arrayCell c

end MMSP.ParallelRun
