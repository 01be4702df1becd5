import Verif.Image
/-!
# VTK images

Model of `scalar_field_to_vtk`, `vector_field_to_vtk`, `sparse_field_to_vtk` (`include/MMSP.output.cpp` 517-917), as used by `mmsp2vti` and `mmsp2pvd`.

Simplifications. Of the library `vtkImageData` only what is used: an image with an extent owns an array of numbers, not initialised, the first axis fastest, the components of a
point together; `GetScalarPointer` is the address of a point, `NULL` outside the extent. The written file is the image. A serial build (with MPI the functions stop), VTK 6 or
later. Conversion to the type of a pixel (`float`, `double` for vector fields in two dimensions), `sqrt` and the arithmetic of `double` are arbitrary functions; the product of two
values does not overflow.
-/

namespace MMSP.Vtk

open Stencil (gridAt)
open Image (up point)

/-! ## The image -/

/-- `vtkImageData`: first and one past the last index of the three axes, components, array. -/
structure Img (D : Type) where
  lo : Nat → Int
  hi : Nat → Int
  comps : Nat
  mem : Nat → Option D

/-- Nodes along an axis -/
def Img.width {D : Type} (m : Img D) (j : Nat) : Int := m.hi j - m.lo j

/-- Numbers in the array -/
def Img.size {D : Type} (m : Img D) : Int := m.width 2 * m.width 1 * m.width 0 * m.comps

/-- `GetScalarPointer(x,y,z)`, as offset into the array -/
def Img.pointer {D : Type} (m : Img D) (x : Nat → Int) : Option Int :=
  if ∀ j < 3, m.lo j ≤ x j ∧ x j < m.hi j then some ((((x 2 - m.lo 2) * m.width 1 + (x 1 - m.lo 1)) * m.width 0 + (x 0 - m.lo 0)) * m.comps) else none

/-- `*p = v` -/
def Img.write {D : Type} (m : Img D) (p : Int) (v : D) : Outcome (Img D) :=
  if 0 ≤ p ∧ p < m.size then .ok { m with mem := Function.update m.mem p.toNat (some v) } else .ub

/-- First index of an axis: `SetExtent`, `include/MMSP.output.cpp` 529, 554-556, 582-584; axes the grid does not have consist of the index 0. -/
def low (g : Shape) (j : Nat) : Int := if j < g.dim then g.x0 j else 0

/-- One past the last index of an axis: `SetExtent`, `include/MMSP.output.cpp` 529, 554-556, 582-584. -/
def high (g : Shape) (j : Nat) : Int := if j < g.dim then g.x1 j else 1

/-- `SetExtent` and `AllocateScalars`, `include/MMSP.output.cpp` 527-536, 551-563, 579-591 (628-645, 675-694, 726-745; 788-797, 819-831, 854-866). -/
def alloc (D : Type) (g : Shape) (comps : Nat) : Img D := ⟨low g, high g, comps, fun _ => none⟩

/-- The positions visited, in order, `include/MMSP.output.cpp` 539, 566-567, 594-596 (648, 697-698, 748-750; 800, 834-835, 869-871). -/
def visited (g : Shape) : List (Nat → Int) :=
  (up (low g 2) (high g 2)).flatMap fun c => (up (low g 1) (high g 1)).flatMap fun b => (up (low g 0) (high g 0)).map fun a => point a b c

/-! ## Values of a cell -/

variable {T D : Type}

/-- `sum += v[h]*v[h]` and `sqrt(sum)`, `include/MMSP.output.cpp` 652-655 (702-705, 754-757; 812-815, 847-850, 883-886). -/
def magnitude [Mul T] [Zero D] [Add D] (sqrt : D → D) (conv : T → D) (c : List T) : D := sqrt (c.foldl (fun sum v => sum + conv (v * v)) 0)

/-- `max`, `include/MMSP.output.cpp` 658-661 (708-711, 760-763; 805-808, 840-843, 876-879). -/
def argmax [LT T] [DecidableLT T] (get : Int → Outcome T) (length : Nat) : Outcome Int :=
  ((List.range length).drop 1).foldlM (fun (max : Int) (h : Nat) => (get h).bind fun a => (get max).bind fun b => .ok (if b < a then (h : Int) else max)) 0

/-- Numbers written for a cell of a scalar grid, `include/MMSP.output.cpp` 541-545 (569-573, 598-602). -/
def scalarPixel [Mul T] (sqrt : D → D) (conv : T → D) (mode : Int) (v : T) : Outcome (List D) :=
  .ok [if mode = 1 then sqrt (conv (v * v)) else conv v]

/-- Numbers written for a cell of a vector grid, `include/MMSP.output.cpp` 651-668 (701-718, 753-770). -/
def vectorPixel [Mul T] [LT T] [DecidableLT T] [Zero D] [Add D] (sqrt : D → D) (conv : T → D) (ofInt : Int → D) (mode field : Int) (v : List T) : Outcome (List D) :=
  if mode = 1 then .ok [magnitude sqrt conv v]
  else if mode = 2 then (argmax (Convert.vecGet v) v.length).bind fun max => .ok [ofInt max]
  else if mode = 3 then (Convert.vecGet v field).bind fun a => .ok [conv a]
  else .ok (v.map conv)

/-- Components of a pixel of a vector grid, `include/MMSP.output.cpp` 641-644 (690-693, 741-744). -/
def vectorComps (mode : Int) (fields : Nat) : Nat := if mode = 1 ∨ mode = 2 ∨ mode = 3 then 1 else fields

/-- Numbers written for a cell of a sparse grid, `include/MMSP.output.cpp` 803-816 (838-851, 874-887). -/
def sparsePixel [Mul T] [Zero T] [LT T] [DecidableLT T] [Zero D] [Add D] (sqrt : D → D) (conv : T → D) (ofInt : Int → D) (mode field : Int) (s : Sparse.Cell T) :
    Outcome (List D) :=
  if mode = 2 then (argmax (Sparse.value s) s.length).bind fun max => (Sparse.index s max).bind fun i => .ok [ofInt i]
  else if mode = 3 then .ok [conv (Sparse.get s field)]
  else .ok [magnitude sqrt conv (s.map Prod.snd)]

/-! ## The loop -/

/-- `pixel[h] = …` -/
def writeOne (vs : List D) (p : Int) (m : Img D) (h : Nat) : Outcome (Img D) := match vs[h]? with | some v => m.write (p + h) v | none => .ub

/-- `pixel[h] = …` for each of the numbers -/
def writeAll (m : Img D) (p : Int) (vs : List D) : Outcome (Img D) := (List.range vs.length).foldlM (writeOne vs p) m

/-- `include/MMSP.output.cpp` 540-546, 568-574, 597-603 (649-669, 699-719, 751-771; 801-817, 836-852, 872-888). -/
def paint (g : Shape) (values : T → Outcome (List D)) (data : Int → T) (m : Img D) (x : Nat → Int) : Outcome (Img D) :=
  (gridAt .serial g data x).bind fun c => (values c).bind fun vs =>
    match m.pointer x with
    | some p => writeAll m p vs
    | none => if vs = [] then .ok m else .ub

/-- The image written, `include/MMSP.output.cpp` 517-616, 618-776, 778-917. -/
def fieldToVtk (g : Shape) (comps : Nat) (values : T → Outcome (List D)) (data : Int → T) : Outcome (Img D) :=
  (visited g).foldlM (paint g values data) (alloc D g comps)

end MMSP.Vtk
