import Verif.ConvertFile
import Verif.Tsv
import Verif.Vtk
import Verif.Cloud
/-!
# The export tools from the file on

Model of what `utility/mmsp2tsv.cpp`, `mmsp2vti.cpp`, `mmsp2png.cpp` and `mmsp2xyz.cpp` do between opening their input and writing their output: the type line, the dimension, the grid
object made from the file by name, and the functions of `Verif.Tsv`, `Verif.Vtk`, `Verif.Image` and `Verif.Cloud` on it.

Simplifications. Those of the parts (`FileHeader`, `Tool`, `Tsv`, `Vtk`, `Image`, `Cloud`). The fields, limits and spacings which the tools read for themselves from the header
(`mmsp2png.cpp` 274-290) are those that the grid object reads from the same bytes; the type of the cells is that of the file. Serial builds, as in `utility/Makefile`.
-/

namespace MMSP.Export

open FileIO Tool Sessions Voxel

/-- The grid object of a tool. -/
structure Grid (T D : Type) where
  shape : Shape
  fields : Int
  dx : Nat → D
  data : Int → T

variable {T D : Type}

/-- The numbers of cells and spacings as the tool computes with them. -/
def Grid.map {U E : Type} (f : T → U) (h : D → E) (g : Grid T D) : Grid U E := ⟨g.shape, g.fields, fun j => h (g.dx j), fun i => f (g.data i)⟩

/-- From the bytes of the file to the grid object: `utility/mmsp2tsv.cpp` 49-86, 103-109, 130-566; `utility/mmsp2png.cpp` 228-273, 312-750; `utility/mmsp2xyz.cpp` 147-184, 205-211,
232-645; `utility/mmsp2vti.cpp` 60-105, 108-514. The constructor `grid(filename)` is `include/MMSP.grid.cpp` 132-139, 1183-1246. -/
def openFile (tool : Prog) (fin : Nat → Format T D) (content : List Byte) : Outcome (Grid T D) :=
  let line := getline content
  if line.1.take 4 ≠ ascii "grid" then .abort (-1) else
  match element line.1 with
  | none => .abort (-1)
  | some e =>
    match (extract none (some line.2)).1 with
    | none => .ub
    | some d =>
      if d < 1 ∨ d > 3 then .abort (-1) else
      if tool = .xyz ∧ e = ascii "bool" then .abort (-1) else
      let f := fin d.toNat
      (input f.comp f.cell f.fresh f.dec f.dx0 .serial (gridName (prefixOf tool line.1 ++ e)) d.toNat 1 1 0 content).bind fun o =>
      .ok ⟨o.local_.shape, o.fields, o.dx, o.local_.data⟩

/-- `convert_scalars`, `convert_vectors` and `convert_sparses` of `utility/mmsp2tsv.cpp` 574-672 on the grid object: `text v k` is what is written for the coordinate `v*k`, `values`
what is written for a cell of a grid with so many fields. -/
def tsv (text : D → Int → List Byte) (values : Int → T → Outcome (List (List Byte))) (g : Grid T D) : Outcome (List Byte) :=
  Tsv.convert (fun j k => text (g.dx j) k) g.shape (values g.fields) g.data

/-- `mmsp2tsv infile outfile`, `utility/mmsp2tsv.cpp` 44-566. -/
def mmsp2tsv (fin : Nat → Format T D) (text : D → Int → List Byte) (values : Int → T → Outcome (List (List Byte))) : Files → List Byte → List Byte → Files × Outcome Unit :=
  runTsv fun _ content => (openFile .tsv fin content).bind (tsv text values)

/-- An image with its spacings (`SetSpacing`, `include/MMSP.output.cpp` 530, 554, 580, 633, 677, 723, 797, 832, 869: 1 for axes that do not exist). -/
structure Picture (D E : Type) where
  image : Vtk.Img E
  spacing : List D

/-- `mmsp2vti` on the grid object, `utility/mmsp2vti.cpp` 108-514 -/
def vti {E : Type} (one : D) (comps : Int → Nat) (values : T → Outcome (List E)) (g : Grid T D) : Outcome (Picture D E) :=
  (Vtk.fieldToVtk g.shape (comps g.fields) values g.data).bind fun i => .ok ⟨i, (List.range 3).map fun j => if j < g.shape.dim then g.dx j else one⟩

section Field
variable {α : Type} [Field α] [LinearOrder α]

/-- `mmsp2png` on the grid object, `utility/mmsp2png.cpp` 293-756 -/
def png [FloorRing α] (scale value : Int → T → Outcome α) (mark : Nat → T → α → Nat → Outcome Nat) (zoomin zoomax : α) (sliceaxis slicelevel : Int) (invert : Bool) (g : Grid T D) :
    Outcome ((Int × Int) × List (Option Nat)) :=
  Image.mmsp2png g.shape (fun axis level buffer => Image.fieldToPng g.shape (scale g.fields) (value g.fields) (mark g.shape.dim) zoomin zoomax axis level g.data buffer) sliceaxis slicelevel
    invert

/-- `mmsp2xyz` on the grid object, `utility/mmsp2xyz.cpp` 652-716 -/
def xyz (mode : Nat) (normal : Bool) (levels : List α) (tol : α) (junk : List α) (g : Grid α α) : Outcome (List (List α)) :=
  Cloud.scalars g.shape g.dx mode normal levels tol junk g.data

/-- `mmsp2xyz` on the grid object, `utility/mmsp2xyz.cpp` 718-840 -/
def xyzVector (mode : Nat) (normal : Bool) (levels : List α) (lvlfield : Int) (tol : α) (fieldset : List Int) (g : Grid (List α) α) : Outcome (List (List α)) :=
  Cloud.vectors g.shape g.dx mode normal levels lvlfield tol g.fields.toNat fieldset g.data

/-- `mmsp2xyz` on the grid object, `utility/mmsp2xyz.cpp` 842-959 -/
def xyzSparse (mode : Nat) (normal : Bool) (levels : List α) (lvlfield : Int) (tol : α) (fieldset : List Int) (g : Grid (Sparse.Cell α) α) : Outcome (List (List α)) :=
  Cloud.sparses g.shape g.dx mode normal levels lvlfield tol fieldset g.data

end Field

end MMSP.Export
