import Verif.Stencil
import Verif.Convert
import Mathlib.Algebra.Order.Floor.Defs
import Mathlib.Algebra.Order.Field.Basic
/-!
# Grey-scale images

Model of `scalar_field_to_png`, `vector_field_to_png`, `sparse_field_to_png` (`include/MMSP.output.cpp` 91-513) and of the part of `utility/mmsp2png.cpp` that prepares the
buffer and hands it to `writePNG` (293-309, 752-756; rows: `include/MMSP.output.cpp` 37-39).

Simplifications. `double` arithmetic is exact, in any linearly ordered field with integer parts; `sqrt` is an arbitrary function; a division by 0, whose result is infinite or
not a number, is undefined behaviour where it is converted to `unsigned char`, and makes the comparison with `contol` false. `std::set`s are the lists of their elements in
order. `sliceaxis` is not negative (the caller replaces -1 in three dimensions; in one and two it is not used). A serial build; the global box is the local one. Reading the file,
parsing the command line and `libpng` are left out.
-/

namespace MMSP.Image

open Stencil (gridAt)

variable {α : Type} [Field α] [LinearOrder α] [FloorRing α]

/-! ## Values of a cell -/

/-- `GRID(n)[i]` summed up over the listed fields, `include/MMSP.output.cpp` 190-215: squares if more than one field is included, the last one otherwise. -/
def gather (included : Int) (c : List α) (fields : List Int) : Outcome α :=
  fields.foldlM (fun sum i => (Convert.vecGet c i).bind fun v => .ok (if included > 1 then sum + v ^ 2 else v)) 0

/-- `for (int i=0; i<fields(GRID); i++)` -/
def allFields (n : Nat) : List Int := (List.range n).map fun i : Nat => (i : Int)

/-- `include/MMSP.output.cpp` 104-109, 120-123. -/
def scalarValue (mode : Nat) (v : α) : Outcome α := .ok (if mode = 1 then |v| else v)

/-- `included`, `include/MMSP.output.cpp` 186 -/
def vectorIncluded (mode : Nat) (fields : Nat) (fieldset : List Int) : Int := if mode = 2 then fieldset.length else fields - fieldset.length

/-- `sum`, `include/MMSP.output.cpp` 189-217 and, the same, 231-259 (275-303, 321-349); with an empty `fieldset` in mode 2 the two differ: `*fieldset.begin()` is undefined in the
first. -/
def vectorValue (sqrt : α → α) (mode : Nat) (fields : Nat) (fieldset : List Int) (c : List α) : Outcome α :=
  let included := vectorIncluded mode fields fieldset
  (if mode = 0 then gather included c (allFields fields)
   else if mode = 1 then gather 2 c (allFields fields)
   else if mode = 2 then (if fieldset = [] then .ub else gather included c fieldset)
   else if mode = 3 then gather included c ((allFields fields).filter fun i => i ∉ fieldset)
   else .ok 0).bind fun sum =>
  .ok (if mode = 1 ∨ included ≠ 1 then sqrt sum else sum)

/-- The sum of squares of the entries not in `without`, `include/MMSP.output.cpp` 380-383, 390-396. -/
def sumSquares (without : List Int) (c : Sparse.Cell α) : α := (c.filter fun e => e.1 ∉ without).foldl (fun sum e => sum + e.2 ^ 2) 0

/-- `sum` before the root is taken, `include/MMSP.output.cpp` 379-397 and 412-430. -/
def sparseSum (mode : Nat) (fieldset : List Int) (c : Sparse.Cell α) : α :=
  if mode < 2 then sumSquares [] c
  else if mode = 2 then fieldset.foldl (fun sum i => if fieldset.length > 1 then sum + Sparse.get c i ^ 2 else Sparse.get c i) 0
  else if mode = 3 then sumSquares fieldset c
  else 0

/-- The value that counts for the range, `include/MMSP.output.cpp` 379-399. -/
def sparseScale (sqrt : α → α) (mode : Nat) (fieldset : List Int) (c : Sparse.Cell α) : Outcome α :=
  .ok (if fieldset.length ≠ 1 then sqrt (sparseSum mode fieldset c) else sparseSum mode fieldset c)

/-- The value that is drawn, `include/MMSP.output.cpp` 412-432 (446-466, 483-503). -/
def sparseValue (sqrt : α → α) (mode : Nat) (fieldset : List Int) (c : Sparse.Cell α) : Outcome α :=
  .ok (if mode ≠ 2 ∨ fieldset.length ≠ 1 then sqrt (sparseSum mode fieldset c) else sparseSum mode fieldset c)

/-! ## Range and shade -/

/-- `min` and `max`, `include/MMSP.output.cpp` 103-114 (184-222, 374-404). -/
def range {T : Type} (g : Shape) (value : T → Outcome α) (data : Int → T) (zoomin zoomax : α) : Outcome (α × α) :=
  (List.range g.nodes.toNat).foldlM (fun (m : α × α) (n : Nat) => (deref g data (g.atNode .serial n)).bind fun c => (value c).bind fun v =>
    .ok (if v > m.2 then (m.1, v) else if v < m.1 then (v, m.2) else m)) (zoomin, zoomax)

/-- Conversion of a `double` to `unsigned char`: undefined if the truncated value does not fit. -/
def toByte (v : α) : Outcome Nat := if -1 < v ∧ v < 256 then .ok ⌊v⌋.toNat else .ub

/-- `255*((val-min)/(max-min))`, `include/MMSP.output.cpp` 126, 142, 160. -/
def shade (m : α × α) (v : α) : Outcome Nat := if m.2 - m.1 = 0 then .ub else toByte (255 * ((v - m.1) / (m.2 - m.1)))

/-- `fabs(f-*it)/fabs(*it)<contol` -/
def onContour (tol f level : α) : Prop := level ≠ 0 ∧ |f - level| / |level| < tol

instance (tol f level : α) : Decidable (onContour tol f level) := by unfold onContour; infer_instance

/-- Contours, `include/MMSP.output.cpp` 161-164 (261-264, 434-437); `f` is the value the contours refer to. -/
def contour (coninv : Bool) (levels : List α) (tol : α) (f : Outcome α) (b : Nat) : Outcome Nat :=
  levels.foldlM (fun b level => f.bind fun f => .ok (if onContour tol f level then (if coninv then 255 else 0) else b)) b

/-- Contours of scalar fields: `include/MMSP.output.cpp` 127-130, 143-146 in one and two dimensions, 161-164 in three. -/
def scalarContour (dim mode : Nat) (coninv : Bool) (levels : List α) (tol : α) (v : α) (b : Nat) : Outcome Nat :=
  if dim = 3 then contour coninv levels tol (.ok v) b
  else if mode = 4 then .ok (levels.foldl (fun b level => if onContour tol v level then 255 - b else b) b)
  else .ok b

/-! ## The picture -/

/-- `for (x = lo; x < hi; x++)` -/
def up (lo hi : Int) : List Int := (List.range (hi - lo).toNat).map fun k : Nat => lo + k

/-- `for (x = hi-1; x >= lo; x--)` -/
def down (lo hi : Int) : List Int := (List.range (hi - lo).toNat).map fun k : Nat => hi - 1 - k

/-- The position `x`. -/
def point (a b c : Int) (j : Nat) : Int := if j = 0 then a else if j = 1 then b else c

/-- The positions visited, in order: `include/MMSP.output.cpp` 121, 136-137, 152-156. -/
def visited (g : Shape) (sliceaxis : Nat) (slicelevel : Int) : List (Nat → Int) :=
  if g.dim = 1 then (up (g.x0 0) (g.x1 0)).map fun a => point a 0 0
  else if g.dim = 2 then (down (g.x0 1) (g.x1 1)).flatMap fun b => (up (g.x0 0) (g.x1 0)).map fun a => point a b 0
  else if g.dim = 3 then
    ((up (g.x0 2) (g.x1 2)).flatMap fun c => (down (g.x0 1) (g.x1 1)).flatMap fun b => (up (g.x0 0) (g.x1 0)).map fun a => point a b c).filter
      fun x => x sliceaxis = slicelevel
  else []

/-- One pixel: position in the buffer and buffer afterwards, `include/MMSP.output.cpp` 122-131; bytes never written are `none`. `mark` draws the contours. -/
def paint {T : Type} (g : Shape) (value : T → Outcome α) (mark : T → α → Nat → Outcome Nat) (data : Int → T) (m : α × α) (s : Nat × List (Option Nat)) (x : Nat → Int) :
    Outcome (Nat × List (Option Nat)) :=
  (gridAt .serial g data x).bind fun c => (value c).bind fun v =>
  if s.1 < s.2.length then (shade m v).bind fun b => (mark c v b).bind fun b => .ok (s.1 + 1, s.2.set s.1 (some b)) else .abort 134

/-- `include/MMSP.output.cpp` 91-169, 171-359, 361-513: `scale` is the value that counts for the range, `value` the one drawn. In three dimensions `x[sliceaxis]` is checked. -/
def fieldToPng {T : Type} (g : Shape) (scale value : T → Outcome α) (mark : T → α → Nat → Outcome Nat) (zoomin zoomax : α) (sliceaxis : Nat) (slicelevel : Int) (data : Int → T)
    (buffer : List (Option Nat)) : Outcome (List (Option Nat)) :=
  if g.dim = 3 ∧ 3 ≤ sliceaxis then .abort 134 else
  (range g scale data zoomin zoomax).bind fun m =>
  ((visited g sliceaxis slicelevel).foldlM (paint g value mark data m) (0, buffer)).bind fun s => .ok s.2

/-- `sliceaxis`, `slicelevel` after `utility/mmsp2png.cpp` 293-298. -/
def chooseSlice (dim : Nat) (x0 x1 : Nat → Int) (sliceaxis slicelevel : Int) : Int × Int :=
  if dim = 3 ∧ sliceaxis < 0 then (2, if slicelevel < x0 2 then Int.tdiv (x1 2 - x0 2) 2 else slicelevel) else (sliceaxis, slicelevel)

/-- `image_size`, `utility/mmsp2png.cpp` 300-307; with more than two axes left, `image_size[2]` would be written. -/
def imageSize (dim : Nat) (x0 x1 : Nat → Int) (sliceaxis : Int) : Outcome (Int × Int) :=
  match ((List.range dim).filter fun d : Nat => (d : Int) ≠ sliceaxis).map fun d => x1 d - x0 d with
  | [] => .ok (1, 1)
  | [w] => .ok (w, 1)
  | [w, h] => .ok (w, h)
  | _ => .ub

/-- `utility/mmsp2png.cpp` 293-756: width, height and the bytes handed to `writePNG`; `draw` is one of the three functions above. -/
def mmsp2png (g : Shape) (draw : Nat → Int → List (Option Nat) → Outcome (List (Option Nat))) (sliceaxis slicelevel : Int) (invert : Bool) : Outcome ((Int × Int) × List (Option Nat)) :=
  let s := chooseSlice g.dim g.x0 g.x1 sliceaxis slicelevel
  (imageSize g.dim g.x0 g.x1 s.1).bind fun size =>
  (draw s.1.toNat s.2 (List.replicate (size.1 * size.2).toNat none)).bind fun buffer =>
  .ok (size, if invert then buffer.map fun b => b.map fun b => 255 - b else buffer)

end MMSP.Image
