import Verif.Image
/-!
# Point clouds

Model of `convert_scalars`, `convert_vectors` and `convert_sparses` of `utility/mmsp2xyz.cpp` 652-959 and of the head of the file they write (199-203).

Simplifications. `double` arithmetic is exact, in any linearly ordered field; a division by zero makes the comparison with `contol` false, as in `Image`. A file is its first line and
the rows of numbers behind it; how numbers are printed is left out. `std::set`s are the lists of their elements in order. A serial build; the cells hold numbers with fractions.
-/

namespace MMSP.Cloud

open Image (onContour gather allFields vectorIncluded)

variable {α : Type} [Field α] [LinearOrder α]

/-- `utility/mmsp2xyz.cpp` 200-203 -/
def header (normal : Bool) : String := "#X\tY\tZ" ++ (if normal then "nx\tny\tnz" else "") ++ "\n"

/-- `for (it=levelset.begin(); excluded && it!=levelset.end(); it++) if (...) excluded=false;`, `utility/mmsp2xyz.cpp` 661-664 (682-685, 703-706), 756-759 (794-797, 832-835),
876-879 (907-910, 938-941). The value is read again for every level. -/
def included (tol : α) (value : Outcome α) : List α → Outcome Bool
  | [] => .ok false
  | l :: ls => value.bind fun v => if onContour tol v l then .ok true else included tol value ls

/-- Three columns: the numbers of the axes that exist, zeros behind them. -/
def columns (dim : Nat) (f : Nat → α) : List α := (List.range 3).map fun d => if d < dim then f d else 0

/-- The loop over the nodes. `other` is what the loop computes without using it; `normals` is what follows the coordinates. -/
def cloud {T : Type} (g : Shape) (dx : Nat → α) (levels : List α) (tol : α) (other : T → Outcome Unit) (value : T → Outcome α) (normals : (Nat → Int) → Outcome (List α))
    (data : Int → T) : Outcome (List (List α)) :=
  (List.range g.nodes.toNat).foldlM (fun rows (n : Nat) =>
    (deref g data (g.atNode .serial n)).bind fun c => (other c).bind fun _ => (included tol (value c) levels).bind fun b =>
    if b then
      let x := g.position n
      (normals x).bind fun norm => .ok (rows ++ [columns g.dim (fun d => dx d * (x d : α)) ++ norm])
    else .ok rows) []

/-- `utility/mmsp2xyz.cpp` 652-716: `convert_scalars`. What the vector `norm` holds before is not specified (`junk`). -/
def scalars (g : Shape) (dx : Nat → α) (mode : Nat) (normal : Bool) (levels : List α) (tol : α) (junk : List α) (data : Int → α) : Outcome (List (List α)) :=
  cloud g dx levels tol (fun _ => .ok ()) (fun v => .ok (if mode = 1 then |v| else v))
    (fun x => if normal then (Stencil.gradient .serial g dx junk data x).bind fun norm => .ok (columns g.dim fun d => norm.getD d 0) else .ok []) data

/-- `sum`, `utility/mmsp2xyz.cpp` 726-753 (764-791, 802-829): computed, but not used. -/
def vectorSum (mode : Nat) (fields : Nat) (fieldset : List Int) (c : List α) : Outcome α :=
  let inc := vectorIncluded mode fields fieldset
  if mode = 0 then gather inc c (allFields fields)
  else if mode = 1 then gather 2 c (allFields fields)
  else if mode = 2 then gather inc c fieldset
  else if mode = 3 then gather inc c ((allFields fields).filter fun i => i ∉ fieldset)
  else .ok 0

/-- `utility/mmsp2xyz.cpp` 718-840: `convert_vectors`; `normal` is not used. -/
def vectors (g : Shape) (dx : Nat → α) (mode : Nat) (_normal : Bool) (levels : List α) (lvlfield : Int) (tol : α) (fields : Nat) (fieldset : List Int) (data : Int → List α) :
    Outcome (List (List α)) :=
  cloud g dx levels tol (fun c => (vectorSum mode fields fieldset c).bind fun _ => .ok ()) (fun c => Convert.vecGet c lvlfield) (fun _ => .ok []) data

/-- `utility/mmsp2xyz.cpp` 842-959: `convert_sparses`; `normal` and, but for the unused `sum`, `mode` and `fieldset` are not used. Reading a field cannot fail. -/
def sparses (g : Shape) (dx : Nat → α) (mode : Nat) (_normal : Bool) (levels : List α) (lvlfield : Int) (tol : α) (fieldset : List Int) (data : Int → Sparse.Cell α) :
    Outcome (List (List α)) :=
  cloud g dx levels tol (fun c => (Outcome.ok (Image.sparseSum mode fieldset c)).bind fun _ => .ok ()) (fun c => .ok (Sparse.get c lvlfield)) (fun _ => .ok []) data

end MMSP.Cloud
