import Verif.Buffer
import Verif.Sparse
/-!
# Converting between Monte Carlo, phase-field and sparse phase-field files

Model of `utility/MC2PF.cpp`, `utility/MC2sPF.cpp`, `utility/PF2MC.cpp`, `utility/PF2sPF.cpp`, `utility/sPF2MC.cpp`, `utility/sPF2PF.cpp`, from the grid
object read from the input file to the grid object written to the output file (`utility/Makefile` compiles them without MPI).

Simplifications. The value type is any linear order (no NaN) with 0 and 1. A cell `MMSP::vector<double>` is the list of its elements. Reading and
writing of files are the subject of `Verif.FileIO` and `Verif.FileHeader`; the checks of type name and dimension are as in `Verif.WrongEndian`.
-/

namespace MMSP.Convert

/-- What a grid object holds: shape, number of fields, spacings, data array. -/
structure Grid (D T : Type) where
  shape : Shape
  fields : Int
  dx : Nat → D
  data : Int → T

/-- `grid<dim,T> grid2(FIELDS, x0, x1, …)`, `include/MMSP.grid.cpp` 42-69 and 141-160, 319-327, without MPI: default boundary conditions and spacing;
`fresh` is a cell after default construction and `resize`. -/
def make {D T : Type} [One D] (dim : Nat) (fields : Int) (x0 x1 : Nat → Int) (fresh : Int → T) : Grid D T :=
  ⟨⟨dim, x0, x1, fun _ => .periodic, fun _ => .periodic, 0⟩, fields, fun _ => 1, fresh⟩

/-- `vector::operator[]`, `include/MMSP.vector.h` 29-36, reading -/
def vecGet {α : Type} (v : List α) (i : Int) : Outcome α :=
  if i < v.length then (if 0 ≤ i then (match v[i.toNat]? with | some a => .ok a | none => .ub) else .ub) else .abort 134

/-- `vector::operator[]`, `include/MMSP.vector.h` 29-36, assigning -/
def vecSet {α : Type} (v : List α) (i : Int) (a : α) : Outcome (List α) :=
  if i < v.length then (if 0 ≤ i then .ok (v.set i.toNat a) else .ub) else .abort 134

/-- `for (int i = 0; i < n; i++)` with a body that changes the cell `grid2(i)`. -/
def eachNode {T : Type} (n : Nat) (g2 : Shape) (f : Nat → T → Outcome T) (out : Int → T) : Outcome (Int → T) :=
  (List.range n).foldlM (fun out (i : Nat) => (deref g2 out (g2.atNode .serial i)).bind fun c => (f i c).bind fun c' => store g2 out (g2.atNode .serial i) c') out

/-- The value of `grid1(i)`. -/
def at1 {D T : Type} (g1 : Grid D T) (i : Nat) : Outcome T := deref g1.shape g1.data (g1.shape.atNode .serial i)

variable {D α : Type}

/-- `utility/MC2PF.cpp` 93-96 (and 116-119, 141-144): the largest value, at least 0. -/
def largest (g1 : Grid D Int) : Outcome Int :=
  (List.range g1.shape.nodes.toNat).foldlM (fun fields i => (at1 g1 i).bind fun v => .ok (if v > fields then v else fields)) 0

/-- `fields += 1` -/
def plusOne (n : Int) : Outcome Int := if n + 1 < 2 ^ 31 then .ok (n + 1) else .ub

/-- `utility/MC2PF.cpp` 101-102: `for (int j = 0; j < fields; j++) grid2(i)[j] = 0.0;` -/
def clear [Zero α] (fields : Int) (c : List α) : Outcome (List α) := (List.range fields.toNat).foldlM (fun c j => vecSet c (j : Nat) 0) c

/-- `utility/MC2PF.cpp` 88-107, 109-130, 132-155. The fresh vectors have `fields` elements of unspecified value. -/
def mc2pf [Zero α] [One α] [One D] (fresh : Int → Int → List α) (g1 : Grid D Int) : Outcome (Grid D (List α)) :=
  (largest g1).bind fun m => (plusOne m).bind fun fields =>
  let g2 : Grid D (List α) := make g1.shape.dim fields g1.shape.x0 g1.shape.x1 (fresh fields)
  (eachNode g1.shape.nodes.toNat g2.shape (fun i c => (clear fields c).bind fun c => (at1 g1 i).bind fun index => vecSet c index 1) g2.data).bind fun data =>
  .ok { g2 with data := data }

/-- `utility/MC2sPF.cpp` 96-107, 109-122, 124-139. -/
def mc2spf [Zero α] [One α] [One D] (g1 : Grid D Int) : Outcome (Grid D (Sparse.Cell α)) :=
  let g2 : Grid D (Sparse.Cell α) := make g1.shape.dim 0 g1.shape.x0 g1.shape.x1 fun _ => []
  (eachNode g1.shape.nodes.toNat g2.shape (fun i c => (at1 g1 i).bind fun index => .ok (Sparse.update c index fun _ => 1)) g2.data).bind fun data =>
  .ok { g2 with data := data }

/-- `utility/PF2MC.cpp` 95-103: index of the largest element -/
def dominant [LinearOrder α] (fields : Int) (c : List α) : Outcome Int :=
  (vecGet c 0).bind fun m =>
  ((List.range fields.toNat).foldlM (fun (a : Int × α) (j : Nat) => (vecGet c j).bind fun value => .ok (if value > a.2 then ((j : Int), value) else a)) (0, m)).bind fun r =>
  .ok r.1

/-- `utility/PF2MC.cpp` 87-107, 109-131, 133-157. -/
def pf2mc [LinearOrder α] [One D] (fresh : Int → Int) (g1 : Grid D (List α)) : Outcome (Grid D Int) :=
  let g2 : Grid D Int := make g1.shape.dim 1 g1.shape.x0 g1.shape.x1 fresh
  (eachNode g1.shape.nodes.toNat g2.shape (fun i _ => (at1 g1 i).bind fun c => dominant g1.fields c) g2.data).bind fun data =>
  .ok { g2 with data := data }

/-- `utility/PF2sPF.cpp` 96-98: the loop over the fields of one node; `eps` is `1.0e-8`. -/
def pick [LinearOrder α] [Zero α] (eps : α) (fields : Int) (v : List α) (c : Sparse.Cell α) : Outcome (Sparse.Cell α) :=
  (List.range fields.toNat).foldlM (fun c j => (vecGet v (j : Nat)).bind fun value => .ok (if value > eps then Sparse.update c (j : Nat) fun _ => value else c)) c

/-- `utility/PF2sPF.cpp` 87-100, 102-117, 119-136. -/
def pf2spf [LinearOrder α] [Zero α] [One D] (eps : α) (g1 : Grid D (List α)) : Outcome (Grid D (Sparse.Cell α)) :=
  let g2 : Grid D (Sparse.Cell α) := make g1.shape.dim 0 g1.shape.x0 g1.shape.x1 fun _ => []
  (eachNode g1.shape.nodes.toNat g2.shape (fun i c => (at1 g1 i).bind fun v => pick eps g1.fields v c) g2.data).bind fun data =>
  .ok { g2 with data := data }

/-- `utility/sPF2MC.cpp` 94-103 -/
def dominantSparse [LinearOrder α] [Zero α] (c : Sparse.Cell α) : Outcome Int :=
  ((List.range c.length).foldlM (fun (a : Int × α) (j : Nat) => (Sparse.value c j).bind fun value =>
    if value > a.2 then (Sparse.index c j).bind fun index => .ok (index, value) else .ok a) (0, 0)).bind fun r => .ok r.1

/-- `utility/sPF2MC.cpp` 87-107, 109-131, 133-157. -/
def spf2mc [LinearOrder α] [Zero α] [One D] (fresh : Int → Int) (g1 : Grid D (Sparse.Cell α)) : Outcome (Grid D Int) :=
  let g2 : Grid D Int := make g1.shape.dim 1 g1.shape.x0 g1.shape.x1 fresh
  (eachNode g1.shape.nodes.toNat g2.shape (fun i _ => (at1 g1 i).bind fun c => dominantSparse c) g2.data).bind fun data =>
  .ok { g2 with data := data }

/-- `utility/sPF2PF.cpp` 92-99 (and 123-130, 156-163): the largest index, at least 0. -/
def largestIndex (g1 : Grid D (Sparse.Cell α)) : Outcome Int :=
  (List.range g1.shape.nodes.toNat).foldlM (fun fields i => (at1 g1 i).bind fun c =>
    (List.range c.length).foldlM (fun fields (j : Nat) => (Sparse.index c j).bind fun index => .ok (if index > fields then index else fields)) fields) 0

/-- `utility/sPF2PF.cpp` 106-111 -/
def scatter (s : Sparse.Cell α) (c : List α) : Outcome (List α) :=
  (List.range s.length).foldlM (fun c (j : Nat) => (Sparse.index s j).bind fun index => (Sparse.value s j).bind fun value => vecSet c index value) c

/-- `utility/sPF2PF.cpp` 87-114, 116-145, 147-178: the three-dimensional case makes a two-dimensional `grid2` (166). -/
def spf2pf [Zero α] [One D] (fresh : Int → Int → List α) (g1 : Grid D (Sparse.Cell α)) : Outcome (Grid D (List α)) :=
  (largestIndex g1).bind fun m => (plusOne m).bind fun fields =>
  let g2 : Grid D (List α) := make (if g1.shape.dim = 3 then 2 else g1.shape.dim) fields g1.shape.x0 g1.shape.x1 (fresh fields)
  (eachNode g1.shape.nodes.toNat g2.shape (fun i c => (clear fields c).bind fun c => (at1 g1 i).bind fun s => scatter s c) g2.data).bind fun data =>
  .ok { g2 with data := data }

end MMSP.Convert
