import Verif.BufferProps
import Verif.Decomp
/-!
# Whole-grid operations: `swap`, `copy`, the copy constructor, same-type assignment and destruction

Model of `include/MMSP.grid.cpp` 71-99 (copy constructor), 319-335 (allocation in `setup`, destructor), 1913-1991
(`swap`) and 1993-2047 (`copy`). Grid objects live in a store so that two names may denote the same object; cell arrays
live in a heap of blocks so that freeing one twice is visible.

Simplifications: `int` is `Int`; the spacing `dx` has an abstract type `D`; `fresh n` is the value of a cell after default
construction and `resize(cell, n)` (for `vector` its element values are unspecified, so results are stated for every
`fresh`). A cell value is stored directly in the block (its own storage is the subject of `Verif.Heap`).
-/

namespace MMSP.GridCopy

open Finset

/-- The data members of `grid<dim,T>` (`include/MMSP.grid.h` 455-485). -/
structure Grid (D : Type) where
  data : Option Nat
  nodes : Int
  cells : Int
  fields : Int
  ghosts : Int
  g0 : Nat → Int
  g1 : Nat → Int
  x0 : Nat → Int
  x1 : Nat → Int
  xx : Nat → Int
  s0 : Nat → Int
  s1 : Nat → Int
  sx : Nat → Int
  b0 : Nat → BC
  b1 : Nat → BC
  dx : Nat → D
  p0 : Nat → Int
  p1 : Nat → Int
  sp : Nat → Int
  n0 : Nat → Int
  n1 : Nat → Int

/-- Grid objects and heap blocks of cells. -/
structure Mem (D T : Type) where
  next : Nat
  blk : Nat → Option (List T)
  grid : Nat → Grid D

variable {D T : Type}

def Mem.setGrid (m : Mem D T) (a : Nat) (g : Grid D) : Mem D T := { m with grid := Function.update m.grid a g }

def Mem.setBlk (m : Mem D T) (p : Nat) (b : Option (List T)) : Mem D T := { m with blk := Function.update m.blk p b }

/-- Exchange of entry `i` of every array member, the body of the loop `include/MMSP.grid.cpp` 1941-1990. -/
def swapAxis (i : Nat) (u v : Grid D) : Grid D × Grid D :=
  let set {β : Type} (f : Nat → β) (y : β) : Nat → β := Function.update f i y
  ({ u with
      g0 := set u.g0 (v.g0 i), g1 := set u.g1 (v.g1 i), x0 := set u.x0 (v.x0 i), x1 := set u.x1 (v.x1 i)
      xx := set u.xx (v.xx i), s0 := set u.s0 (v.s0 i), s1 := set u.s1 (v.s1 i), sx := set u.sx (v.sx i)
      b0 := set u.b0 (v.b0 i), b1 := set u.b1 (v.b1 i), dx := set u.dx (v.dx i), p0 := set u.p0 (v.p0 i)
      p1 := set u.p1 (v.p1 i), sp := set u.sp (v.sp i), n0 := set u.n0 (v.n0 i), n1 := set u.n1 (v.n1 i) },
   { v with
      g0 := set v.g0 (u.g0 i), g1 := set v.g1 (u.g1 i), x0 := set v.x0 (u.x0 i), x1 := set v.x1 (u.x1 i)
      xx := set v.xx (u.xx i), s0 := set v.s0 (u.s0 i), s1 := set v.s1 (u.s1 i), sx := set v.sx (u.sx i)
      b0 := set v.b0 (u.b0 i), b1 := set v.b1 (u.b1 i), dx := set v.dx (u.dx i), p0 := set v.p0 (u.p0 i)
      p1 := set v.p1 (u.p1 i), sp := set v.sp (u.sp i), n0 := set v.n0 (u.n0 i), n1 := set v.n1 (u.n1 i) })

/-- `include/MMSP.grid.cpp` 1913-1939: exchange of the scalar members. -/
def swapScalars (u v : Grid D) : Grid D × Grid D :=
  ({ u with data := v.data, nodes := v.nodes, cells := v.cells, fields := v.fields, ghosts := v.ghosts },
   { v with data := u.data, nodes := u.nodes, cells := u.cells, fields := u.fields, ghosts := u.ghosts })

/-- Writing both members of an exchange back; for one object exchanged with itself every temporary is written back to where
it came from, so nothing changes. -/
def Mem.exchange (m : Mem D T) (a b : Nat) (f : Grid D → Grid D → Grid D × Grid D) : Mem D T :=
  if a = b then m else (m.setGrid a (f (m.grid a) (m.grid b)).1).setGrid b (f (m.grid a) (m.grid b)).2

/-- `include/MMSP.grid.cpp` 1913-1991, `A.swap(B)`. -/
def swap (dim : Nat) (m : Mem D T) (a b : Nat) : Mem D T :=
  (List.range dim).foldl (fun m i => m.exchange a b (swapAxis i)) (m.exchange a b swapScalars)

/-- `include/MMSP.grid.cpp` 328-335 and 1996-1999: `if (data!=NULL) { delete [] data; data=NULL; }`; deleting a block that is
not allocated is undefined behaviour. -/
def dropData (m : Mem D T) (a : Nat) : Outcome (Mem D T) :=
  match (m.grid a).data with
  | none => .ok m
  | some p => match m.blk p with
    | none => .ub
    | some _ => .ok ((m.setBlk p none).setGrid a { m.grid a with data := none })

/-- `include/MMSP.grid.cpp` 319-322 and 2032-2034: `data = new T[cells]` and `resize` of every cell. A negative count makes
`new` throw. -/
def allocData (fresh : Int → T) (m : Mem D T) (a : Nat) : Outcome (Mem D T) :=
  if (m.grid a).cells < 0 then .abort 134
  else .ok
    { next := m.next + 1
      blk := Function.update m.blk m.next (some (List.replicate (m.grid a).cells.toNat (fresh (m.grid a).fields)))
      grid := Function.update m.grid a { m.grid a with data := some m.next } }

/-- `include/MMSP.grid.cpp` 2001-2030: members other than the data pointer. -/
def copyMembers (dim : Nat) (m : Mem D T) (a b : Nat) : Mem D T :=
  let v := m.grid b
  let u := m.grid a
  let pre {β : Type} (f g : Nat → β) : Nat → β := fun i => if i < dim then g i else f i
  m.setGrid a
    { u with
      nodes := v.nodes, cells := v.cells, fields := v.fields, ghosts := v.ghosts
      g0 := pre u.g0 v.g0, g1 := pre u.g1 v.g1, x0 := pre u.x0 v.x0, x1 := pre u.x1 v.x1
      xx := pre u.xx v.xx, s0 := pre u.s0 v.s0, s1 := pre u.s1 v.s1, sx := pre u.sx v.sx
      b0 := pre u.b0 v.b0, b1 := pre u.b1 v.b1, dx := pre u.dx v.dx, p0 := pre u.p0 v.p0
      p1 := pre u.p1 v.p1, sp := pre u.sp v.sp, n0 := pre u.n0 v.n0, n1 := pre u.n1 v.n1 }

/-- `GRID.data[i]`. -/
def loadCell (m : Mem D T) (a : Nat) (i : Nat) : Outcome T :=
  match (m.grid a).data with
  | none => .ub
  | some p => match m.blk p with
    | none => .ub
    | some l => match l[i]? with
      | none => .ub
      | some v => .ok v

/-- `data[i] = v`. -/
def storeCell (m : Mem D T) (a : Nat) (i : Nat) (v : T) : Outcome (Mem D T) :=
  match (m.grid a).data with
  | none => .ub
  | some p => match m.blk p with
    | none => .ub
    | some l => if i < l.length then .ok (m.setBlk p (some (l.set i v))) else .ub

/-- Writing `bytes` to the start of a buffer of `n` bytes whose content is `junk`; more than `n` bytes overflow it. -/
def fill (n : Nat) (junk : List Byte) (bytes : List Byte) : Outcome (List Byte) :=
  if bytes.length ≤ n then .ok (bytes ++ (junk.drop bytes.length).take (n - bytes.length)) else .ub

/-- One iteration of the loop `include/MMSP.grid.cpp` 2037-2045. The temporary has the size of the *destination* cell. -/
def copyCell (c : Cell T) (junk : List Byte) (m : Mem D T) (a b : Nat) (i : Nat) : Outcome (Mem D T) :=
  (loadCell m a i).bind fun d =>
  (loadCell m b i).bind fun s =>
  (fill (c.size d) junk (c.enc s)).bind fun buf =>
  (c.dec buf).bind fun r =>
  storeCell m a i r.1

/-- `include/MMSP.grid.cpp` 2036-2046 -/
def copyCells (c : Cell T) (junk : List Byte) (a b : Nat) : List Nat → Mem D T → Outcome (Mem D T)
  | [], m => .ok m
  | i :: is, m => (copyCell c junk m a b i).bind (copyCells c junk a b is)

/-- `include/MMSP.grid.cpp` 1993-2047, `A.copy(B)`. -/
def copy (c : Cell T) (fresh : Int → T) (junk : List Byte) (dim : Nat) (m : Mem D T) (a b : Nat) : Outcome (Mem D T) :=
  (dropData m a).bind fun m =>
  let m := copyMembers dim m a b
  (allocData fresh m a).bind fun m =>
  copyCells c junk a b (List.range (m.grid a).cells.toNat) m

/-- Same-type assignment `A = B`. The class declares only member templates `operator=` (`include/MMSP.grid.h` 203, 205),
which are never copy assignment operators, so the compiler-generated memberwise one is chosen: it copies the pointer. -/
def assign (m : Mem D T) (a b : Nat) : Mem D T := m.setGrid a (m.grid b)

/-- `include/MMSP.grid.cpp` 141-317 (`setup(false)`) for a grid whose `fields`, `g0`, `g1`, `ghosts` are already set: every
other member except the data pointer. `one` is the spacing `1.0`. -/
def setup (one : D) (bd : Build) (dim np : Nat) (rank : Int) (u : Grid D) : Grid D :=
  let s : Shape := match bd with
    | .serial => { dim := dim, x0 := u.g0, x1 := u.g1, b0 := fun _ => .periodic, b1 := fun _ => .periodic
                   ghosts := u.ghosts }
    | .mpi => Decomp.localShape dim u.g0 u.g1 u.ghosts np rank
  let q : Nat → Int := match bd with
    | .serial => fun _ => 1
    | .mpi => Decomp.choose np dim u.g0 u.g1
  { u with
    nodes := s.nodes, cells := s.cells
    x0 := s.x0, x1 := s.x1, xx := s.xx, s0 := s.s0, s1 := s.s1, sx := s.sx, b0 := s.b0, b1 := s.b1
    dx := fun _ => one, p0 := fun _ => 0, p1 := q
    sp := match bd with | .serial => fun _ => 1 | .mpi => Decomp.sp dim q
    n0 := match bd with | .serial => fun _ => 0 | .mpi => Decomp.below dim q rank
    n1 := match bd with | .serial => fun _ => 0 | .mpi => Decomp.above dim q rank }

/-- `include/MMSP.grid.cpp` 82-87: the ghost width of a constructed copy. -/
def keptGhosts (bd : Build) (ghosts : Int) : Int :=
  match bd with
  | .serial => 0
  | .mpi => ghosts

/-- `include/MMSP.grid.cpp` 71-99, the copy constructor `grid A(B)`: it builds the new object `a` (whose members start out
unspecified) and never looks at `B`'s cells. -/
def copyCtor (one : D) (fresh : Int → T) (bd : Build) (dim np : Nat) (rank : Int) (m : Mem D T) (a b : Nat) :
    Outcome (Mem D T) :=
  let v := m.grid b
  let u := m.grid a
  let u := setup one bd dim np rank
    { u with fields := v.fields, g0 := v.g0, g1 := v.g1
             ghosts := keptGhosts bd v.ghosts }
  (allocData fresh (m.setGrid a u) a).bind fun m =>
  let u := m.grid a
  .ok (m.setGrid a { u with b0 := v.b0, b1 := v.b1, dx := v.dx })

/-- `include/MMSP.grid.h` 589-592: the free function `copy(GRID1, GRID2)`. -/
def freeCopy (c : Cell T) (fresh : Int → T) (junk : List Byte) (dim : Nat) (m : Mem D T) (grid1 grid2 : Nat) :
    Outcome (Mem D T) := copy c fresh junk dim m grid2 grid1

end MMSP.GridCopy
