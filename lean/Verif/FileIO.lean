import Verif.Buffer
import Verif.Decomp
/-!
# Data blocks of MMSP files

Model of `grid::write_buffer` (`include/MMSP.grid.cpp` 1818-1909) and `grid::read` (1248-1356), of the block part of
serial `grid::output` (1384-1398) and of both builds of the library (`RAW` defined: no zlib).

Simplifications. A file is the list of its bytes and an input stream the list of bytes not yet read; a `read` that hits the
end of the file leaves its target unset, and since the code never checks the stream afterwards this is undefined behaviour.
`int` has four and `unsigned long` eight bytes, both little-endian. zlib is a parameter (`Zlib`); `Zlib.Lawful` states what is
assumed of it. Boundary codes other than the five of the enumeration are not represented (`ub`).
The barrier at the end of `read` (1353-1355) has no effect on data and is left out.
-/

namespace MMSP.FileIO

/-- Results of zlib's `uncompress` that `include/MMSP.grid.cpp` 1322-1333 sees. -/
inductive ZResult where
  | ok (b : List Byte) | memError | bufError | dataError

/-- zlib: `compress2(…, 9)` produces `compress raw` if that fits the destination; `uncompress cap data` has room for `cap`
bytes. -/
structure Zlib where
  compress : List Byte → List Byte
  uncompress : Nat → List Byte → ZResult

/-- What the theorems assume of zlib. -/
structure Zlib.Lawful (z : Zlib) : Prop where
  /-- decompression inverts compression when the destination is large enough -/
  inverse : ∀ b cap, b.length ≤ cap → z.uncompress cap (z.compress b) = .ok b
  /-- compressed data fits the space `write_buffer` provides (1822) -/
  bound : ∀ b, (z.compress b).length ≤ b.length + b.length / 8 + 12

/-- Bytes of an `unsigned long`. -/
def ulongBytes (n : Nat) : List Byte := leBytes 8 n

/-- `file.read(p, n)`: the bytes read and the rest of the stream. -/
def fread (n : Nat) (s : List Byte) : Outcome (List Byte × List Byte) :=
  if n ≤ s.length then .ok (s.take n, s.drop n) else .ub

/-- `file.read` of an `int`. -/
def freadInt (s : List Byte) : Outcome (Int × List Byte) :=
  (fread 4 s).bind fun r => (readInt r.1).bind fun n => .ok (n, r.2)

/-- `file.read` of an `unsigned long`. -/
def freadULong (s : List Byte) : Outcome (Nat × List Byte) :=
  (fread 8 s).bind fun r => .ok (ofLe r.1, r.2)

/-- The boundary condition with a given code. -/
def ofCode (n : Int) : Option BC :=
  if n = 0 then some .mirror else if n = 1 then some .neumann else if n = 2 then some .periodic
  else if n = 3 then some .parallel else if n = 4 then some .dirichlet else none

/-- `include/MMSP.grid.cpp` 1267-1270 and 1274-1277: `d` pairs of `int`. -/
def readPairs : Nat → List Byte → Outcome (List (Int × Int) × List Byte)
  | 0, s => .ok ([], s)
  | d + 1, s =>
    (freadInt s).bind fun a => (freadInt a.2).bind fun b => (readPairs d b.2).bind fun r =>
      .ok ((a.1, b.1) :: r.1, r.2)

/-- The member assignment `b0[j] = blo[j]`. -/
def setBC (n : Int) : Outcome BC :=
  match ofCode n with
  | some b => .ok b
  | none => .ub

/-- `include/MMSP.grid.cpp` 1345-1348, the first of the two statements for all axes below `d`: `b[j] = code[j]` where
`x[j] == l[j]`. The other axes keep their value. -/
def setBCs (x l code : Nat → Int) : Nat → (Nat → BC) → Outcome (Nat → BC)
  | 0, b => .ok b
  | d + 1, b => (setBCs x l code d b).bind fun b =>
    if x d = l d then (setBC (code d)).bind fun v => .ok (Function.update b d v) else .ok b

section
variable {T : Type} (comp : Option Zlib) (c : Cell T)

/-- `include/MMSP.grid.cpp` 1843-1862: limits, then boundary conditions, axis by axis. -/
def blockHeader (g : Shape) : List Byte :=
  ((List.range g.dim).flatMap fun j => intBytes (g.x0 j) ++ intBytes (g.x1 j)) ++
  ((List.range g.dim).flatMap fun j => intBytes (g.b0 j).code ++ intBytes (g.b1 j).code)

/-- `include/MMSP.grid.cpp` 1818-1909, `write_buffer`; `comp = none` is the build with `RAW` defined. -/
def writeBuffer (g : Shape) (data : Int → T) : Outcome (List Byte) :=
  (bufferSize c g 1 g.x0 g.x1 data).bind fun size =>
  (toBuffer c g 1 g.x0 g.x1 data).bind fun raw =>
  if size < raw.length then .ub else
  match comp with
  | none => .ok (blockHeader g ++ ulongBytes size ++ ulongBytes size ++ raw)
  | some z =>
    let packed := z.compress raw
    if size + size / 8 + 12 < packed.length then .abort 1
    else .ok (blockHeader g ++ ulongBytes size ++ ulongBytes packed.length ++ packed)

/-- `include/MMSP.grid.cpp` 1311: the temporary `grid<dim,T> GRID(fields, lmin, lmax, 0, true)`. -/
def blockShape (d : Nat) (lmin lmax : Nat → Int) : Shape where
  dim := d
  x0 := lmin
  x1 := lmax
  b0 := fun _ => .periodic
  b1 := fun _ => .periodic
  ghosts := 0

/-- `include/MMSP.grid.cpp` 1312-1335: the bytes handed to `GRID.from_buffer`. `Z_DATA_ERROR` is not among the handled cases,
so a partly filled array is used. -/
def unpack (sizeInMem : Nat) (buffer : List Byte) : Outcome (List Byte) :=
  if sizeInMem ≠ buffer.length then
    match comp with
    | none => .abort 1
    | some z =>
      match z.uncompress sizeInMem buffer with
      | .ok b => .ok b
      | .memError => .abort 1
      | .bufError => .abort 1
      | .dataError => .ub
  else .ok buffer

/-- `include/MMSP.grid.cpp` 1290 -/
def overlapMin (g : Shape) (lmin : Nat → Int) (j : Nat) : Int := if lmin j < g.x0 j then g.x0 j else lmin j
/-- `include/MMSP.grid.cpp` 1291 -/
def overlapMax (g : Shape) (lmax : Nat → Int) (j : Nat) : Int := if lmax j > g.x1 j then g.x1 j else lmax j
/-- `include/MMSP.grid.cpp` 1288-1293 -/
def overlap (g : Shape) (lmin lmax : Nat → Int) : Bool :=
  (List.range g.dim).all fun j => !decide (overlapMin g lmin j ≥ overlapMax g lmax j)

/-- `include/MMSP.grid.cpp` 1310-1342: fill the temporary grid from the raw bytes and copy the overlapping region.
`fresh` is the content of a newly allocated cell. -/
def absorb (fresh : T) (g : Shape) (data : Int → T) (lmin lmax : Nat → Int) (raw : List Byte) : Outcome (Int → T) :=
  let G := blockShape g.dim lmin lmax
  let mn := overlapMin g lmin
  let mx := overlapMax g lmax
  (fromBuffer c G 1 lmin lmax raw fun _ => fresh).bind fun tmp =>
  (bufferSize c G 1 mn mx tmp.1).bind fun size =>
  (toBuffer c G 1 mn mx tmp.1).bind fun buf =>
  if size < buf.length then .ub else
  (fromBuffer c g 1 mn mx buf data).bind fun r => .ok r.1

/-- What `read` changes: the data array and the boundary conditions. -/
structure Reader (T : Type) where
  shape : Shape
  data : Int → T

/-- `include/MMSP.grid.cpp` 1262-1351, the body of the loop over blocks. -/
def readBlock (fresh : T) (r : Reader T) (s : List Byte) : Outcome (Reader T × List Byte) :=
  (readPairs r.shape.dim s).bind fun lims =>
  (readPairs r.shape.dim lims.2).bind fun bcs =>
  (freadULong bcs.2).bind fun sizeInMem =>
  (freadULong sizeInMem.2).bind fun sizeOnDisk =>
  let lmin := fun j => (lims.1.getD j (0, 0)).1
  let lmax := fun j => (lims.1.getD j (0, 0)).2
  let blo := fun j => (bcs.1.getD j (0, 0)).1
  let bhi := fun j => (bcs.1.getD j (0, 0)).2
  if overlap r.shape lmin lmax then
    (fread sizeOnDisk.1 sizeOnDisk.2).bind fun buffer =>
    (unpack comp sizeInMem.1 buffer.1).bind fun raw =>
    (absorb c fresh r.shape r.data lmin lmax raw).bind fun data =>
    (setBCs r.shape.x0 lmin blo r.shape.dim r.shape.b0).bind fun b0 =>
    (setBCs r.shape.x1 lmax bhi r.shape.dim r.shape.b1).bind fun b1 =>
    .ok (⟨⟨r.shape.dim, r.shape.x0, r.shape.x1, b0, b1, r.shape.ghosts⟩, data⟩, buffer.2)
  else .ok (r, sizeOnDisk.2.drop sizeOnDisk.1)

/-- The loop of `read`, `n` blocks to go. -/
def readBlocks (fresh : T) : Nat → Reader T → List Byte → Outcome (Reader T × List Byte)
  | 0, r, s => .ok (r, s)
  | n + 1, r, s => (readBlock comp c fresh r s).bind fun q => readBlocks fresh n q.1 q.2

/-- `include/MMSP.grid.cpp` 1248-1356, `grid::read`. -/
def read (fresh : T) (r : Reader T) (s : List Byte) : Outcome (Reader T × List Byte) :=
  (freadInt s).bind fun blocks => readBlocks comp c fresh blocks.1.toNat r blocks.2

/-- The blocks written by a list of ranks, one after the other, in the order of the list. -/
def writeAll : List (Reader T) → Outcome (List Byte)
  | [] => .ok []
  | w :: ws => (writeBuffer comp c w.shape w.data).bind fun b => (writeAll ws).bind fun bs => .ok (b ++ bs)

/-- `include/MMSP.grid.cpp` 1388 (block count), 1391-1394 (block): what follows the text header in a file. -/
def dataSection (ws : List (Reader T)) : Outcome (List Byte) :=
  (writeAll comp c ws).bind fun b => .ok (intBytes ws.length ++ b)

end

end MMSP.FileIO
