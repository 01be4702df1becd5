import Verif.FileHeader
/-!
# Changing the byte order of files

Model of `utility/wrongendian.cpp`.

Simplifications. The host is little-endian, `int`, `long`, `short`, `float`, `double` and `long double` have 4, 8, 2, 4, 8 and 16 bytes. The
buffer is changed in place from front to back; here the changed part and the part still ahead of the pointer `q` are two lists, and an access
beyond the data is undefined behaviour (the array has at least 12 spare bytes of unspecified content). The program copies the text header through
`int` and `float` variables. Threads only matter for the order in which the finished blocks are written: it is a parameter.
-/

namespace MMSP.WrongEndian

open FileIO

/-- `utility/wrongendian.cpp` 27-39: byte `k` of the result is byte `sizeof(T)-k-1` of the argument. -/
def swapEndian (w : Nat) (b : List Byte) : List Byte := (List.range w).map fun k => b.getD (w - k - 1) 0

/-- `swap_endian<T>(q); q += sizeof(T)`: changed bytes and what lies behind them. -/
def swapHere (w : Nat) (s : List Byte) : Outcome (List Byte × List Byte) :=
  if w ≤ s.length then .ok (swapEndian w (s.take w), s.drop w) else .ub

/-- `utility/wrongendian.cpp` 47-53, followed by `q += n * sizeof(T)`. -/
def swapBuffer (w : Nat) : Nat → List Byte → Outcome (List Byte × List Byte)
  | 0, s => .ok ([], s)
  | n + 1, s => (swapHere w s).bind fun a => (swapBuffer w n a.2).bind fun b => .ok (a.1 ++ b.1, b.2)

/-- `q += n` without a change. -/
def skip (n : Nat) (s : List Byte) : Outcome (List Byte × List Byte) := .ok (s.take n, s.drop n)

/-- `utility/wrongendian.cpp` 376-377 (and likewise for the other types): the count is swapped, and then only its first byte is copied into `n`,
whose other bytes are zero from 203 on. -/
def count (s : List Byte) : Outcome (List Byte × Nat × List Byte) :=
  (swapHere 4 s).bind fun a => .ok (a.1, (a.1.getD 0 0).toNat, a.2)

/-- One cell of a scalar grid, `utility/wrongendian.cpp` 334-362. -/
def scalarStep (w : Nat) (s : List Byte) : Outcome (List Byte × List Byte) := swapHere w s

/-- One cell of a vector grid, `utility/wrongendian.cpp` 373-455; elements of one byte are passed over. -/
def vectorStep (w : Nat) (s : List Byte) : Outcome (List Byte × List Byte) :=
  (count s).bind fun c => (if w = 1 then skip c.2.1 c.2.2 else swapBuffer w c.2.1 c.2.2).bind fun d => .ok (c.1 ++ d.1, d.2)

/-- Entries of a sparse cell, `utility/wrongendian.cpp` 476-481 (and likewise for the other types): index, then value. -/
def items (w : Nat) : Nat → List Byte → Outcome (List Byte × List Byte)
  | 0, s => .ok ([], s)
  | n + 1, s => (swapHere 4 s).bind fun a => (if w = 1 then skip 1 a.2 else swapHere w a.2).bind fun b =>
    (items w n b.2).bind fun r => .ok (a.1 ++ (b.1 ++ r.1), r.2)

/-- One cell of a sparse grid, `utility/wrongendian.cpp` 470-572. -/
def sparseStep (w : Nat) (s : List Byte) : Outcome (List Byte × List Byte) :=
  (count s).bind fun c => (items w c.2.1 c.2.2).bind fun d => .ok (c.1 ++ d.1, d.2)

/-- `while (q < uncompress_buf+size_in_mem)` with one cell per round. Every round moves on by at least one byte, so that `s.length` rounds are
enough. -/
def walk (step : List Byte → Outcome (List Byte × List Byte)) : Nat → List Byte → Outcome (List Byte)
  | _, [] => .ok []
  | 0, _ :: _ => .ub
  | n + 1, b :: s => (step (b :: s)).bind fun a => (walk step n a.2).bind fun r => .ok (a.1 ++ r)

/-- `type.find(word) != npos` -/
def finds (word type : List Byte) : Bool := (List.range (type.length + 1)).any fun i => word.isPrefixOf (type.drop i)

/-- The element width chosen for a type name: the flags of `utility/wrongendian.cpp` 103-114 in the order in which the branches of
324-362, 372-455 and 469-572 test them. -/
def width (type : List Byte) : Option Nat :=
  if finds (ascii "bool") type then some 1
  else if finds (ascii "char") type || finds (ascii "unsigned char") type then some 1
  else if finds (ascii "int") type || finds (ascii "unsigned int") type then some 4
  else if finds (ascii "long") type || finds (ascii "unsigned long") type then some 8
  else if finds (ascii "short") type || finds (ascii "unsigned short") type then some 2
  else if finds (ascii "float") type then some 4
  else if finds (ascii "double") type then some 8
  else if finds (ascii "long double") type then some 16
  else none

/-- `utility/wrongendian.cpp` 321-584: a name without a class counts as scalar (126-129). -/
def swapData (type raw : List Byte) : Outcome (List Byte) :=
  match width type with
  | none => .abort (-1)
  | some w =>
    if finds (ascii "scalar") type || !(finds (ascii "sparse") type || finds (ascii "vector") type) then
      if w = 1 then .abort (-1) else walk (scalarStep w) raw.length raw
    else if finds (ascii "vector") type then walk (vectorStep w) raw.length raw
    else walk (sparseStep w) raw.length raw

/-- `utility/wrongendian.cpp` 282-320: `Z_DATA_ERROR` is only reported. -/
def inflate (z : Zlib) (sizeInMem : Nat) (buffer : List Byte) : Outcome (List Byte) :=
  if buffer.length ≠ sizeInMem then
    match z.uncompress (sizeInMem + sizeInMem / 8 + 12) buffer with
    | .ok b => .ok b
    | .memError => .abort (-1)
    | .bufError => .abort (-1)
    | .dataError => .ub
  else .ok buffer

/-- `utility/wrongendian.cpp` 246-636, `swap_block_kernel`: the block written, and the rest of the input. -/
def convertBlock (z : Zlib) (type : List Byte) (d : Nat) (s : List Byte) : Outcome (List Byte × List Byte) :=
  (swapBuffer 4 (2 * d) s).bind fun lims =>
  (swapBuffer 4 (2 * d) lims.2).bind fun bcs =>
  (swapHere 8 bcs.2).bind fun sizeInMem =>
  (swapHere 8 sizeInMem.2).bind fun sizeOnDisk =>
  (fread (ofLe sizeOnDisk.1) sizeOnDisk.2).bind fun buffer =>
  (inflate z (ofLe sizeInMem.1) buffer.1).bind fun raw =>
  (swapData type raw).bind fun data =>
  let packed := z.compress data
  if data.length + data.length / 4 + 12 < packed.length then .abort (-1)
  else .ok (lims.1 ++ bcs.1 ++ ulongBytes data.length ++ ulongBytes packed.length ++ packed, buffer.2)

/-- `utility/wrongendian.cpp` 190-236: all blocks. The main thread finds the next block with the size on disk, like the thread that converts it. -/
def convertBlocks (z : Zlib) (type : List Byte) (d : Nat) : Nat → List Byte → Outcome (List (List Byte))
  | 0, _ => .ok []
  | n + 1, s => (convertBlock z type d s).bind fun a => (convertBlocks z type d n a.2).bind fun r => .ok (a.1 :: r)

/-- Conversion between `float` and text. -/
structure FloatText (F : Type) where
  get : List Byte → Option (F × List Byte)
  put : F → List Byte

/-- `utility/wrongendian.cpp` 171-174, reading -/
def extractFloats {F : Type} (ft : FloatText F) : Nat → List Byte → Outcome (List F × List Byte)
  | 0, s => .ok ([], s)
  | d + 1, s => (orUb (ft.get s)).bind fun a => (extractFloats ft d a.2).bind fun r => .ok (a.1 :: r.1, r.2)

/-- `utility/wrongendian.cpp` 69-243, `main` with two files; `order` lists the blocks in the order in which the threads write them. -/
def convert {F : Type} (z : Zlib) (ft : FloatText F) (order : List Nat) (file : List Byte) : Outcome (List Byte) :=
  let line := getline file
  if line.1.take 4 ≠ ascii "grid" then .abort (-1) else
  if width line.1 = none then .abort (-1) else
  match extractInt line.2 with
  | none => .abort (-1)
  | some dim =>
    if dim.1 < 1 ∨ dim.1 > 3 then .abort (-1) else
    (orUb (extractInt dim.2)).bind fun fields =>
    (extractPairs dim.1.toNat fields.2).bind fun limits =>
    (extractFloats ft dim.1.toNat limits.2).bind fun dx =>
    (swapHere 4 (ignore 10 dx.2)).bind fun blocks =>
    (readInt blocks.1).bind fun n =>
    (convertBlocks z line.1 dim.1.toNat n.toNat blocks.2).bind fun out =>
    .ok (line.1 ++ newline :: (intDec dim.1 ++ newline :: (intDec fields.1 ++ newline ::
      ((limits.1.flatMap fun p => intDec p.1 ++ blank :: (intDec p.2 ++ [newline])) ++
       (dx.1.flatMap fun v => ft.put v ++ [newline])))) ++ (blocks.1 ++ (order.map fun i => out.getD i []).flatten))

end MMSP.WrongEndian
