import Verif.FileHeader
/-!
# Parallel output, standard path

Model of `include/MMSP.grid.cpp` 1426-1543 (`output` with MPI on a filesystem with blocks below 1 MiB): every rank writes its
block with `MPI_File_write_at_all`, rank 0 also writes the header and the number of blocks.

Simplifications. The broadcasts and gathers give every rank the same `header_offset` and `datasizes`, so the offsets are computed
once here. Opening is assumed to succeed and to give an empty file (an existing one is deleted, 1432-1437). A file is a function
from positions to bytes. `MPI_File_write_at` of `n` bytes is `n` single-byte writes, and the single-byte writes of all
ranks take effect in any order whatsoever: this includes every completion order of the calls and every way of splitting them.
-/

namespace MMSP.FileIO

/-- `include/MMSP.grid.cpp` 1491-1496: `offsets[0] = header_offset; offsets[n] = offsets[n-1] + datasizes[n-1]`. -/
def offsets (h : Nat) : List Nat → List Nat
  | [] => []
  | s :: ss => h :: offsets (h + s) ss

/-- The single-byte writes of one `MPI_File_write_at(file, off, data, …)`. -/
def writesAt : Nat → List Byte → List (Nat × Byte)
  | _, [] => []
  | off, b :: bs => (off, b) :: writesAt (off + 1) bs

/-- `include/MMSP.grid.cpp` 1444-1505: all writes of all ranks; `text` is the header, `blocks` what `write_buffer` returned on
each rank. 1494: the assertion is only made for ranks from 1 on. 1505: the count argument is an `int`, so a larger block of
rank 0 is converted to another number. -/
def standardWrites (text : List Byte) (blocks : List (List Byte)) : Outcome (List (Nat × Byte)) :=
  let sizes := blocks.map List.length
  let offs := offsets (text.length + 4) sizes
  if (sizes.drop 1).any (fun n => decide (2 ^ 31 - 1 ≤ n)) then .abort 134
  else if (sizes.take 1).any (fun n => decide (2 ^ 31 ≤ n)) then .ub
  else .ok (writesAt 0 text ++ writesAt text.length (intBytes blocks.length) ++
    (List.zip offs blocks).flatMap fun p => writesAt p.1 p.2)

/-- The file after the writes have taken effect in the order of the list. -/
def written (ws : List (Nat × Byte)) : Nat → Option Byte :=
  ws.foldl (fun f w => Function.update f w.1 (some w.2)) fun _ => none

end MMSP.FileIO
