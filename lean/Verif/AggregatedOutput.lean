import Verif.ParallelOutput
import Mathlib.Algebra.BigOperators.Group.Finset.Basic
/-!
# Parallel output, aggregating path

Model of `include/MMSP.grid.cpp` 1545-1814 (`output` with MPI on a filesystem with blocks of 1 MiB or more): some ranks are
writers; the other ranks, and the ranks whose data begins in another writer's part of the file, send bytes to a writer.

Simplifications. Broadcast and gathers give all ranks the same numbers, so the plan (writers, offsets, misalignments) is computed once.
`unsigned long` arithmetic wraps only where a difference can be negative (1671); other values are natural numbers (the theorems
ask for files below 2^63 bytes). `unsigned int blocks` does not wrap (files below 2^51 bytes). The loop 1620 runs at most once.
A failing assertion ends the whole program (`abort 134`), and all assertions about misalignments are made before any message is waited for.
Waiting for a request that was never started, a message that does not match its receive, writing beyond `filebuffer`, sending
bytes of `filebuffer` that were never set, and an `int` count that does not fit are undefined behaviour.
-/

namespace MMSP.FileIO.Aggregated

open Finset

/-- What one call of `output` starts from. -/
structure Job where
  /-- `blocksize` -/
  B : Nat
  /-- `headbuffer`: text header and block count -/
  head : List Byte
  /-- `databuffer` of each rank -/
  data : List (List Byte)

namespace Job
variable (j : Job)

def np : Nat := j.data.length
def buf (q : Nat) : List Byte := j.data.getD q []
/-- `datasizes[q]` -/
def d (q : Nat) : Nat := (j.buf q).length
/-- Header and data sizes of the ranks before `q`. -/
def start (q : Nat) : Nat := j.head.length + ∑ k ∈ range q, j.d k
/-- `include/MMSP.grid.cpp` 1602-1603 -/
def filesize : Nat := j.start j.np
/-- `include/MMSP.grid.cpp` 1606-1612: `offsets[q]`; `offsets[0]` is reset to zero after the others are computed. -/
def off (q : Nat) : Nat := if q = 0 then 0 else j.start q

/-- `include/MMSP.grid.cpp` 1619-1620 -/
def blocks : Nat := if j.filesize / j.B * j.B < j.filesize then j.filesize / j.B + 1 else j.filesize / j.B
/-- `include/MMSP.grid.cpp` 1621 -/
def nwriters : Nat := if j.blocks > j.np then j.np else j.blocks
/-- `include/MMSP.grid.cpp` 1622 -/
def writesize : Nat := j.B * (j.blocks / j.nwriters)
/-- `include/MMSP.grid.cpp` 1624 -/
def excess : Nat := j.blocks % j.nwriters

/-- `include/MMSP.grid.cpp` 1636-1638: `aoffsets[w]`. -/
def aoff : Nat → Nat
  | 0 => 0
  | w + 1 => (if w + 1 ≤ j.excess then j.writesize + j.B else j.writesize) + aoff w

/-- `include/MMSP.grid.cpp` 1639-1640 with `k = np - temprank`: the condition reads `offsets[temprank]` before it compares
`temprank` with `np`. -/
def seek (A : Nat) : Nat → Nat → Outcome Nat
  | 0, _ => .ub
  | k + 1, t => if A > j.off t + j.d t then seek A k (t + 1) else .ok t

/-- `include/MMSP.grid.cpp` 1634-1645, `n` writers to go, the next one being number `w`: the entries of `writeranks`. -/
def scan : Nat → Nat → Nat → Outcome (List Nat)
  | 0, _, _ => .ok []
  | n + 1, w, t => (j.seek (j.aoff w) (j.np - t) t).bind fun t => (scan n (w + 1) (t + 1)).bind fun L => .ok (t :: L)

/-- `writeranks[w]`, including the extra entry of 1633. -/
def wr (L : List Nat) (w : Nat) : Nat := if w < j.nwriters then L.getD w 0 else j.np - 1

/-- `include/MMSP.grid.cpp` 1652-1653 (`writeranks[0] = 0 < rank` ends the loop). -/
def prevFrom (L : List Nat) (r : Nat) : Nat → Nat
  | 0 => 0
  | n + 1 => if j.wr L (n + 1) ≥ r then prevFrom L r n else n + 1

/-- `include/MMSP.grid.cpp` 1649-1654 -/
def prev (L : List Nat) (r : Nat) : Nat := if r = 0 then 0 else j.prevFrom L r j.nwriters

/-- `include/MMSP.grid.cpp` 1658-1659 -/
def nextFrom (L : List Nat) (r : Nat) : Nat → Nat → Nat
  | 0, w => w
  | k + 1, w => if j.wr L w ≤ r then nextFrom L r k (w + 1) else w

/-- `include/MMSP.grid.cpp` 1655-1660 -/
def next (L : List Nat) (r : Nat) : Nat :=
  if r ≥ j.wr L (j.nwriters - 1) then j.nwriters else j.nextFrom L r j.nwriters 0

/-- `include/MMSP.grid.cpp` 1662-1666 -/
def ws (L : List Nat) (r : Nat) : Nat :=
  if r ≥ j.wr L (j.nwriters - 1) then j.filesize - j.aoff (j.nwriters - 1)
  else if j.next L r ≤ j.excess then j.writesize + j.B else j.writesize

/-- `include/MMSP.grid.cpp` 1668-1677: `deficiency`, gathered as `misalignments[r]`. -/
def mis (L : List Nat) (r : Nat) : Nat :=
  if r = 0 then 0 else
    let prevws := if j.prev L r ≥ j.excess then j.writesize else j.writesize + j.B
    let def_ := (j.aoff (j.prev L r) + prevws + 2 ^ 64 - j.off r) % 2 ^ 64
    if def_ > j.d r then j.d r else def_

/-- `include/MMSP.grid.cpp` 1736-1745: the message a rank sends, if any: destination and bytes. -/
def send (L : List Nat) (r : Nat) : Option (Nat × List Byte) :=
  if j.mis L r ≥ j.d r then some (j.wr L (j.prev L r), j.buf r)
  else if r ∈ L ∧ r > 0 ∧ j.mis L r > 0 then some (j.wr L (j.prev L r), (j.buf r).take (j.mis L r))
  else none

/-- `include/MMSP.grid.cpp` 1716-1731: the receive from rank `q` posted by writer `r`, and 1747. -/
def receive (L : List Nat) (r q : Nat) : Outcome (List Byte) :=
  if j.mis L q = 0 then .ub else
  match j.send L q with
  | none => .ub
  | some m => if m.1 = r ∧ m.2.length = j.mis L q then .ok m.2 else .ub

/-- All receives of writer `r`, from ranks `q`, `q+1`, … (`n` of them). -/
def receives (L : List Nat) (r : Nat) : Nat → Nat → Outcome (List Byte)
  | 0, _ => .ok []
  | n + 1, q =>
    if q < j.np then (j.receive L r q).bind fun a => (receives L r n (q + 1)).bind fun b => .ok (a ++ b) else .ok []

/-- `include/MMSP.grid.cpp` 1688-1748 and 1770-1777 for one rank: the write it makes, if any. -/
def rank (L : List Nat) (r : Nat) : Outcome (List (Nat × Byte)) :=
  if r > 0 ∧ j.send L r = none then .ub else
  if r ∈ L then
    let own := (if r = 0 then j.head else []) ++ (j.buf r).drop (j.mis L r)
    (j.receives L r (j.wr L (j.next L r) - r) (r + 1)).bind fun got =>
    if (own ++ got).length ≠ j.ws L r then .ub else
    if j.ws L r ≥ 2 ^ 31 then .ub else
    .ok (writesAt (j.aoff (L.idxOf r)) (own ++ got))
  else .ok []

/-- All ranks in turn. -/
def allRanks (L : List Nat) : Nat → Nat → Outcome (List (Nat × Byte))
  | 0, _ => .ok []
  | n + 1, r => (j.rank L r).bind fun a => (allRanks L n (r + 1)).bind fun b => .ok (a ++ b)

/-- `include/MMSP.grid.cpp` 1545-1814: the single-byte writes of all ranks. 1609 and 1690 are assertions. -/
def writes : Outcome (List (Nat × Byte)) :=
  if (List.range j.np).any (fun q => decide (q > 0 ∧ 2 ^ 31 - 1 ≤ j.d q)) then .abort 134 else
  (j.scan j.nwriters 0 0).bind fun L =>
  if L.any (fun r => decide (¬ j.mis L r < j.d r)) then .abort 134 else
  j.allRanks L j.np 0

end Job
end MMSP.FileIO.Aggregated
