import Verif.Decomp
import Verif.Buffer
/-!
# Ghost exchange

Model of `include/MMSP.grid.cpp` 414-515, `ghostswap()`, and 517-1054, `ghostswap(sublattice)`, in an MPI build.

The program text of a rank is, for every axis, two exchanges (up, down), each made of two rounds
`Irecv; Isend; Waitall; Barrier`: first the byte count, then the bytes. `ghostswap` below is the result when the rounds
are executed in lock step; `GhostSched.lean` shows that every schedule of the ranks gives this result.
-/

namespace MMSP.Ghost

open Finset Decomp

/-- Direction of an exchange: `up` is `include/MMSP.grid.cpp` 421-465, `down` is 467-511. -/
inductive Dir where
  | up | down
  deriving DecidableEq, Repr

/-- `send_min`, `include/MMSP.grid.cpp` 428-437 and 474-483. -/
def sendMin (g : Shape) (i : Nat) (dir : Dir) (j : Nat) : Int :=
  if j = i then (match dir with | .up => g.x1 i - g.ghosts | .down => g.x0 i) else g.x0 j - g.ghosts

/-- `send_max` -/
def sendMax (g : Shape) (i : Nat) (dir : Dir) (j : Nat) : Int :=
  if j = i then (match dir with | .up => g.x1 i | .down => g.x0 i + g.ghosts) else g.x1 j + g.ghosts

/-- `recv_min`, `include/MMSP.grid.cpp` 428-439 and 474-485. -/
def recvMin (g : Shape) (i : Nat) (dir : Dir) (j : Nat) : Int :=
  if j = i then (match dir with | .up => g.x0 i - g.ghosts | .down => g.x1 i) else g.x0 j - g.ghosts

/-- `recv_max` -/
def recvMax (g : Shape) (i : Nat) (dir : Dir) (j : Nat) : Int :=
  if j = i then (match dir with | .up => g.x0 i | .down => g.x1 i + g.ghosts) else g.x1 j + g.ghosts

/-- Regions and stride of an exchange. -/
structure Plan where
  step : Nat
  sMin : Shape → Nat → Dir → Nat → Int
  sMax : Shape → Nat → Dir → Nat → Int
  rMin : Shape → Nat → Dir → Nat → Int
  rMax : Shape → Nat → Dir → Nat → Int

/-- `ghostswap()`, `include/MMSP.grid.cpp` 414-515. -/
def fullPlan : Plan := ⟨1, sendMin, sendMax, recvMin, recvMax⟩

/-- Parity each axis is restricted to (`some true` odd, `some false` even), read off the branches of
`include/MMSP.grid.cpp` 544-758 (up; the branches of 809-1023, down, are the same). `none`: no branch applies. Within a
branch every axis gets the same parity whatever the exchanged axis `i` is. -/
def parityTable (d : Nat) (s : Int) (j : Nat) : Option Bool :=
  if d = 2 then
    if s = 0 then some false
    else if s = 3 then some true
    else if s = 1 then (if j = 0 then some false else some true)
    else if s = 2 then (if j = 0 then some true else some false)
    else none
  else if d = 3 then
    if s = 0 then some false
    else if s = 1 then (if j = 0 then some false else if j = 1 then some false else some true)
    else if s = 2 then (if j = 0 then some false else if j = 1 then some true else some false)
    else if s = 3 then (if j = 0 then some false else if j = 1 then some true else some true)
    else if s = 4 then (if j = 0 then some true else if j = 1 then some false else some false)
    else if s = 5 then (if j = 0 then some true else if j = 1 then some false else some true)
    else if s = 6 then (if j = 0 then some true else if j = 1 then some true else some false)
    else if s = 7 then some true
    else none
  else none

/-- The tests `x%2==0` and `x%2!=0`. -/
def hasParity (odd : Bool) (x : Int) : Bool := if odd then decide (x.tmod 2 ≠ 0) else decide (x.tmod 2 = 0)

/-- `t ? a : b` with the parity test of the axis; unadjusted minimum if no branch applies. -/
def pick (o : Option Bool) (x alt : Int) : Int :=
  match o with
  | none => x
  | some b => if hasParity b x then x else alt

/-- `send_min` of `include/MMSP.grid.cpp` 530-758 and 795-1023. -/
def subSendMin (s : Int) (g : Shape) (i : Nat) (dir : Dir) (j : Nat) : Int :=
  if j = i then
    match dir with
    | .up => pick (parityTable g.dim s j) (g.x1 i - g.ghosts) (g.x1 i)
    | .down => pick (parityTable g.dim s j) (g.x0 i) (g.x0 i + g.ghosts)
  else pick (parityTable g.dim s j) (g.x0 j - g.ghosts) (g.x0 j - g.ghosts + 1)

/-- `recv_min` of `include/MMSP.grid.cpp` 530-758 and 795-1023. -/
def subRecvMin (s : Int) (g : Shape) (i : Nat) (dir : Dir) (j : Nat) : Int :=
  if j = i then
    match dir with
    | .up => pick (parityTable g.dim s j) (g.x0 i - g.ghosts) (g.x0 i)
    | .down => pick (parityTable g.dim s j) (g.x1 i) (g.x1 i + g.ghosts)
  else pick (parityTable g.dim s j) (g.x0 j - g.ghosts) (g.x0 j - g.ghosts + 1)

/-- `ghostswap(sublattice)`, `include/MMSP.grid.cpp` 517-1054: every second cell, starting at the right parity. -/
def subPlan (s : Int) : Plan := ⟨2, subSendMin s, sendMax, subRecvMin s, recvMax⟩

/-- Parameters of a parallel grid: dimension, global limits, ghost width, process grid. -/
structure Setup where
  d : Nat
  g0 : Nat → Int
  g1 : Nat → Int
  ghosts : Int
  p : Nat → Int

namespace Setup
variable (su : Setup)

/-- The local grid of a rank. -/
def shape (r : Int) : Shape := rankShape su.d su.g0 su.g1 su.ghosts su.p r

/-- `send_proc`, `include/MMSP.grid.cpp` 423 and 469. -/
def sendProc (i : Nat) (dir : Dir) (r : Int) : Int :=
  match dir with | .up => above su.d su.p r i | .down => below su.d su.p r i

/-- `recv_proc`, `include/MMSP.grid.cpp` 424 and 470. -/
def recvProc (i : Nat) (dir : Dir) (r : Int) : Int :=
  match dir with | .up => below su.d su.p r i | .down => above su.d su.p r i

end Setup

section
variable {T : Type}

/-- What a rank holds between rounds: its cell array and the variable `recv_size`. -/
structure RankSt (T : Type) where
  data : Int → T
  recvSize : Nat

/-- What travels: a byte count (tags 100 and 300) or bytes (tags 200 and 400). -/
inductive Payload where
  | size (n : Nat)
  | bytes (b : List Byte)

/-- The rounds of one call: axis, direction, and whether the byte count or the bytes are exchanged. -/
structure Round where
  axis : Nat
  dir : Dir
  isData : Bool

/-- The rounds in program order. -/
def rounds (d : Nat) : List Round :=
  (List.range d).flatMap fun i =>
    [⟨i, .up, false⟩, ⟨i, .up, true⟩, ⟨i, .down, false⟩, ⟨i, .down, true⟩]

/-- What a rank sends in a round (`include/MMSP.grid.cpp` 441-455, 487-501, 760-775, 1025-1040): the size computed by `buffer_size`, or the
bytes written by `to_buffer` into a buffer of that size (writing more would overflow the allocation). -/
def payload (pl : Plan) (c : Cell T) (g : Shape) (rd : Round) (st : RankSt T) : Outcome Payload :=
  if rd.isData then
    (bufferSize c g pl.step (pl.sMin g rd.axis rd.dir) (pl.sMax g rd.axis rd.dir) st.data).bind fun cap =>
    (toBuffer c g pl.step (pl.sMin g rd.axis rd.dir) (pl.sMax g rd.axis rd.dir) st.data).bind fun b =>
      if b.length ≤ cap then .ok (.bytes b) else .ub
  else
    (bufferSize c g pl.step (pl.sMin g rd.axis rd.dir) (pl.sMax g rd.axis rd.dir) st.data).bind fun n => .ok (.size n)

/-- What a rank does with the received payload (`include/MMSP.grid.cpp` 445-459, 491-505, 764-779, 1029-1044). A message longer than
`recv_size` is an MPI truncation error (abort); bytes beyond the message are uninitialised, reading them is undefined. -/
def consume (pl : Plan) (c : Cell T) (g : Shape) (rd : Round) (st : RankSt T) (m : Payload) : Outcome (RankSt T) :=
  match m with
  | .size n => .ok { st with recvSize := n }
  | .bytes b =>
    if b.length > st.recvSize then .abort 15
    else (fromBuffer c g pl.step (pl.rMin g rd.axis rd.dir) (pl.rMax g rd.axis rd.dir) b st.data).bind fun r =>
      .ok { st with data := r.1 }

/-- One round in lock step: every rank posts its message computed from its own state, then consumes the message of its
`recv_proc`. -/
def syncRound (pl : Plan) (c : Cell T) (su : Setup) (rd : Round) (S : Int → Outcome (RankSt T)) : Int → Outcome (RankSt T) :=
  fun r =>
    (S r).bind fun st =>
    (S (su.recvProc rd.axis rd.dir r)).bind fun src =>
    (payload pl c (su.shape (su.recvProc rd.axis rd.dir r)) rd src).bind fun m =>
      consume pl c (su.shape r) rd st m

/-- `include/MMSP.grid.cpp` 414-515 (`fullPlan`) and 517-1054 (`subPlan s`), all ranks together. -/
def ghostswap (pl : Plan) (c : Cell T) (su : Setup) (S : Int → Outcome (RankSt T)) : Int → Outcome (RankSt T) :=
  (rounds su.d).foldl (fun S rd => syncRound pl c su rd S) S

end

end MMSP.Ghost
