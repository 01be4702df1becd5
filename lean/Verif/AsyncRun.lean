import Verif.ParallelRunProps
import Verif.GhostSched
/-!
# Whole programs on processes that run at their own speed

`ParallelRun.mpiRun` executes a program statement by statement on all ranks. Here every rank goes on by itself: a loop over nodes or a `swap` is a step of one rank, and `ghostswap`
(`include/MMSP.grid.cpp` 414-515) is a sequence of `4*dim` rounds `MPI_Irecv; MPI_Isend; MPI_Waitall; MPI_Barrier` (445-449, 455-459, 491-495, 501-505), each of them several steps. One
rank may be in the middle of a loop while another waits for a message.

* A message waits in the network until its receiver takes it; a receive takes any message with the right source, destination and tag, whichever call of `ghostswap` it comes from.
* A send completes when its message has been taken, or earlier if sends are buffered (`eager`).
* A rank leaves its `k`-th barrier when all ranks have entered theirs. At the barrier at the start of `ghostswap` (417) it waits until all ranks have started that call, and
  at the one at the end (513), before the next statement, until all ranks have done the rounds of that call.

Assumed of MPI, as in `Rounds`: messages are neither lost nor altered. A rank that has failed goes on sending its failure, so that it is visible in the result.
-/

namespace MMSP.Async

open ParallelRun Ghost

variable {V : Type} {np : Nat}

/-- The memory of a rank: the grids and the variable `recv_size` of a call of `ghostswap`. -/
structure Mem (V : Type) where
  σ : Grids V
  recvSize : Nat

/-- Statements without communication: `for (int i=0; i<nodes(grid); i++)` and `swap`. -/
def localStmt (g : Shape) : Stmt V → Mem V → Outcome (Mem V)
  | .loop dst kern, m => (runLoop .mpi g dst kern m.σ).bind fun σ => .ok { m with σ := σ }
  | .swap a b, m => .ok { m with σ := swapGrids a b m.σ }
  | .ghostswap _, m => .ok m

def IsLocal : Stmt V → Prop
  | .ghostswap _ => False
  | _ => True

/-- What a rank sends in a round of `ghostswap(grid a)`. -/
def message (c : Nat → Cell V) (g : Shape) (a : Nat) (rd : Round) (m : Mem V) : Outcome Payload := payload fullPlan (c a) g rd ⟨m.σ a, m.recvSize⟩

/-- What it does with the message it gets; after the last round of a call `recv_size` is gone. -/
def receive (c : Nat → Cell V) (g : Shape) (a : Nat) (rd : Round) (last : Prop) [Decidable last] (m : Mem V) (b : Payload) : Outcome (Mem V) :=
  (consume fullPlan (c a) g rd ⟨m.σ a, m.recvSize⟩ b).bind fun st => .ok ⟨Function.update m.σ a st.data, if last then 0 else st.recvSize⟩

/-- A rank: statements left (the first may be a `ghostswap` in progress), barriers passed, rounds of the current call done, `posted` (`MPI_Irecv` and `MPI_Isend` called), `recvd`, `sent`
(requests complete), memory. -/
structure Proc (V : Type) where
  todo : List (Stmt V)
  k : Nat
  j : Nat
  posted : Bool
  recvd : Bool
  sent : Bool
  mem : Outcome (Mem V)

/-- It waits at its barrier number `k` or is past it. -/
def Proc.Reached (q : Proc V) (k : Nat) : Prop := k < q.k ∨ (q.k = k ∧ q.posted = true ∧ q.recvd = true ∧ q.sent = true)

/-- It has started the call of `ghostswap` whose first round has number `k`, or is past that round. -/
def Proc.Entered (q : Proc V) (k : Nat) : Prop := k < q.k ∨ (q.k = k ∧ ∃ a rest, q.todo = .ghostswap a :: rest)

/-- All ranks and the network. -/
structure State (V : Type) (np : Nat) where
  loc : Rank np → Proc V
  net : List (Rounds.Msg (Rank np) (Outcome Payload))

section
variable {w : World} (c : Nat → Cell V) (h : w.Ok np)

/-- `send_proc` of round `j`, `include/MMSP.grid.cpp` 421-424, 467-470 -/
def sendTo (j : Nat) (r : Rank np) : Rank np :=
  if hj : j < 4 * w.d then ⟨w.toSetup.sendProc (roundAt w.d j).axis (roundAt w.d j).dir r.1, sendProc_rank h.setup (roundAt_axis hj) _ r.2⟩ else r

/-- `recv_proc` of round `j` -/
def recvFrom (j : Nat) (r : Rank np) : Rank np :=
  if hj : j < 4 * w.d then ⟨w.toSetup.recvProc (roundAt w.d j).axis (roundAt w.d j).dir r.1, recvProc_rank h.setup (roundAt_axis hj) _ r.2⟩ else r

/-- Steps of the program. -/
inductive Step (eager : Bool) : State V np → State V np → Prop
  | compute (S : State V np) (r : Rank np) (s : Stmt V) (rest : List (Stmt V)) (ht : (S.loc r).todo = s :: rest) (hs : IsLocal s)
      (hb : ∀ s, (S.loc r).k ≤ (S.loc s).k) :
      Step eager S { S with loc := Function.update S.loc r { S.loc r with todo := rest, mem := (S.loc r).mem.bind (localStmt (w.shape r.1) s) } }
  | post (S : State V np) (r : Rank np) (a : Nat) (rest : List (Stmt V)) (ht : (S.loc r).todo = .ghostswap a :: rest) (hp : (S.loc r).posted = false)
      (hb : (S.loc r).j = 0 → ∀ s, (S.loc s).Entered (S.loc r).k) :
      Step eager S
        { loc := Function.update S.loc r { S.loc r with posted := true }
          net := S.net ++ [⟨r, sendTo h (S.loc r).j r, tagOf (roundAt w.d (S.loc r).j), (S.loc r).mem.bind (message c (w.toSetup.shape r.1) a (roundAt w.d (S.loc r).j))⟩] }
  | deliver (S : State V np) (r : Rank np) (a : Nat) (rest : List (Stmt V)) (m : Rounds.Msg (Rank np) (Outcome Payload)) (l₁ l₂ : List (Rounds.Msg (Rank np) (Outcome Payload)))
      (ht : (S.loc r).todo = .ghostswap a :: rest) (hn : S.net = l₁ ++ m :: l₂) (hp : (S.loc r).posted = true) (hr : (S.loc r).recvd = false) (hd : m.dst = r)
      (hs : m.src = recvFrom h (S.loc r).j r) (htag : m.tag = tagOf (roundAt w.d (S.loc r).j)) :
      Step eager S
        { loc := Function.update S.loc r
            { S.loc r with
              recvd := true
              mem := (S.loc r).mem.bind fun x => m.body.bind fun b => receive c (w.toSetup.shape r.1) a (roundAt w.d (S.loc r).j) ((S.loc r).j + 1 = 4 * w.d) x b }
          net := l₁ ++ l₂ }
  | sent (S : State V np) (r : Rank np) (hp : (S.loc r).posted = true) (hs : (S.loc r).sent = false) (hn : eager = true ∨ ∀ m ∈ S.net, m.src ≠ r) :
      Step eager S { S with loc := Function.update S.loc r { S.loc r with sent := true } }
  | pass (S : State V np) (r : Rank np) (a : Nat) (rest : List (Stmt V)) (ht : (S.loc r).todo = .ghostswap a :: rest)
      (hr : (S.loc r).posted = true ∧ (S.loc r).recvd = true ∧ (S.loc r).sent = true) (hb : ∀ s, (S.loc s).Reached (S.loc r).k) :
      Step eager S
        { S with
          loc := Function.update S.loc r
            (if (S.loc r).j + 1 = 4 * w.d then ⟨rest, (S.loc r).k + 1, 0, false, false, false, (S.loc r).mem⟩
             else ⟨(S.loc r).todo, (S.loc r).k + 1, (S.loc r).j + 1, false, false, false, (S.loc r).mem⟩) }

/-- Runs of `n` steps. -/
inductive Run (eager : Bool) : Nat → State V np → State V np → Prop
  | nil (S : State V np) : Run eager 0 S S
  | snoc {n : Nat} {S S' S'' : State V np} : Run eager n S S' → Step c h eager S' S'' → Run eager (n + 1) S S''
end

/-- All ranks before the first statement, nothing under way; `prog r` are the statements rank `r` executes, which may depend on its number of nodes and on the numbers it draws. -/
def startEach (prog : Rank np → List (Stmt V)) (D : Int → Grids V) : State V np := ⟨fun r => ⟨prog r, 0, 0, false, false, false, .ok ⟨D r.1, 0⟩⟩, []⟩

/-- The same statements on all ranks. -/
def start (prog : List (Stmt V)) (D : Int → Grids V) : State V np := startEach (fun _ => prog) D

/-- All ranks have executed all statements. -/
def Done (S : State V np) : Prop := ∀ r, (S.loc r).todo = []

end MMSP.Async
