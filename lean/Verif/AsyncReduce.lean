import Verif.AsyncRun
import Verif.ParallelBoard
/-!
# Reductions on processes that run at their own speed

`Async` without reductions is the machine of C90. Here a program goes through phases: a list of statements, executed by every rank at its own speed as in C90, and then an `MPI_Allreduce`
with `MPI_SUM`. What comes next may depend on the result. A rank takes part in the reduction when it has finished its statements; the result exists when all ranks have; afterwards every
rank leaves the reduction when it likes and starts the next phase, while others have not left yet.

Simplifications: the variables that count rounds start again in every phase. `act`, a change of the memory of a rank between the last statement of a phase and the reduction, is executed
for all ranks at the reduction; nobody can observe the memory of a rank that waits.
-/

namespace MMSP.Collective

open ParallelRun Async Ghost

variable {V : Type} {np : Nat}

/-- Programs. `fin p code`: the statements `p` and then the end of the program, or `MMSP::Abort(code)` (`include/MMSP.utility.cpp` 30-36). `collect`: the statements `p`, the change `act`
of memory, an `MPI_Allreduce` of the numbers `f` of the ranks, then the program `next` of the sum. -/
inductive Prog (V : Type) : Type 1
  | fin (p : List (Stmt V)) (code : Option Int)
  | collect (p : List (Stmt V)) (act : Grids V → Grids V) (R : Type) (inst : AddCommMonoid R) (f : Shape → Grids V → Outcome R) (next : R → Prog V)

/-- The statements of the first phase. -/
def Prog.stmts : Prog V → List (Stmt V)
  | .fin p _ => p
  | .collect p _ _ _ _ _ => p

/-- The job: the program of the present phase, the ranks and the network, and which ranks have left the reduction before this phase. -/
structure Job (V : Type) (np : Nat) where
  prog : Prog V
  ranks : State V np
  out : Rank np → Bool

/-- All ranks before the first statement. -/
def begin (prog : Prog V) (D : Int → Grids V) : Job V np := ⟨prog, start prog.stmts D, fun _ => true⟩

section
variable {w : World} (c : Nat → Cell V) (h : w.Ok np)

/-- Steps of the job. -/
inductive Step (eager : Bool) : Job V np → Job V np → Prop
  | leave (X : Job V np) (r : Rank np) (ho : X.out r = false) : Step eager X { X with out := Function.update X.out r true }
  | work (X : Job V np) (S : State V np) (hs : Async.Step c h eager X.ranks S) (ho : ∀ r, X.out r = false → S.loc r = X.ranks.loc r) : Step eager X { X with ranks := S }
  | collect (X : Job V np) (p : List (Stmt V)) (act : Grids V → Grids V) (R : Type) (inst : AddCommMonoid R) (f : Shape → Grids V → Outcome R) (next : R → Prog V)
      (hp : X.prog = .collect p act R inst f next) (ho : ∀ r, X.out r = true) (hd : Done X.ranks) (D : Int → Grids V) (hD : ∀ r, ∃ n, (X.ranks.loc r).mem = .ok ⟨D r.1, n⟩)
      (e : Rank np → R) (he : ∀ r, f (w.shape r.1) (act (D r.1)) = .ok (e r)) :
      Step eager X ⟨next (∑ r, e r), { start (next (∑ r, e r)).stmts (fun r => act (D r)) with net := X.ranks.net }, fun _ => false⟩

/-- Runs of `n` steps. -/
inductive Run (eager : Bool) : Nat → Job V np → Job V np → Prop
  | nil (X : Job V np) : Run eager 0 X X
  | snoc {n : Nat} {X Y Z : Job V np} : Run eager n X Y → Step c h eager Y Z → Run eager (n + 1) X Z
end

/-- All ranks have reached the end of the program. -/
def Ended (X : Job V np) : Prop := (∃ p, X.prog = .fin p none) ∧ (∀ r, X.out r = true) ∧ Done X.ranks

/-- Rank `r` calls `MMSP::Abort(code)`, which ends the job. -/
def Aborts (X : Job V np) (r : Rank np) (code : Int) : Prop :=
  (∃ p, X.prog = .fin p (some code)) ∧ X.out r = true ∧ (X.ranks.loc r).todo = [] ∧ ∀ s, (X.ranks.loc r).k ≤ (X.ranks.loc s).k

/-! ## Convex splitting -/

section
variable (d : Nat) {R₁ R₂ : Type} [i₁ : AddCommMonoid R₁] [i₂ : AddCommMonoid R₂] (kern : Kernel V) (res : (Nat → (Nat → Int) → Outcome V) → (Nat → Int) → Outcome (R₁ × R₂))
  (again : R₁ × R₂ → Bool)

/-- `examples/phase_transitions/cahn-hilliard/convex_splitting/cahn-hilliard.cpp` 319-441 with `left` iterations left before `max_iter`: `acc` are the statements since the last reduction,
`k` is what follows. The sums of `residual` and of `normB` (416-422) are two reductions. -/
def solveProg (k : List (Stmt V) → Prog V) : Nat → Nat → Bool → List (Stmt V) → Prog V
  | 0, _, _, acc => .fin acc (some (-1))
  | left + 1, iter, go, acc =>
    if go then
      if iter + 1 < 5 ∨ (iter + 1) % 5 = 0 then
        .collect (acc ++ Board.colours d kern) id R₁ i₁ (fun g σ => (Board.localSum .mpi g res σ).bind fun s => .ok s.1) fun s₁ =>
        .collect [] id R₂ i₂ (fun g σ => (Board.localSum .mpi g res σ).bind fun s => .ok s.2) fun s₂ =>
        solveProg k left (iter + 1) (again (s₁, s₂)) []
      else solveProg k left (iter + 1) go (acc ++ Board.colours d kern)
    else k acc

/-- The time loop, lines 309-460. -/
def stepsProg (maxIter : Nat) : Nat → List (Stmt V) → Prog V
  | 0, acc => .fin acc none
  | n + 1, acc => solveProg d kern res again (fun acc => stepsProg maxIter n (acc ++ [.swap 0 1])) maxIter 0 true (acc ++ [.ghostswap 0, .ghostswap 1])
end

/-- `update`, lines 276-461: `ghostswap(oldGrid)`, `newGrid.copy(oldGrid)`, the sum of the numbers of nodes (296-300), the time loop; `again size` is `residual>tolerance` as a function of
the sums. -/
def updateProg (d : Nat) {R₁ R₂ : Type} [AddCommMonoid R₁] [AddCommMonoid R₂] (kern : Kernel V) (res : (Nat → (Nat → Int) → Outcome V) → (Nat → Int) → Outcome (R₁ × R₂))
    (again : Nat → R₁ × R₂ → Bool) (maxIter steps : Nat) : Prog V :=
  .collect [.ghostswap 0] (fun σ => Function.update σ 1 (σ 0)) Nat inferInstance (fun g _ => .ok g.nodes.toNat) fun size => stepsProg d kern res (again size) maxIter steps []

/-- `update(oldGrid, steps)` of the convex splitting example. -/
def convexProg {α : Type} [Field α] [LinearOrder α] (p : ConvexSplit.Params α) (d : Nat) (dx : Nat → α) (sqrt : α → α) (maxIter steps : Nat) : Prog (α × α) :=
  updateProg d (Board.nodeKernel p d dx) (Board.residualKernel p d dx) (Board.tooLargeAll p sqrt) maxIter steps

end MMSP.Collective
