import Verif.MonteCarlo
import Verif.ParallelRun
/-!
# Monte Carlo grain growth on several ranks

The MPI build of `update` in `examples/coarsening/grain_growth/isotropic/Monte_Carlo/graingrowth.cpp` 62-372 (`anisotropic/Monte_Carlo/graingrowth.cpp` 63-376): all ranks work on
one sublattice at a time and exchange its ghosts afterwards.

Simplifications: those of `Verif.MonteCarlo` and of `Ghost.ghostswap`; the ranks proceed together from one `MPI_Barrier` (367) to the next; the numbers that a rank draws are arguments,
different or equal from rank to rank.
-/

namespace MMSP.MonteCarlo

open Ghost ParallelRun

/-- The buffer functions of an `int`, `include/MMSP.utility.h` 142-152: four bytes (`Buffer.primCell` for values of `Int` within the range of the type). -/
def intCell : Cell Int where
  Valid := fun v => -2 ^ 31 ≤ v ∧ v < 2 ^ 31
  size := fun _ => 4
  enc := intBytes
  dec := fun buf => (readInt buf).bind fun v => .ok (v, 4)

/-- Whether a loop that may go on for ever has ended. -/
def ended {α : Type} : Outcome (Option α) → Bool
  | .ok none => false
  | _ => true

/-- The loop over `hh` on rank `r`, `graingrowth.cpp` 187-364; `draws r` is what `rand()` returns there. -/
def rankPass (w : World) (select : (Nat → Int) → Nat → Bool) (hot : ℚ → Nat → Bool) (sub : Nat) (draws : Int → List Draw) (S : Int → Outcome (RankSt Int)) (r : Int) :
    Outcome (Option (RankSt Int)) :=
  (S r).bind fun st => (pass .mpi (w.shape r) w.g0 w.g1 select hot sub (numFlips (w.shape r) sub) (draws r) st.data).bind fun o => .ok (o.map fun d => ⟨d, st.recvSize⟩)

/-- The body of the loop over `sublattice`, `graingrowth.cpp` 177-370, on `np` ranks: nobody passes the barrier (367) before all have arrived, then `ghostswap(mcGrid, sublattice)`
(369). `none`: some rank is still in its loop. -/
def turn (c : Cell Int) (w : World) (np : Nat) (select : (Nat → Int) → Nat → Bool) (hot : ℚ → Nat → Bool) (sub : Nat) (draws : Int → List Draw) (S : Int → Outcome (RankSt Int)) :
    Option (Int → Outcome (RankSt Int)) :=
  if (List.range np).all fun r : Nat => ended (rankPass w select hot sub draws S r) then
    some (ghostswap (subPlan sub) c w.toSetup fun r => (rankPass w select hot sub draws S r).bind fun o => match o with | some st => .ok st | none => .ub)
  else none

/-- `update(mcGrid, steps)`, `graingrowth.cpp` 62-372, on `np` ranks: `ghostswap(mcGrid)` (69), then the loops over `step` and `sublattice` (171-371); `draws r step sub` are
the numbers drawn by rank `r`. -/
def updateRanks (c : Cell Int) (w : World) (np : Nat) (select : (Nat → Int) → Nat → Bool) (hot : ℚ → Nat → Bool) (draws : Int → Nat → Nat → List Draw) (steps : Nat)
    (S : Int → Outcome (RankSt Int)) : Option (Int → Outcome (RankSt Int)) :=
  (List.range steps).foldlM (fun S (step : Nat) => (List.range (numSublattices w.d)).foldlM
    (fun S (sub : Nat) => turn c w np select hot sub (fun r => draws r step sub) S) S) (ghostswap fullPlan c w.toSetup S)

end MMSP.MonteCarlo
