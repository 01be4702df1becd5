import Verif.MTRandSeed
import Verif.RandomSeeds
/-!
# The generators of the processes (C137)

`seeds_from_prng` (`algorithms/tessellate.hpp` 501-524, `algorithms/generators.cpp` 462-476) seeds the generator of process `id` with the time divided by `id + 1`. With C137's theorem on
seeds: which processes draw from the same stream.
-/

namespace MMSP.RandomSeeds

open MMSP.MTRand

/-- **C137.** Before the year 2106 (times below 2³²), two processes draw from the same stream exactly when the time divided by their numbers plus one, rounded down, is the same. -/
theorem rank_streams (mem mem' : MT) {clock : Nat} (hc : clock < 2 ^ 32) (i j : Nat) :
    numbers (draws 624 (seed mem (generatorSeed .mpi clock i))) = numbers (draws 624 (seed mem' (generatorSeed .mpi clock j))) ↔ clock / (i + 1) = clock / (j + 1) := by
  rw [(seed_determined mem mem' _ _).1]
  show clock / (i + 1) % 2 ^ 32 = clock / (j + 1) % 2 ^ 32 ↔ _
  rw [Nat.mod_eq_of_lt (lt_of_le_of_lt (Nat.div_le_self _ _) hc), Nat.mod_eq_of_lt (lt_of_le_of_lt (Nat.div_le_self _ _) hc)]

/-- **C137.** So no two of the first processes, up to about the square root of the time, draw from the same stream. -/
theorem ranks_independent (mem mem' : MT) {clock i j : Nat} (hc : clock < 2 ^ 32) (hij : i < j) (hj : j * (j + 1) ≤ clock) :
    numbers (draws 624 (seed mem (generatorSeed .mpi clock i))) ≠ numbers (draws 624 (seed mem' (generatorSeed .mpi clock j))) := by
  intro e
  have := (rank_streams mem mem' hc i j).1 e
  have h := ranks_differ hij hj
  change clock / (j + 1) < clock / (i + 1) at h
  omega

/-- **C137.** The bound on the time is needed: at 2³³ seconds processes 0 and 1 draw the same numbers for ever. -/
theorem ranks_later (mem mem' : MT) (n : Nat) : numbers (draws n (seed mem (generatorSeed .mpi (2 ^ 33) 0))) = numbers (draws n (seed mem' (generatorSeed .mpi (2 ^ 33) 1))) :=
  (seed_determined mem mem' _ _).2 (by decide) n

/-- Forty thousand processes at a time of the year 2025. -/
example : (1763430000 : Nat) < 2 ^ 32 ∧ 39999 * (39999 + 1) ≤ 1763430000 := by decide

end MMSP.RandomSeeds
