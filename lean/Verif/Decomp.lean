import Verif.Index
/-!
# MPI domain decomposition: `grid<dim,T>::setup`, MPI part

Model of `include/MMSP.grid.cpp` 141-317.
Simplifications: `int` is `Int`; `MPI_Comm_rank`/`MPI_Comm_size` are the parameters `rank`, `np`;
C arrays of length `dim` are functions read only below `dim`.
-/

namespace MMSP.Decomp

open Finset

/-- `include/MMSP.grid.cpp` 171-182: the list `factors` of the divisors of `np` in increasing order. -/
def factors (np : Nat) : List Int :=
  ((List.range np).map fun (k : Nat) => (k : Int) + 1).filter fun i => decide ((np : Int).tdiv i * i = np)

/-- `include/MMSP.grid.cpp` 184-190 -/
def area (d : Nat) (g0 g1 : Nat → Int) (i : Nat) : Int :=
  ∏ j ∈ (range d).filter (fun j => i ≠ j), (g1 j - g0 j)

/-- `include/MMSP.grid.cpp` 201-209: entry `j` of `combo` for combination number `i`. -/
def combo (d : Nat) (nfac : Int) (i : Int) (j : Nat) : Int := digit (slice d fun _ => nfac) i j

/-- `factors[combo[j]]` of `include/MMSP.grid.cpp` 214. The index is proved to be inside the array
(`combo_in_bounds`), so the default of `getD` is never used. -/
def comboFactor (np d : Nat) (i : Int) (j : Nat) : Int :=
  (factors np).getD (combo d (factors np).length i j).toNat 0

/-- Loop state of `include/MMSP.grid.cpp` 193-228: `minarea` and `p1`. -/
structure Best where
  minarea : Int
  p1 : Nat → Int

/-- One iteration of the loop at `include/MMSP.grid.cpp` 200-228. -/
def chooseStep (np d : Nat) (area : Nat → Int) (s : Best) (i : Nat) : Best :=
  if ∏ j ∈ range d, comboFactor np d i j = np then
    let test := ∑ j ∈ range d, area j * (1 + comboFactor np d i j)
    if test < s.minarea ∨ s.minarea < 0 then { minarea := test, p1 := comboFactor np d i } else s
  else s

/-- `include/MMSP.grid.cpp` 192-228; `p1` starts as all ones (155), `ncom = nfac ^ dim` (196-198). -/
def choose (np d : Nat) (g0 g1 : Nat → Int) : Nat → Int :=
  ((List.range ((factors np).length ^ d)).foldl (chooseStep np d (area d g0 g1))
    { minarea := -1, p1 := fun _ => 1 }).p1

/-- `include/MMSP.grid.cpp` 237-241 -/
def sp (d : Nat) (p1 : Nat → Int) : Nat → Int := slice d p1

/-- `include/MMSP.grid.cpp` 246-250 -/
def pos (d : Nat) (p1 : Nat → Int) (rank : Int) (i : Nat) : Int := digit (sp d p1) rank i

/-- `include/MMSP.grid.cpp` 252-271: local limits of an axis `[g0,g1)` cut into `p` pieces, piece `pos`. -/
def axisLimits (g0 g1 p pos : Int) : Int × Int :=
  let nom := (g1 - g0).tdiv p
  let rem := (g1 - g0) - p * nom
  let x0 := g0 + pos * nom
  let x1 := x0 + nom
  if rem > 0 then
    if pos < rem then (x0 + pos, x0 + pos + nom + 1)
    else if pos = rem then (x0 + pos, x0 + pos + nom)
    else (x0 + rem, x0 + rem + nom)
  else (x0, x1)

/-- `include/MMSP.grid.cpp` 276-284: rank of the neighbour below on axis `i`. -/
def below (d : Nat) (p1 : Nat → Int) (rank : Int) (i : Nat) : Int :=
  ∑ j ∈ range d, sp d p1 j *
    (if j = i then (pos d p1 rank i - 1 + p1 i).tmod (p1 i) else pos d p1 rank j)

/-- `include/MMSP.grid.cpp` 286-290: rank of the neighbour above on axis `i`. -/
def above (d : Nat) (p1 : Nat → Int) (rank : Int) (i : Nat) : Int :=
  ∑ j ∈ range d, sp d p1 j *
    (if j = i then (pos d p1 rank i + 1).tmod (p1 i) else pos d p1 rank j)

/-- What `setup()` stores for one rank once `p1` is known (`include/MMSP.grid.cpp` 244-272, 294-297, with
`SINGLE == false`); boundary conditions start as `periodic` (149-150) and become `parallel` at 294-297. -/
def rankShape (d : Nat) (g0 g1 : Nat → Int) (ghosts : Int) (p1 : Nat → Int) (rank : Int) : Shape :=
  let lim := fun i => axisLimits (g0 i) (g1 i) (p1 i) (pos d p1 rank i)
  { dim := d
    x0 := fun i => (lim i).1
    x1 := fun i => (lim i).2
    b0 := fun i => if (lim i).1 ≠ g0 i then .parallel else .periodic
    b1 := fun i => if (lim i).2 ≠ g1 i then .parallel else .periodic
    ghosts := ghosts }

/-- The complete `setup()` (`include/MMSP.grid.cpp` 141-317). -/
def localShape (d : Nat) (g0 g1 : Nat → Int) (ghosts : Int) (np : Nat) (rank : Int) : Shape :=
  rankShape d g0 g1 ghosts (choose np d g0 g1) rank

end MMSP.Decomp
