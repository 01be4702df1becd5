import Verif.Spin
/-!
# Monte Carlo grain growth on sublattices

Model of `examples/coarsening/grain_growth/isotropic/Monte_Carlo/graingrowth.cpp` 50-372; `anisotropic/Monte_Carlo/graingrowth.cpp` 51-376 differs only in the probability with
which a site is selected (262 there 263-266), here a parameter.

Simplifications: `double` arithmetic is exact; the numbers returned by `rand()` are arguments, four per attempt, of which the last three are only looked at when needed; the
test `rd > site_selection_probability` and the test `r < exp(-dE/kT)` are arbitrary functions; the `switch` over the sublattice is written with binary digits; `srand`, progress
output and (serial build) `ghostswap` are left out.
-/

namespace MMSP.MonteCarlo

open Stencil (gridAt)
open Spin (boxFold change)

/-- `lattice_cells_each_dimension[i]`, `graingrowth.cpp` 74-79: the parity tested is that of axis 0. -/
def cellsAlong (g : Shape) (i : Nat) : Int :=
  let len := g.x1 i - g.x0 i
  if Int.tmod (g.x0 0) 2 = 0 then Int.tdiv len 2 + 1
  else 1 + (if Int.tmod len 2 = 0 then Int.tdiv len 2 else Int.tdiv len 2 + 1)

/-- `num_lattice_cells`, `graingrowth.cpp` 72-81. -/
def numCells (g : Shape) : Int := (List.range g.dim).foldl (fun n i => n * cellsAlong g i) 1

/-- `first_cell_start_coordinates`, `graingrowth.cpp` 88-93. -/
def start (g : Shape) (i : Nat) : Int := if Int.tmod (g.x0 i) 2 ≠ 0 then g.x0 i - 1 else g.x0 i

/-- `cell_coords_selected`, `graingrowth.cpp` 97-105 and 189-197. -/
def cellCoord (g : Shape) (c : Int) (i : Nat) : Int :=
  if g.dim = 2 then
    if i = 1 then Int.tmod c (cellsAlong g 1) else Int.tdiv c (cellsAlong g 1)
  else if g.dim = 3 then
    if i = 2 then Int.tmod c (cellsAlong g 2)
    else if i = 1 then Int.tmod (Int.tdiv c (cellsAlong g 2)) (cellsAlong g 1)
    else Int.tdiv (Int.tdiv c (cellsAlong g 2)) (cellsAlong g 1)
  else 0

/-- The displacements of `switch(sublattice)`, `graingrowth.cpp` 202-248, also 109-161: 0 or 1 along each axis. -/
def bit (dim sub i : Nat) : Int := (sub / 2 ^ (dim - 1 - i) % 2 : Nat)

/-- The site of sublattice `sub` in cell `c`, `graingrowth.cpp` 106-107 and 198-248. -/
def site (g : Shape) (c : Int) (sub i : Nat) : Int := start g i + 2 * cellCoord g c i + bit g.dim sub i

/-- `isOutsideDomain`, `graingrowth.cpp` 50-60. -/
def isOutsideDomain (g : Shape) (x : Nat → Int) : Prop := ∃ i, i < g.dim ∧ (x i < g.x0 i ∨ x i > g.x1 i)

instance (g : Shape) (x : Nat → Int) : Decidable (isOutsideDomain g x) := by unfold isOutsideDomain; infer_instance

/-- `num_grids_to_flip[sub]`, `graingrowth.cpp` 96-163. -/
def numFlips (g : Shape) (sub : Nat) : Nat :=
  ((List.range (numCells g).toNat).filter fun c : Nat => ¬ isOutsideDomain g (site g c sub)).length

/-- `site_outside_domain`, `graingrowth.cpp` 250-256. -/
def siteOutside (g : Shape) (x : Nat → Int) : Prop := ∃ i, i < g.dim ∧ (x i < g.x0 i ∨ x i ≥ g.x1 i)

instance (g : Shape) (x : Nat → Int) : Decidable (siteOutside g x) := by unfold siteOutside; infer_instance

/-- Whether `y` is left out of the loops over the neighbours of `x`: the site itself and what is outside the global box, `graingrowth.cpp` 275-280, 294-300. -/
def skipped (dim : Nat) (lo hi : Nat → Int) (x y : Nat → Int) : Prop := (∀ i, i < dim → y i = x i) ∨ ∃ i, i < dim ∧ (y i < lo i ∨ y i ≥ hi i)

instance (dim : Nat) (lo hi : Nat → Int) (x y : Nat → Int) : Decidable (skipped dim lo hi x y) := by unfold skipped; infer_instance

/-- `neighbors`, `graingrowth.cpp` 267-310; `lo`, `hi` are `g0`, `g1`. -/
def neighbors (bd : Build) (g : Shape) (lo hi : Nat → Int) (data : Int → Int) (x : Nat → Int) : Outcome (List Int) :=
  boxFold (fun l y => if skipped g.dim lo hi x y then .ok l else (gridAt bd g data y).bind fun spin => .ok (l ++ [spin])) (List.range g.dim) x []

/-- `dE`, `graingrowth.cpp` 320-354. -/
def energyChange (bd : Build) (g : Shape) (lo hi : Nat → Int) (data : Int → Int) (x : Nat → Int) (spin1 spin2 : Int) : Outcome ℚ :=
  boxFold (fun a y => if skipped g.dim lo hi x y then .ok a else (gridAt bd g data y).bind fun spin => .ok (a + 1 / 2 * (change spin1 spin2 spin : Int))) (List.range g.dim) x 0

/-- What is drawn for one attempt: a cell, the number compared with the selection probability, a neighbour, the number for the acceptance test. -/
abbrev Draw := Nat × Nat × Nat × Nat

/-- One pass of the loop over `hh`, `graingrowth.cpp` 187-364; `none`: the site is outside the domain and the pass does not count (`hh--; continue`). -/
def attempt (bd : Build) (g : Shape) (lo hi : Nat → Int) (select : (Nat → Int) → Nat → Bool) (hot : ℚ → Nat → Bool) (sub : Nat) (data : Int → Int) (r : Draw) :
    Outcome (Option (Int → Int)) :=
  let x := site g (r.1 % (numCells g).toNat : Nat) sub
  if siteOutside g x then .ok none
  else if ¬ select x r.2.1 then .ok (some data)
  else
    (gridAt bd g data x).bind fun spin1 =>
    (neighbors bd g lo hi data x).bind fun l =>
    if l.countP (· == spin1) = l.length then .ok (some data)
    else match l[r.2.2.1 % l.length]? with
      | none => .ub
      | some spin2 =>
        if spin1 ≠ spin2 then
          (energyChange bd g lo hi data x spin1 spin2).bind fun dE =>
          if dE ≤ 0 then (store g data (g.atVec bd x) spin2).bind fun d => .ok (some d)
          else if hot dE r.2.2.2 then (store g data (g.atVec bd x) spin2).bind fun d => .ok (some d)
          else .ok (some data)
        else .ok (some data)

/-- The loop over `hh`, `graingrowth.cpp` 187-364, with `k` passes still to go; `none`: all numbers are used up and the loop is still running. -/
def pass (bd : Build) (g : Shape) (lo hi : Nat → Int) (select : (Nat → Int) → Nat → Bool) (hot : ℚ → Nat → Bool) (sub : Nat) : Nat → List Draw → (Int → Int) → Outcome (Option (Int → Int))
  | 0, _, d => .ok (some d)
  | _ + 1, [], _ => .ok none
  | k + 1, r :: rs, d => (attempt bd g lo hi select hot sub d r).bind fun o =>
    match o with
    | none => pass bd g lo hi select hot sub (k + 1) rs d
    | some d' => pass bd g lo hi select hot sub k rs d'

/-- `num_sublattices`, `graingrowth.cpp` 174-176. -/
def numSublattices (dim : Nat) : Nat := if dim = 2 then 4 else if dim = 3 then 8 else 0

/-- A loop that has not ended is not followed by anything. -/
def andThen {σ : Type} (f : σ → Outcome (Option σ)) : Option σ → Outcome (Option σ)
  | none => .ok none
  | some d => f d

/-- `update(mcGrid, steps)`, `graingrowth.cpp` 62-372, serial build: `draws step sub` are the numbers drawn in the loop over `hh`; `none`: it has not returned. -/
def update (g : Shape) (lo hi : Nat → Int) (select : (Nat → Int) → Nat → Bool) (hot : ℚ → Nat → Bool) (draws : Nat → Nat → List Draw) (steps : Nat) (data : Int → Int) :
    Outcome (Option (Int → Int)) :=
  (List.range steps).foldlM (fun o (step : Nat) => (List.range (numSublattices g.dim)).foldlM
    (fun o (sub : Nat) => andThen (pass .serial g lo hi select hot sub (numFlips g sub) (draws step sub)) o) o) (some data)

end MMSP.MonteCarlo
