import Verif.Stencil
import Mathlib.Algebra.Field.Basic
import Mathlib.Algebra.BigOperators.Ring.Finset
/-!
# The multigrid solver for Poisson's equation

Model of `examples/differential_equations/elliptic/Poisson/multigrid.hpp` (12-213) and `poisson.cpp` (13-189, 236-248).

The three overloads (one, two, three dimensions) of each function are one definition here, with the number of axes taken from the grid; where the code of one dimension differs the
definition says so. Simplifications. `double` arithmetic is exact, in any field, so the order of the summands does not matter. A serial build without ghost cells. Subscripting
`u[x][y][z]` reaches the element that `u(x)` reaches. Strides are natural numbers: `2*s` does not overflow. A loop whose step is 0 and a recursion without end are `none`.
`grid<dim,T> d(u)` allocates without initialising (`new double[]`): the contents are the parameter `junk`.
-/

namespace MMSP.Multigrid

open Stencil (gridAt)

variable {α : Type} [Field α]

/-! ## Loops and subscripts -/

/-- `u[x]… = v` -/
def setAt (g : Shape) (u : Int → α) (x : Nat → Int) (v : α) : Outcome (Int → α) := store g u (g.atVec .serial x) v

/-- Nested loops, the first axis outermost, over the listed values. -/
def lattice (values : Nat → List Int) : Nat → List (Nat → Int)
  | 0 => [fun _ => 0]
  | n + 1 => (lattice values n).flatMap fun p => (values n).map fun c => Function.update p n c

/-- `for (int x=s; x<x1-1; x+=s) for (int y=s; y<y1-1; y+=s) …` -/
def inner (g : Shape) (s : Nat) : List (Nat → Int) := lattice (fun j => irange s s (g.x1 j - 1)) g.dim

/-- `x` moved by `k` along axis `a`. -/
def move (x : Nat → Int) (a : Nat) (k : Int) : Nat → Int := Function.update x a (x a + k)

/-! ## Smoothing and defect -/

/-- `dx2`, `dy2`, `dz2`: `poisson.cpp` 19-20, 42-45, 72-77. -/
def h2 (dx : Nat → α) (s a : Nat) : α := ((s : α) * dx a) * ((s : α) * dx a)

/-- `w`, `poisson.cpp` 21, 46, 78. -/
def weight (g : Shape) (dx : Nat → α) (s : Nat) : α := 1 / ∑ a ∈ Finset.range g.dim, 2 / h2 dx s a

/-- The value assigned to `u[x]`, `poisson.cpp` 27, 54-55, 88-90. -/
def relaxed (g : Shape) (dx : Nat → α) (s : Nat) (f u : Int → α) (x : Nat → Int) : Outcome α :=
  (gridAt .serial g f x).bind fun fx =>
  (List.range g.dim).foldlM (fun sum a => (gridAt .serial g u (move x a (-s))).bind fun lo => (gridAt .serial g u (move x a s)).bind fun hi =>
    .ok (sum + weight g dx s / h2 dx s a * (lo + hi))) (-weight g dx s * fx)

/-- Sum of the coordinates, `poisson.cpp` 26, 53, 87. -/
def parity (g : Shape) (x : Nat → Int) : Int := Int.tmod (∑ j ∈ Finset.range g.dim, x j) 2

/-- The condition of the second half sweep: `==1` in one and two dimensions (`poisson.cpp` 30, 58), `!=0` in three (94). -/
def second (g : Shape) (x : Nat → Int) : Bool := if g.dim = 3 then decide (parity g x ≠ 0) else decide (parity g x = 1)

/-- The order of the nodes in one iteration, `poisson.cpp` 25-31, 51-60, 84-97. -/
def order (g : Shape) (s : Nat) : List (Nat → Int) := (inner g s).filter (fun x => parity g x = 0) ++ (inner g s).filter fun x => second g x

/-- One iteration. -/
def sweep (g : Shape) (dx : Nat → α) (s : Nat) (f u : Int → α) : Outcome (Int → α) :=
  (order g s).foldlM (fun u x => (relaxed g dx s f u x).bind fun v => setAt g u x v) u

/-- `smooth`, `poisson.cpp` 13-99; the stride is not 0. -/
def smooth (g : Shape) (dx : Nat → α) (s : Nat) (f : Int → α) : Nat → (Int → α) → Outcome (Int → α)
  | 0, u => .ok u
  | n + 1, u => (sweep g dx s f u).bind (smooth g dx s f n)

/-- The value assigned to `d[x]`, `poisson.cpp` 112, 136-137, 170-172. -/
def defectAt (g : Shape) (dx : Nat → α) (s : Nat) (f u : Int → α) (x : Nat → Int) : Outcome α :=
  (gridAt .serial g f x).bind fun fx =>
  (List.range g.dim).foldlM (fun sum a => (gridAt .serial g u (move x a (-s))).bind fun lo => (gridAt .serial g u x).bind fun mid => (gridAt .serial g u (move x a s)).bind fun hi =>
    .ok (sum - 1 / h2 dx s a * (lo - 2 * mid + hi))) fx

/-- The nodes set to 0, `poisson.cpp` 114-117, 139-146, 174-188: for each axis the loops over the other axes, both ends of this one. In one dimension the loop is over the axis itself. -/
def outer (g : Shape) (s : Nat) : List (Nat → Int) :=
  if g.dim = 1 then (inner g s).flatMap fun x => [Function.update x 0 0, Function.update x 0 (g.x1 0 - 1)]
  else (List.range g.dim).flatMap fun a => lattice (fun j => if j = a then [0, g.x1 a - 1] else irange s s (g.x1 j - 1)) g.dim

/-- `defect`, `poisson.cpp` 101-189 -/
def defect (g : Shape) (dx : Nat → α) (s : Nat) (u f d : Int → α) : Outcome (Int → α) :=
  ((inner g s).foldlM (fun d x => (defectAt g dx s f u x).bind fun v => setAt g d x v) d).bind fun d =>
  (outer g s).foldlM (fun d x => setAt g d x 0) d

/-! ## Coarser and finer levels -/

/-- All steps -1, 0, 1 along the axes. -/
def steps (dim : Nat) : List (Nat → Int) := lattice (fun _ => [-1, 0, 1]) dim

/-- The factors 0.25, 0.125, 0.0625 (`multigrid.hpp` 29-31) and 0.125, 0.0625, 0.03125, 0.015625 (48-53): a half for every axis not moved along, a quarter for the others. -/
def factor (dim : Nat) (o : Nat → Int) : α := ∏ j ∈ Finset.range dim, if o j = 0 then 1 / 2 else 1 / 4

/-- The value assigned, `multigrid.hpp` 29-31, 48-53. -/
def weighted (g : Shape) (s : Nat) (u : Int → α) (x : Nat → Int) : Outcome α :=
  (steps g.dim).foldlM (fun sum o => (gridAt .serial g u fun j => x j + s * o j).bind fun v => .ok (sum + factor g.dim o * v)) 0

/-- `coarsen(u, stride)`, "full-weighting", `multigrid.hpp` 12-54; in one dimension it does nothing (14). -/
def coarsen (g : Shape) (s : Nat) (u : Int → α) : Outcome (Int → α) :=
  if g.dim = 1 then .ok u else
  (lattice (fun j => irange (2 * s) ((2 * s : Nat) : Int) (g.x1 j - 1)) g.dim).foldlM (fun u x => (weighted g s u x).bind fun v => setAt g u x v) u

/-- The loops of the pass along axis `a`, `multigrid.hpp` 69-70, 72-73, 107-109, 111-113, 115-117 and, the same, 78-79, 87-88, 122-124, 132-134, 142-144. -/
def passNodes (g : Shape) (s a : Nat) : List (Nat → Int) :=
  lattice (fun j => if j < a then irange s s (g.x1 j - 1) else if j = a then irange (2 * s) s (g.x1 j - 1) else irange (2 * s) ((2 * s : Nat) : Int) (g.x1 j - 1)) g.dim

/-- `0.5*(u[x+s]+u[x-s])` -/
def linear (g : Shape) (s : Nat) (u : Int → α) (x : Nat → Int) (a : Nat) : Outcome α :=
  (gridAt .serial g u (move x a s)).bind fun hi => (gridAt .serial g u (move x a (-s))).bind fun lo => .ok (1 / 2 * (hi + lo))

/-- `multigrid.hpp` 80-85, 89-94 (125-130, 135-140, 145-150) -/
def cubic (g : Shape) (s : Nat) (u : Int → α) (x : Nat → Int) (a : Nat) : Outcome α :=
  let get k := gridAt .serial g u (move x a (k * s))
  if x a = s then (get (-1)).bind fun p => (get 3).bind fun q => (get 1).bind fun r => (get 5).bind fun t => .ok (5 / 16 * (p - q) + 15 / 16 * r + 1 / 16 * t)
  else if x a = g.x1 a - 1 - s then (get (-5)).bind fun p => (get (-1)).bind fun q => (get 1).bind fun r => (get (-3)).bind fun t => .ok (1 / 16 * p + 15 / 16 * q + 5 / 16 * (r - t))
  else (get (-1)).bind fun p => (get 1).bind fun q => (get (-3)).bind fun r => (get 3).bind fun t => .ok (9 / 16 * (p + q) - 1 / 16 * (r + t))

/-- `refine(u, stride, method)`, `multigrid.hpp` 56-153, with the formula of the method; in one dimension it does nothing (58). -/
def refine (g : Shape) (s : Nat) (formula : (Int → α) → (Nat → Int) → Nat → Outcome α) (u : Int → α) : Outcome (Int → α) :=
  if g.dim = 1 then .ok u else
  (List.range g.dim).foldlM (fun u a => (passNodes g s a).foldlM (fun u x => (formula u x a).bind fun v => setAt g u x v) u) u

/-! ## Cycles -/

/-- The coarsest level, `multigrid.hpp` 162-165 -/
def coarsest (g : Shape) (s : Nat) : Bool := (List.range g.dim).any fun i => decide (2 * (s : Int) + 1 = g.x1 i)

/-- `k` times the same call. -/
def times (step : (Int → α) → Option (Outcome (Int → α))) : Nat → (Int → α) → Option (Outcome (Int → α))
  | 0, v => some (.ok v)
  | k + 1, v => match step v with
    | none => none
    | some .ub => some .ub
    | some (.abort c) => some (.abort c)
    | some (.ok v) => times step k v

/-- `MG`, `multigrid.hpp` 155-195, with at most `fuel` nested calls. -/
def mg (g : Shape) (dx : Nat → α) (junk : Nat → Int → α) (gamma nu1 nu2 : Nat) : Nat → Nat → (Int → α) → (Int → α) → Option (Outcome (Int → α))
  | 0, _, _, _ => none
  | fuel + 1, s, f, u =>
    if coarsest g s then some (smooth g dx s f 40 u) else
    match (smooth g dx s f nu1 u).bind fun u => (defect g dx s u f (junk fuel)).bind fun d => (coarsen g s d).bind fun d => .ok (u, d) with
    | .ub => some .ub
    | .abort c => some (.abort c)
    | .ok (u, d) =>
      match times (mg g dx junk gamma nu1 nu2 fuel (2 * s) d) gamma (fun _ => 0) with
      | none => none
      | some r => some (r.bind fun v => (refine g s (linear g s) v).bind fun v => smooth g dx s f nu2 fun p => u p + v p)

/-- `s` at the start, `multigrid.hpp` 201-204 -/
def coarseStride (g : Shape) : Int := (List.range g.dim).foldl (fun s i => if Int.tdiv (g.x1 i - 1) 4 < s then Int.tdiv (g.x1 i - 1) 4 else s) (Int.tdiv (g.x1 0 - 1) 4)

/-- `for (s=s/2; s>0; s/=2)`, `multigrid.hpp` 208-211 -/
def levels (g : Shape) (dx : Nat → α) (junk : Nat → Int → α) (gamma nu1 nu2 fuel : Nat) (f : Int → α) : Nat → Nat → (Int → α) → Option (Outcome (Int → α))
  | 0, _, _ => none
  | n + 1, s, u =>
    if s / 2 = 0 then some (.ok u) else
    match refine g (s / 2) (cubic g (s / 2)) u with
    | .ub => some .ub
    | .abort c => some (.abort c)
    | .ok u =>
      match mg g dx junk gamma nu1 nu2 fuel (s / 2) f u with
      | none => none
      | some .ub => some .ub
      | some (.abort c) => some (.abort c)
      | some (.ok u) => levels g dx junk gamma nu1 nu2 fuel f n (s / 2) u

/-- `FMG`, `multigrid.hpp` 197-212. With stride 0 the outermost loop of `smooth` does not end if there is more than one node along the first axis, and is not entered otherwise. -/
def fmg (g : Shape) (dx : Nat → α) (junk : Nat → Int → α) (gamma nu1 nu2 fuel : Nat) (f u : Int → α) : Option (Outcome (Int → α)) :=
  let s := (coarseStride g).toNat
  if s = 0 then (if g.x1 0 - 1 > 0 then none else some (.ok u)) else
  match smooth g dx s f 40 u with
  | .ub => some .ub
  | .abort c => some (.abort c)
  | .ok u => levels g dx junk gamma nu1 nu2 fuel f fuel s u

/-- `update`, `poisson.cpp` 236-248: the contents of `multiGrid` afterwards. -/
def update (g : Shape) (dx : Nat → α) (junk : Nat → Int → α) (fuel : Nat) (f : Int → α) : Option (Outcome (Int → α)) :=
  fmg g dx junk 1 2 2 fuel f fun _ => 0

end MMSP.Multigrid
