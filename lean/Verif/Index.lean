import Verif.MixedRadix
import Verif.Boundary
/-!
# Storage layout and element access of `grid<dim,T>`

Model of `include/MMSP.grid.cpp` 301-317 (strides, cell and node count) and 368-411 (`operator[]`,
`operator()(vector<int>)`, `operator()(int)`, `position`), together with the `target` proxy of
`include/MMSP.utility.h` 38-137.
Simplifications: `int` is `Int`; C arrays of length `dim` are functions `Nat → Int` read only below `dim`.
-/

namespace MMSP

open Finset

/-- The members of `grid<dim,T>` that element access reads (`include/MMSP.grid.h`, private data). -/
structure Shape where
  dim : Nat
  /-- local limits -/
  x0 : Nat → Int
  x1 : Nat → Int
  b0 : Nat → BC
  b1 : Nat → BC
  ghosts : Int

namespace Shape
variable (g : Shape)

/-- `include/MMSP.grid.cpp` 303 -/
def s0 (i : Nat) : Int := g.x0 i - g.ghosts
/-- `include/MMSP.grid.cpp` 304 -/
def s1 (i : Nat) : Int := g.x1 i + g.ghosts
/-- `include/MMSP.grid.cpp` 307-310 -/
def sx : Nat → Int := slice g.dim fun j => g.s1 j - g.s0 j
/-- `include/MMSP.grid.cpp` 308-311 -/
def xx : Nat → Int := slice g.dim fun j => g.x1 j - g.x0 j
/-- `include/MMSP.grid.cpp` 316 -/
def cells : Int := g.sx 0 * (g.s1 0 - g.s0 0)
/-- `include/MMSP.grid.cpp` 317 -/
def nodes : Int := g.xx 0 * (g.x1 0 - g.x0 0)

/-- `include/MMSP.grid.cpp` 402-411, `position(int i)`: entry `j` of the returned vector. -/
def position (i : Int) (j : Nat) : Int := digit g.xx i j + g.x0 j

/-- `include/MMSP.grid.cpp` 385-400, `operator()(int i)`: the array index that is dereferenced. -/
def atNode (bd : Build) (i : Int) : Int :=
  match bd with
  | .serial => i
  | .mpi => ∑ j ∈ range g.dim, (digit g.xx i j + g.x0 j - g.s0 j) * g.sx j

/-- `include/MMSP.grid.cpp` 375-383, `operator()(vector<int> x)`: the array index that is dereferenced. -/
def atVec (bd : Build) (x : Nat → Int) : Int :=
  ∑ j ∈ range g.dim, (checkBoundary bd (x j) (g.x0 j) (g.x1 j) (g.b0 j) (g.b1 j) - g.s0 j) * g.sx j

/-- `include/MMSP.utility.h` 50-54, 82-86: subscripting a `target` that already consumed the axes below `i`
and points at array index `p` with the remaining coordinates `xs`. -/
def targetSub (bd : Build) (p : Int) (i : Nat) : List Int → Int
  | [] => p
  | x :: xs =>
    targetSub bd (p + (checkBoundary bd x (g.x0 i) (g.x1 i) (g.b0 i) (g.b1 i) - g.s0 i) * g.sx i) (i + 1) xs

/-- `include/MMSP.grid.cpp` 369-373 followed by `target::operator[]`: `GRID[x][y]...`; the array index reached by
subscripting with the listed coordinates. -/
def atSub (bd : Build) (xs : List Int) : Int := g.targetSub bd 0 0 xs

end Shape
end MMSP
