import Verif.Stencil
import Mathlib.Algebra.Order.Field.Basic
/-!
# Spin models

Model of the `update` loops of `examples/statistical_mechanics/Ising/ising.cpp` 46-124, `examples/statistical_mechanics/Potts/potts.cpp` 47-125 and
`examples/statistical_mechanics/Heisenberg/heisenberg.cpp` 62-145.

Simplifications: `double` arithmetic is exact; the numbers returned by `rand()` are arguments, three (Ising: two, Heisenberg: four) per attempted flip; the test
`r<exp(-dE/kT)` is an arbitrary function `hot` of `dE` and of the drawn number; the trigonometric functions that make a direction out of two drawn numbers are an arbitrary
function `dir`; calls of `ghostswap` and progress output are left out (they do nothing in a serial build; `Verif/Ghost.lean` models them for the others).
-/

namespace MMSP.Spin

open Stencil (gridAt bump)

/-- The nested loops `for (int i=-1; i<2; i++) { x[0] += i; … x[0] -= i; }` over the axes listed, e.g. `ising.cpp` 84-94. -/
def boxFold {σ : Type} (f : σ → (Nat → Int) → Outcome σ) : List Nat → (Nat → Int) → σ → Outcome σ
  | [], x, a => f a x
  | j :: js, x, a => [-1, 0, 1].foldlM (fun a (i : Int) => boxFold f js (bump x j i) a) a

/-- `(spin!=spin2)-(spin!=spin1)`: `ising.cpp` 81, `potts.cpp` 82. -/
def change (spin1 spin2 spin : Int) : Int := (if spin ≠ spin2 then 1 else 0) - (if spin ≠ spin1 then 1 else 0)

/-- `sum`, `ising.cpp` 76-110; `dE`, `potts.cpp` 77-111. -/
def energySum (bd : Build) (g : Shape) (data : Int → Int) (axes : List Nat) (x : Nat → Int) (spin1 spin2 : Int) : Outcome Int :=
  boxFold (fun a y => (gridAt bd g data y).bind fun spin => .ok (a + change spin1 spin2 spin)) axes x (-1)

/-- `-0.5*J*sum-H*(spin2-spin1)` with `J = 2.0`, `H = 1.0`: `ising.cpp` 55-56, 111. -/
def isingEnergy (sum spin1 spin2 : Int) : ℚ := -(1 / 2) * 2 * sum - 1 * (spin2 - spin1)

/-- One pass of the loop over `h`, `ising.cpp` 66-122, with the two numbers drawn. -/
def isingFlip (bd : Build) (g : Shape) (hot : ℚ → Nat → Bool) (data : Int → Int) (r : Nat × Nat) : Outcome (Int → Int) :=
  if g.nodes.toNat = 0 then .ub else
  let p := r.1 % g.nodes.toNat
  (deref g data (g.atNode bd p)).bind fun spin1 =>
  let spin2 := -spin1
  (energySum bd g data (List.range g.dim) (g.position p) spin1 spin2).bind fun sum =>
  let dE := isingEnergy sum spin1 spin2
  if dE ≤ 0 then store g data (g.atNode bd p) spin2
  else if hot dE r.2 then store g data (g.atNode bd p) spin2
  else .ok data

/-- `update(spinGrid, steps)`, `ising.cpp` 46-124, with `steps*nodes(spinGrid)` pairs of drawn numbers. -/
def isingRun (bd : Build) (g : Shape) (hot : ℚ → Nat → Bool) (draws : List (Nat × Nat)) (data : Int → Int) : Outcome (Int → Int) :=
  draws.foldlM (isingFlip bd g hot) data

/-- `dE` before `dE *= J`, `potts.cpp` 77-111: the first test is `dim==2` and so is the second. -/
def pottsSum (bd : Build) (g : Shape) (data : Int → Int) (x : Nat → Int) (spin1 spin2 : Int) : Outcome Int :=
  if g.dim = 2 then energySum bd g data [0] x spin1 spin2
  else if g.dim = 2 then energySum bd g data [0, 1] x spin1 spin2
  else if g.dim = 3 then energySum bd g data [0, 1, 2] x spin1 spin2
  else .ok (-1)

/-- One pass of the loop over `h`, `potts.cpp` 67-123, with the three numbers drawn; `Q = 20`, `J = 1.0`. -/
def pottsFlip (bd : Build) (g : Shape) (hot : ℚ → Nat → Bool) (data : Int → Int) (r : Nat × Nat × Nat) : Outcome (Int → Int) :=
  if g.nodes.toNat = 0 then .ub else
  let p := r.1 % g.nodes.toNat
  (deref g data (g.atNode bd p)).bind fun spin1 =>
  let spin2 : Int := (r.2.1 % 20 : Nat)
  (pottsSum bd g data (g.position p) spin1 spin2).bind fun sum =>
  let dE : ℚ := sum * 1
  if dE ≤ 0 then store g data (g.atNode bd p) spin2
  else if hot dE r.2.2 then store g data (g.atNode bd p) spin2
  else .ok data

/-- `update(spinGrid, steps)`, `potts.cpp` 47-125. -/
def pottsRun (bd : Build) (g : Shape) (hot : ℚ → Nat → Bool) (draws : List (Nat × Nat × Nat)) (data : Int → Int) : Outcome (Int → Int) :=
  draws.foldlM (pottsFlip bd g hot) data

section
variable {α : Type} [Field α] [LinearOrder α]

/-- A spin of the Heisenberg model: a `vector<T>` of three components. -/
abbrev Dir (α : Type) := Fin 3 → α

/-- `s[0]*(s1[0]-s2[0])+s[1]*(s1[1]-s2[1])+s[2]*(s1[2]-s2[2])`, `heisenberg.cpp` 102. -/
def turn (s1 s2 s : Dir α) : α := s 0 * (s1 0 - s2 0) + s 1 * (s1 1 - s2 1) + s 2 * (s1 2 - s2 2)

/-- `sum`, `heisenberg.cpp` 97-131. -/
def turnSum (bd : Build) (g : Shape) (data : Int → Dir α) (axes : List Nat) (x : Nat → Int) (s1 s2 : Dir α) : Outcome α :=
  boxFold (fun a y => (gridAt bd g data y).bind fun s => .ok (a + turn s1 s2 s)) axes x (-1)

/-- One pass of the loop over `h`, `heisenberg.cpp` 82-143, with the four numbers drawn; `J = 1.0`. -/
def heisenbergFlip (bd : Build) (g : Shape) (dir : Nat → Nat → Dir α) (hot : α → Nat → Bool) (data : Int → Dir α) (r : Nat × Nat × Nat × Nat) : Outcome (Int → Dir α) :=
  if g.nodes.toNat = 0 then .ub else
  let p := r.1 % g.nodes.toNat
  (deref g data (g.atNode bd p)).bind fun s1 =>
  let s2 := dir r.2.1 r.2.2.1
  (turnSum bd g data (List.range g.dim) (g.position p) s1 s2).bind fun sum =>
  let dE := -1 * sum
  if dE ≤ 0 then store g data (g.atNode bd p) s2
  else if hot dE r.2.2.2 then store g data (g.atNode bd p) s2
  else .ok data

end

end MMSP.Spin
