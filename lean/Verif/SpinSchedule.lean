import Verif.AsyncRun
import Verif.Spin
import Mathlib.Data.Nat.Sqrt
/-!
# The parallel spin models

`update` of `examples/statistical_mechanics/Ising/ising.cpp` 46-124, `Potts/potts.cpp` 47-125, `Heisenberg/heisenberg.cpp` 62-145 and of the Monte Carlo programs in
`examples/coarsening/zener_pinning`, with their calls of `ghostswap`, as the statements one rank executes. How many calls there are depends on the number of nodes of that rank.

Simplifications: those of `Verif/Spin.lean`; an attempt is written as a pass over all nodes that assigns to the drawn node its new value and to every other node the value it has (proved to be the
same as the single assignment of the programs). `int(sqrt(n))` is the integer square root, which is what `double` arithmetic gives for every `int`. Progress output is left out.
-/

namespace MMSP.SpinSchedule

open ParallelRun Stencil Spin

variable {V : Type}

/-- `int gss = (dim==1)?nodes(spinGrid):int(sqrt(nodes(spinGrid)));`: `ising.cpp` 59, `potts.cpp` 60, `heisenberg.cpp` 75. -/
def gss (dim nodes : Nat) : Nat := if dim = 1 then nodes else nodes.sqrt

/-- `int gss = nodes(grid);`: `zener_pinning/isotropic/Monte_Carlo/zener.cpp` 99, `zener_pinning/anisotropic/Monte_Carlo/zener.cpp` 100. -/
def zenerGss (nodes : Nat) : Nat := nodes

/-- The loop over `h`, e.g. `ising.cpp` 66-122: an attempt, then `if (h%gss==0) ghostswap(spinGrid);`. -/
def sweep (attempt : Nat → Stmt V) (nodes g : Nat) : List (Stmt V) :=
  (List.range nodes).flatMap fun h => attempt h :: if h % g = 0 then [.ghostswap 0] else []

/-- `update(spinGrid, steps)`, e.g. `ising.cpp` 46-124: 53, then the loop over `step`. -/
def update (attempt : Nat → Nat → Stmt V) (nodes g steps : Nat) : List (Stmt V) :=
  .ghostswap 0 :: (List.range steps).flatMap fun step => sweep (attempt step) nodes g

/-- `spinGrid(p) = f;` where `x` is the position of node `p` and `f` reads the grid. -/
def assign (dim : Nat) (x : Nat → Int) (f : ((Nat → Int) → Outcome V) → Outcome V) : Stmt V :=
  .loop 0 fun A y => if ∀ j, j < dim → y j = x j then f (A 0) else A 0 y

/-- `sum` and `dE` of `ising.cpp` 76-110, `potts.cpp` 77-111, as in `Spin.energySum`, from the accesses. -/
def nearSum (A : (Nat → Int) → Outcome Int) (axes : List Nat) (x : Nat → Int) (spin1 spin2 : Int) : Outcome Int :=
  boxFold (fun a y => (A y).bind fun spin => .ok (a + change spin1 spin2 spin)) axes x (-1)

/-- One attempt of the Ising model with the two numbers drawn, `ising.cpp` 67-119. -/
def isingAttempt (g : Shape) (hot : ℚ → Nat → Bool) (r : Nat × Nat) : Stmt Int :=
  let x := g.position (r.1 % g.nodes.toNat : Nat)
  assign g.dim x fun A =>
    (A x).bind fun spin1 => (nearSum A (List.range g.dim) x spin1 (-spin1)).bind fun sum =>
      .ok (if isingEnergy sum spin1 (-spin1) ≤ 0 then -spin1 else if hot (isingEnergy sum spin1 (-spin1)) r.2 then -spin1 else spin1)

/-- One attempt of the Potts model with the three numbers drawn, `potts.cpp` 68-120. -/
def pottsAttempt (g : Shape) (hot : ℚ → Nat → Bool) (r : Nat × Nat × Nat) : Stmt Int :=
  let x := g.position (r.1 % g.nodes.toNat : Nat)
  let spin2 : Int := (r.2.1 % 20 : Nat)
  assign g.dim x fun A =>
    (A x).bind fun spin1 =>
      (if g.dim = 2 then nearSum A [0] x spin1 spin2 else if g.dim = 2 then nearSum A [0, 1] x spin1 spin2
        else if g.dim = 3 then nearSum A [0, 1, 2] x spin1 spin2 else .ok (-1)).bind fun sum =>
      .ok (if ((sum * 1 : Int) : ℚ) ≤ 0 then spin2 else if hot (sum * 1 : Int) r.2.2 then spin2 else spin1)

section
variable {α : Type} [Field α] [LinearOrder α]

/-- One attempt of the Heisenberg model with the four numbers drawn, `heisenberg.cpp` 83-140. -/
def heisenbergAttempt (g : Shape) (dir : Nat → Nat → Dir α) (hot : α → Nat → Bool) (r : Nat × Nat × Nat × Nat) : Stmt (Dir α) :=
  let x := g.position (r.1 % g.nodes.toNat : Nat)
  let s2 := dir r.2.1 r.2.2.1
  assign g.dim x fun A =>
    (A x).bind fun s1 =>
      (boxFold (fun a y => (A y).bind fun s => .ok (a + turn s1 s2 s)) (List.range g.dim) x (-1)).bind fun sum =>
      .ok (if -1 * sum ≤ 0 then s2 else if hot (-1 * sum) r.2.2.2 then s2 else s1)

end

/-- What rank `r` executes in `update` of the Ising model; `draws step h` are the numbers it draws. -/
def isingRank (g : Shape) (hot : ℚ → Nat → Bool) (draws : Nat → Nat → Nat × Nat) (steps : Nat) : List (Stmt Int) :=
  update (fun step h => isingAttempt g hot (draws step h)) g.nodes.toNat (gss g.dim g.nodes.toNat) steps

/-- Potts -/
def pottsRank (g : Shape) (hot : ℚ → Nat → Bool) (draws : Nat → Nat → Nat × Nat × Nat) (steps : Nat) : List (Stmt Int) :=
  update (fun step h => pottsAttempt g hot (draws step h)) g.nodes.toNat (gss g.dim g.nodes.toNat) steps

/-- Heisenberg -/
def heisenbergRank {α : Type} [Field α] [LinearOrder α] (g : Shape) (dir : Nat → Nat → Dir α) (hot : α → Nat → Bool) (draws : Nat → Nat → Nat × Nat × Nat × Nat) (steps : Nat) :
    List (Stmt (Dir α)) :=
  update (fun step h => heisenbergAttempt g dir hot (draws step h)) g.nodes.toNat (gss g.dim g.nodes.toNat) steps

/-- The Monte Carlo programs of `zener_pinning`; `attempt step h` is what an attempt does. -/
def zenerRank (g : Shape) (attempt : Nat → Nat → Stmt V) (steps : Nat) : List (Stmt V) := update attempt g.nodes.toNat (zenerGss g.nodes.toNat) steps

end MMSP.SpinSchedule
