import Verif.DensePF
/-!
# Ostwald ripening

Model of the update loop of `examples/coarsening/ostwald_ripening/isotropic/phase_field/ostwald.cpp` 56-124 in a serial build (where `ghostswap` does nothing). Field 0 of a
cell is the concentration, the other fields are order parameters.

Simplifications: `T` and `double` are one field (exact arithmetic); reading entry after entry of a cell is checked once for the whole cell (`DensePF.checked`); progress output
is left out.
-/

namespace MMSP.Ostwald

open DensePF (entry checked fill pass)
open Stencil (laplacian laplacianVec laplacianField)

variable {α : Type} [Field α]

/-- The constants, ostwald.cpp 68-82. -/
structure Params (α : Type) where
  dt : α
  L : α
  D : α
  Calpha : α
  Cbeta : α
  Cmatrix : α
  A : α
  B : α
  gamma : α
  delta : α
  epsilon : α
  Dalpha : α
  Dbeta : α
  kappa : α

/-- The values of ostwald.cpp 68-82. -/
def example' : Params α where
  dt := 1 / 1000
  L := 1
  D := 1
  Calpha := 5 / 100
  Cbeta := 95 / 100
  Cmatrix := 1 / 2 * (5 / 100 + 95 / 100)
  A := 2
  B := 2 / (95 / 100 - 1 / 2 * (5 / 100 + 95 / 100)) ^ 2
  gamma := 2 / (95 / 100 - 5 / 100) ^ 2
  delta := 1
  epsilon := 3
  Dalpha := 2 / (95 / 100 - 5 / 100) ^ 2 / 1 ^ 2
  Dbeta := 2 / (95 / 100 - 5 / 100) ^ 2 / 1 ^ 2
  kappa := 2

/-- Sum of the squares of the fields 1, 2, ..., ostwald.cpp 90-92 and 110-112. -/
def squares (n : Nat) (y : Int → α) : α := (List.range' 1 (n - 1)).foldl (fun sum (i : Nat) => sum + y i ^ 2) 0

/-- ostwald.cpp 97-99 -/
def potential (p : Params α) (sum C lap : α) : α :=
  -p.A * (C - p.Cmatrix) + p.B * (C - p.Cmatrix) ^ 3 + p.Dalpha * (C - p.Calpha) ^ 3 + p.Dbeta * (C - p.Cbeta) ^ 3 - p.gamma * (C - p.Calpha) * sum - p.kappa * lap

/-- The driving force of an order parameter, ostwald.cpp 117-118 -/
def force (p : Params α) (sum C value lap : α) : α := -p.gamma * (C - p.Calpha) ^ 2 + p.delta * value ^ 3 + p.epsilon * value * (sum - value ^ 2) - p.kappa * lap

/-- Value stored at node `i` by the first loop, ostwald.cpp 89-99; `pow2` is `pow(.,2)` of the Laplacian. -/
def potentialAt (g : Shape) (n : Nat) (p : Params α) (dx : Nat → α) (old : Int → List α) (i : Int) : Outcome α :=
  (deref g old (g.atNode .serial i)).bind fun y =>
  (checked n y).bind fun y =>
  (laplacianField .serial g (fun h => h ^ 2) dx old (g.position i) 0).bind fun lap => .ok (potential p (squares n y) (y 0) lap)

/-- First loop, ostwald.cpp 88-100: `wspace(x) = ...` for the position `x` of every node. -/
def first (g : Shape) (n : Nat) (p : Params α) (dx : Nat → α) (old : Int → List α) (w : Int → α) : Outcome (Int → α) :=
  (List.range g.nodes.toNat).foldlM (fun w (i : Nat) => (potentialAt g n p dx old i).bind fun v => store g w (g.atVec .serial (g.position i)) v) w

/-- Body of the second loop, ostwald.cpp 104-119; `z` is the cell `newGrid(n)` before. -/
def cell (g : Shape) (n : Nat) (p : Params α) (dx : Nat → α) (w : Int → α) (old : Int → List α) (i : Int) (z : List α) : Outcome (List α) :=
  (laplacian .serial g dx w (g.position i)).bind fun lap =>
  (deref g old (g.atNode .serial i)).bind fun y =>
  (checked n y).bind fun y =>
  (laplacianVec .serial g n dx old (g.position i)).bind fun vlap =>
  (checked n vlap).bind fun vlap =>
  fill n (fun h => if h = 0 then y 0 + p.dt * p.D * lap else y h - p.dt * p.L * force p (squares n y) (y 0) (y h) (vlap h)) z

/-- Data of `oldGrid`, `newGrid` and `wspace`. -/
structure State (α : Type) where
  old : Int → List α
  new : Int → List α
  w : Int → α

/-- One step, ostwald.cpp 85-123 -/
def step (g : Shape) (n : Nat) (p : Params α) (dx : Nat → α) (s : State α) : Outcome (State α) :=
  (first g n p dx s.old s.w).bind fun w => (pass .serial g (cell g n p dx w s.old) s.new).bind fun out => .ok ⟨out, s.old, w⟩

/-- `update(oldGrid, steps)`, ostwald.cpp 56-124; `n` is `fields(oldGrid)`. -/
def update (g : Shape) (n : Nat) (p : Params α) (dx : Nat → α) : Nat → State α → Outcome (State α)
  | 0, s => .ok s
  | k + 1, s => (update g n p dx k s).bind (step g n p dx)

end MMSP.Ostwald
