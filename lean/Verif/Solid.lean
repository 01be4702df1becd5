import Verif.DensePF
/-!
# Solidification

Model of `update` of `examples/phase_transitions/solidification/anisotropic/solidification.cpp` 50-167 on two-dimensional grids (`generate` refuses all others) in a serial
build (where `ghostswap` does nothing).

Simplifications: `T` and `double` are one linearly ordered field (exact arithmetic); a cell is the pair of its two fields, phase fraction and undercooling; `atan2`, `tan`, `atan`
and `M_PI` are parameters; progress output is left out. The static `refGrid` is part of the state, but every call writes all of it before use.
-/

namespace MMSP.Solid

open Stencil (gridAt bump)
open DensePF (pass)

variable {α : Type} [Field α] [LinearOrder α]

/-- The constants, solidification.cpp 67-75, and the library functions. -/
structure Params (α : Type) where
  theta : α
  c : α
  N : α
  alpha : α
  tau : α
  k1 : α
  k2 : α
  DiffT : α
  pi : α
  atan2 : α → α → α
  tan : α → α
  atan : α → α

/-- Limit of the time step, solidification.cpp 76 -/
def cfl (p : Params α) (dx : Nat → α) : α := p.tau / (2 * p.alpha * p.alpha * (1 / dx 0 ^ 2 + 1 / dx 1 ^ 2))

/-- `while (dt > 0.5*CFL) dt *= 3./4;`, solidification.cpp 81-82, at most `fuel` times; `none` when the loop is still running. -/
def reduce (limit : α) : Nat → α → Option α
  | 0, _ => none
  | fuel + 1, dt => if dt > 1 / 2 * limit then reduce limit fuel (dt * (3 / 4)) else some dt

/-- solidification.cpp 108-116: from the gradient to the flux. -/
def flux (p : Params α) (gx gy : α) : α × α :=
  let psi := p.theta + p.atan2 gy gx
  let Phi := p.tan (p.N * psi / 2)
  let beta := (1 - Phi * Phi) / (1 + Phi * Phi)
  let dBeta := (-2 * p.N * Phi) / (1 + Phi * Phi)
  (p.alpha * p.alpha * (1 + p.c * beta) * ((1 + p.c * beta) * gx - p.c * dBeta * gy), p.alpha * p.alpha * (1 + p.c * beta) * (p.c * dBeta * gx + (1 + p.c * beta) * gy))

/-- Body of the first node loop, solidification.cpp 97-116 -/
def fluxAt (p : Params α) (g : Shape) (dx : Nat → α) (old : Int → α × α) (i : Int) (_ : α × α) : Outcome (α × α) :=
  let x := g.position i
  (gridAt .serial g old x).bind fun center =>
  (gridAt .serial g old (bump x 0 1)).bind fun right =>
  (gridAt .serial g old (bump x 1 1)).bind fun upper =>
  .ok (flux p ((right.1 - center.1) / dx 0) ((upper.1 - center.1) / dx 1))

/-- solidification.cpp 138 -/
def mPhi (p : Params α) (phi u : α) : α := phi - 1 / 2 - p.k1 / p.pi * p.atan (p.k2 * u)

/-- solidification.cpp 139-142 -/
def newPhi (p : Params α) (dt phi u div : α) : α :=
  if mPhi p phi u > 0 then ((mPhi p phi u + p.tau / dt) * phi + div) / (p.tau / dt + phi * mPhi p phi u)
  else (phi * p.tau / dt + div) / (p.tau / dt - (1 - phi) * mPhi p phi u)

/-- Body of the second node loop, solidification.cpp 123-156: the new cell; `ref` is `refGrid(i)`. -/
def solidCell (p : Params α) (g : Shape) (dx : Nat → α) (dt : α) (old flow : Int → α × α) (ref : Int → α) (i : Int) (_ : α × α) : Outcome (α × α) :=
  let x := g.position i
  (gridAt .serial g old x).bind fun o =>
  (gridAt .serial g flow x).bind fun d =>
  (gridAt .serial g flow (bump x 0 (-1))).bind fun left =>
  (gridAt .serial g flow (bump x 1 (-1))).bind fun lower =>
  let div := 0 + (d.1 - left.1) / dx 0 + (d.2 - lower.2) / dx 1
  (gridAt .serial g old (bump x 0 1)).bind fun r0 =>
  (gridAt .serial g old (bump x 0 (-1))).bind fun l0 =>
  (gridAt .serial g old (bump x 1 1)).bind fun r1 =>
  (gridAt .serial g old (bump x 1 (-1))).bind fun l1 =>
  let lapT := 0 + (r0.2 - 2 * o.2 + l0.2) / dx 0 ^ 2 + (r1.2 - 2 * o.2 + l1.2) / dx 1 ^ 2
  (deref g ref (g.atNode .serial i)).bind fun rf =>
  .ok (newPhi p dt o.1 o.2 div, o.2 + dt * (p.DiffT * lapT + (o.1 - rf) / dt))

/-- Data of `oldGrid`, `newGrid` and `refGrid`. -/
structure State (α : Type) where
  old : Int → α × α
  new : Int → α × α
  ref : Int → α

/-- `refGrid(i) = oldX[0]` for all nodes, solidification.cpp 64-65 and 159. The loop at 122-160 writes `refGrid(i)` after its only use, so this is done after the loop. -/
def keep (g : Shape) (old : Int → α × α) (ref : Int → α) : Outcome (Int → α) := pass .serial g (fun i _ => (deref g old (g.atNode .serial i)).bind fun o => .ok o.1) ref

/-- One step, solidification.cpp 91-164; `Dgradphi` is made anew and all its nodes are written. -/
def step (p : Params α) (g : Shape) (dx : Nat → α) (dt : α) (s : State α) : Outcome (State α) :=
  (pass .serial g (fluxAt p g dx s.old) fun _ => (0, 0)).bind fun flow =>
  (pass .serial g (solidCell p g dx dt s.old flow s.ref) s.new).bind fun out =>
  (keep g s.old s.ref).bind fun ref => .ok ⟨out, s.old, ref⟩

/-- The time loop, solidification.cpp 90-165 -/
def steps (p : Params α) (g : Shape) (dx : Nat → α) (dt : α) : Nat → State α → Outcome (State α)
  | 0, s => .ok s
  | k + 1, s => (steps p g dx dt k s).bind (step p g dx dt)

/-- `update(oldGrid, n)`, solidification.cpp 50-167, with the time step already reduced. -/
def update (p : Params α) (g : Shape) (dx : Nat → α) (dt : α) (n : Nat) (s : State α) : Outcome (State α) :=
  (keep g s.old s.ref).bind fun ref => steps p g dx dt n { s with ref := ref }

end MMSP.Solid
