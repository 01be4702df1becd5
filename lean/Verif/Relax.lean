import Verif.DensePF
/-!
# Relaxation and diffusion examples

Model of the update loops of `examples/phase_transitions/allen-cahn/allen-cahn.cpp` 47-75, `examples/phase_transitions/model_A/model_A.cpp` 74-105 and of the programs
`examples/beginners_diffusion/1stDiffusion.cpp`, `MMSPDiffusion.cpp`, `MMSPDiffusion2D.cpp`, in a serial build (where `ghostswap` does nothing).

Simplifications: exact arithmetic; the random numbers of `gaussian` are a parameter; progress output and printing are left out.
-/

namespace MMSP.Relax

open Stencil (laplacianNode)
open DensePF (pass run)

variable {α : Type} [Field α]

/-- allen-cahn.cpp 69-70: `newGrid(i) = phi-dt*M*(-r*phi+u*pow(phi,3)-K*laplacian(oldGrid,i))`. -/
def acCell (g : Shape) (dx : Nat → α) (dt m r u k : α) (old : Int → α) (i : Int) (_ : α) : Outcome α :=
  (deref g old (g.atNode .serial i)).bind fun phi =>
  (laplacianNode .serial g dx old i).bind fun l => .ok (phi - dt * m * (-r * phi + u * phi ^ 3 - k * l))

/-- `update(oldGrid, steps)`, allen-cahn.cpp 47-75: data of `oldGrid` and `newGrid`. -/
def acRun (g : Shape) (dx : Nat → α) (dt m r u k : α) (steps : Nat) (old new : Int → α) : Outcome ((Int → α) × (Int → α)) :=
  run g (acCell g dx dt m r u k) steps (old, new)

/-- model_A.cpp 98-100: the same with noise. -/
def modelACell (g : Shape) (dx : Nat → α) (dt m r u k : α) (noise : Int → α) (old : Int → α) (i : Int) (_ : α) : Outcome α :=
  (deref g old (g.atNode .serial i)).bind fun phi =>
  (laplacianNode .serial g dx old i).bind fun l => .ok (phi - dt * m * (-r * phi + u * phi ^ 3 - k * l + noise i))

/-- `update(oldGrid, steps)`, model_A.cpp 74-105; `noise t i` is the number drawn in step `t` at node `i`. -/
def modelARun (g : Shape) (dx : Nat → α) (dt m r u k : α) (noise : Nat → Int → α) : Nat → (Int → α) × (Int → α) → Outcome ((Int → α) × (Int → α))
  | 0, s => .ok s
  | n + 1, s => (modelARun g dx dt m r u k noise n s).bind fun s => (pass .serial g (modelACell g dx dt m r u k (noise n) s.1) s.2).bind fun out => .ok (out, s.1)

/-! ## Diffusion in two dimensions -/

/-- MMSPDiffusion2D.cpp 53: `update(i)=0.3*laplacian(GRID,i)+GRID(i)`; `c` is `0.3`. -/
def heatCell (g : Shape) (dx : Nat → α) (c : α) (old : Int → α) (i : Int) (_ : α) : Outcome α :=
  (laplacianNode .serial g dx old i).bind fun l => (deref g old (g.atNode .serial i)).bind fun phi => .ok (c * l + phi)

/-- MMSPDiffusion2D.cpp 50-57 -/
def heatRun (g : Shape) (dx : Nat → α) (c : α) (steps : Nat) (old new : Int → α) : Outcome ((Int → α) × (Int → α)) := run g (heatCell g dx c) steps (old, new)

/-- The grids of MMSPDiffusion2D.cpp 23-24, 39-46. -/
def square (length : Int) : Shape := ⟨2, fun _ => 0, fun _ => length, fun _ => .dirichlet, fun _ => .dirichlet, 0⟩

/-- The initial values of `GRID`, MMSPDiffusion2D.cpp 26-36, as data array. -/
def corner (length : Int) (p : Int) : α :=
  let x := (square length).position p
  if x 0 < Int.tdiv length 2 ∧ x 1 < Int.tdiv length 2 then 1 else 0

/-! ## Diffusion in one dimension -/

/-- The grids of 1stDiffusion.cpp 18-19 (default boundary conditions) and MMSPDiffusion.cpp 15-16, 27-34 (`b = dirichlet`). -/
def line (b : BC) (nx : Int) : Shape := ⟨1, fun _ => 0, fun _ => nx, fun _ => b, fun _ => b, 0⟩

/-- `GRID[x]` -/
def sub (g : Shape) (data : Int → α) (x : Int) : Outcome α := deref g data (g.atSub .serial [x])

/-- Initial values, 1stDiffusion.cpp 21-28, MMSPDiffusion.cpp 18-25. -/
def half (nx : Int) (x : Int) : α := if x < Int.tdiv nx 2 then 1 else 0

/-- One pass, 1stDiffusion.cpp 31-37; `c` is `diffusionCoefficient*dt`. -/
def firstPass (nx : Int) (dx c : α) (old new : Int → α) : Outcome (Int → α) :=
  let g := line .periodic nx
  (List.range (g.x1 0 - g.x0 0).toNat).foldlM (fun new (n : Nat) =>
    let x := g.x0 0 + n
    if x = 0 ∨ x = nx - 1 then .ok new
    else
      (sub g old (x - 1)).bind fun a => (sub g old x).bind fun b => (sub g old (x + 1)).bind fun d =>
      store g new (g.atSub .serial [x]) (c * ((a - 2 * b + d) / (dx * dx)) + b)) new

/-- 1stDiffusion.cpp 30-39: data of `oldGrid` (which is printed) and `newGrid`. -/
def firstRun (nx : Int) (dx c : α) : Nat → Outcome ((Int → α) × (Int → α))
  | 0 => .ok (half nx, half nx)
  | n + 1 => (firstRun nx dx c n).bind fun s => (firstPass nx dx c s.1 s.2).bind fun out => .ok (out, s.1)

/-- One pass, MMSPDiffusion.cpp 39-43: both data arrays, `oldGrid` first. -/
def secondPass (nx : Int) (dx c : α) (s : (Int → α) × (Int → α)) : Outcome ((Int → α) × (Int → α)) :=
  let g := line .dirichlet nx
  (List.range g.nodes.toNat).foldlM (fun s (i : Nat) =>
    (laplacianNode .serial g (fun _ => dx) s.1 i).bind fun l =>
    (sub g s.1 i).bind fun b =>
    (store g s.2 (g.atNode .serial i) (c * l + b)).bind fun new =>
    (store g s.1 (g.atSub .serial [g.x0 0]) 1).bind fun old =>
    (store g old (g.atSub .serial [g.x1 0]) 0).bind fun old => .ok (old, new)) s

/-- MMSPDiffusion.cpp 38-46: data of `oldGrid` and of `newGrid` (which is printed). -/
def secondRun (nx : Int) (dx c : α) : Nat → Outcome ((Int → α) × (Int → α))
  | 0 => .ok (half nx, half nx)
  | n + 1 => (secondRun nx dx c n).bind fun s => (secondPass nx dx c s).bind fun s => .ok (s.2, s.1)

end MMSP.Relax
