import Verif.Conserve
import Mathlib.Algebra.Order.Field.Basic
/-!
# The Cahn-Hilliard example with convex splitting

Model of `examples/phase_transitions/cahn-hilliard/convex_splitting/cahn-hilliard.cpp` 33-132, 137-177 and 276-461.

Simplifications. Exact arithmetic instead of `double`; `sqrt` is a parameter. A serial build: `ghostswap` does nothing. The grid holds vectors with the two fields that `generate` creates (the
composition and the chemical potential), modelled as pairs. The spacing may differ between axes (the code sets all to `deltaX`). The quotient `residual/normB` is `inf` or `NaN` if `normB` is 0:
the comparison with the tolerance is spelled out for this case. Progress output is not modelled. `pow` with exponents 2, 3, 4 is multiplication.
-/

namespace MMSP.ConvexSplit

open Stencil (gridAt neighbours lapLoop)

section
variable {α : Type} [Field α]

/-! ## Free energy -/

/-- The four functions of the composition, and the constants of the equations. -/
structure Params (α : Type) where
  D : α
  K : α
  dt : α
  omega : α
  tol : α
  energy : α → α
  full : α → α
  contractive : α → α
  nonlinear : α → α
  expansive : α → α

/-- `#ifdef VANILLA`: lines 34-38, 50, 54, 60, 66-91. -/
def vanilla : Params α where
  D := 1
  K := 1
  dt := 1 / (1 * 1)
  omega := 1
  tol := 1 / 10 ^ 14
  energy c := 1 / 4 * c ^ 4 - 1 / 2 * c ^ 2
  full c := c ^ 3 - c
  contractive c := c ^ 3
  nonlinear c := c ^ 2
  expansive c := -c

/-- `QA`, line 100 -/
def qa (b ca cb : α) : α := b + ca + cb
/-- `QB`, line 101 -/
def qb (b c0 ca cb : α) : α := 3 * (b * c0 + ca * ca + cb * cb)
/-- `QC`, line 102 -/
def qc (b c0 ca cb : α) : α := 3 * (b * c0 * c0 + ca ^ 3 + cb ^ 3)
/-- `QD`, line 103 -/
def qd (b c0 ca cb : α) : α := b * c0 ^ 3 + ca ^ 4 + cb ^ 4

/-- The other case: lines 40-46, 50, 54, 93-131, for any compositions, `a` and `b`. -/
def parametric (c0 ca cb a b : α) : Params α where
  D := 2 / (cb - ca)
  K := 2
  dt := 1 / (2 / (cb - ca) * 2)
  omega := 12 / 10
  tol := 1 / 10 ^ 14
  energy c := -(1 / 2) * a * (c - c0) ^ 2 + 1 / 4 * b * (c - c0) ^ 4 + 1 / 4 * ca * (c - ca) ^ 4 + 1 / 4 * cb * (c - cb) ^ 4
  full c := -a * (c - c0) + b * (c - c0) ^ 3 + ca * (c - ca) ^ 3 + cb * (c - cb) ^ 3
  contractive c := qa b ca cb * c ^ 3 + qc b c0 ca cb * c
  nonlinear c := qa b ca cb * c ^ 2 + qc b c0 ca cb
  expansive c := -a * (c - c0) - qb b c0 ca cb * c ^ 2 - qd b c0 ca cb

/-- The constants of lines 42-44, 96, 97. -/
def benchmark : Params α := parametric (45 / 100) (5 / 100) (95 / 100) 2 (2 / (5 / 100 - 45 / 100) ^ 2)

/-! ## Stencils -/

/-- `GRID(x)[field]` -/
def fieldAt (g : Shape) (sel : α × α → α) (data : Int → α × α) (x : Nat → Int) : Outcome α := (gridAt .serial g data x).bind fun v => .ok (sel v)

/-- `1.0 / pow(dx(GRID, i),2.0)` -/
def axisWeight (dx : Nat → α) (i : Nat) : α := 1 / dx i ^ 2

/-- `field_laplacian`, lines 138-157 -/
def fieldLaplacian (g : Shape) (dx : Nat → α) (sel : α × α → α) (data : Int → α × α) (x : Nat → Int) : Outcome α :=
  (fieldAt g sel data x).bind fun y => lapLoop (fieldAt g sel data) (axisWeight dx) y (List.range g.dim) x 0

/-- The loop of `fringe_laplacian`, lines 166-175. -/
def fringeLoop (at' : (Nat → Int) → Outcome α) (w : Nat → α) : List Nat → (Nat → Int) → α → Outcome α
  | [], _, acc => .ok acc
  | i :: is, s, acc => (neighbours at' s i).bind fun (yh, yl, s) => fringeLoop at' w is s (acc + w i * (yh + yl))

/-- `fringe_laplacian`, lines 160-177 -/
def fringe (g : Shape) (dx : Nat → α) (sel : α × α → α) (data : Int → α × α) (x : Nat → Int) : Outcome α := fringeLoop (fieldAt g sel data) (axisWeight dx) (List.range g.dim) x 0

/-- `lapWeight`, lines 302-307 -/
def centre (g : Shape) (dx : Nat → α) : α := (List.range g.dim).foldl (fun w d => w + 2 / dx d ^ 2) 0

/-! ## Red-black iteration -/

/-- The new value of a node, lines 342-365. -/
def node (p : Params α) (g : Shape) (dx : Nat → α) (old new : Int → α × α) (n : Int) : Outcome (α × α) :=
  (deref g old (g.atNode .serial n)).bind fun o =>
  (deref g new (g.atNode .serial n)).bind fun c =>
  let a12 := p.dt * p.D * centre g dx
  let a21 := -p.nonlinear c.1 - p.K * centre g dx
  let det := 1 - a12 * a21
  (fringe g dx Prod.snd new (g.position n)).bind fun fu =>
  (fringe g dx Prod.fst new (g.position n)).bind fun fc =>
  let b1 := o.1 + p.D * p.dt * fu
  let b2 := p.expansive o.1 - p.K * fc
  .ok (p.omega * ((b1 - b2 * a12) / det) + (1 - p.omega) * c.1, p.omega * ((b2 - b1 * a21) / det) + (1 - p.omega) * c.2)

/-- `x_sum%2 == color`, lines 336-340: the node is left out. -/
def skipped (g : Shape) (color n : Int) : Bool := decide (Int.tmod (∑ d ∈ Finset.range g.dim, g.position n d) 2 = color)

/-- One colour, lines 334-367, visiting the nodes in the given order (the loop is `#pragma omp parallel for`: the order is not fixed, but an access at a time is atomic here). -/
def passIn (order : List Nat) (p : Params α) (g : Shape) (dx : Nat → α) (color : Int) (old new : Int → α × α) : Outcome (Int → α × α) :=
  order.foldlM (fun new (n : Nat) => if skipped g color n then .ok new else (node p g dx old new n).bind fun v => store g new (g.atNode .serial n) v) new

/-- One colour without OpenMP. -/
def pass (p : Params α) (g : Shape) (dx : Nat → α) (color : Int) (old new : Int → α × α) : Outcome (Int → α × α) := passIn (List.range g.nodes.toNat) p g dx color old new

/-- Lines 327-369: `for (int color=1; color>-1; color--)` -/
def iteration (p : Params α) (g : Shape) (dx : Nat → α) (old new : Int → α × α) : Outcome (Int → α × α) := (pass p g dx 1 old new).bind fun new => pass p g dx 0 old new

/-- The contribution of a node to `residual` and `normB`, lines 387-414. -/
def residualAt (p : Params α) (g : Shape) (dx : Nat → α) (old new : Int → α × α) (n : Int) : Outcome (α × α) :=
  (fieldLaplacian g dx Prod.fst new (g.position n)).bind fun lapC =>
  (fieldLaplacian g dx Prod.snd new (g.position n)).bind fun lapU =>
  (deref g old (g.atNode .serial n)).bind fun o =>
  (deref g new (g.atNode .serial n)).bind fun c =>
  let b1 := o.1
  let b2 := p.expansive o.1
  let r1 := b1 - (c.1 - p.D * p.dt * lapU)
  let r2 := b2 - (c.2 - p.contractive c.1 + p.K * lapC)
  .ok (r1 * r1 + r2 * r2, b1 * b1 + b2 * b2)

/-- `residual` and `normB`, lines 380-414. -/
def residual (p : Params α) (g : Shape) (dx : Nat → α) (old new : Int → α × α) : Outcome (α × α) :=
  (List.range g.nodes.toNat).foldlM (fun s (n : Nat) => (residualAt p g dx old new n).bind fun e => .ok (s.1 + e.1, s.2 + e.2)) (0, 0)

variable [LinearOrder α]

/-- `residual>tolerance` after line 424: with `normB` 0 the quotient is `inf`, or `NaN`, which is not greater than anything. -/
def tooLarge (p : Params α) (g : Shape) (sqrt : α → α) (r : α × α) : Bool :=
  if r.2 = 0 then decide (r.1 ≠ 0) else decide (p.tol < sqrt (r.1 / r.2) / (2 * ((g.nodes.toNat : Nat) : α)))

/-- The iteration of one step, lines 313-434, with `left` iterations left before `max_iter`: if all are used up the program is stopped (429-434). -/
def solve (p : Params α) (g : Shape) (dx : Nat → α) (sqrt : α → α) (old : Int → α × α) : Nat → Nat → Bool → (Int → α × α) → Outcome (Int → α × α)
  | 0, _, _, _ => .abort (-1)
  | left + 1, iter, again, new =>
    if again then
      (iteration p g dx old new).bind fun new =>
      (if iter + 1 < 5 ∨ (iter + 1) % 5 = 0 then (residual p g dx old new).bind fun r => .ok (tooLarge p g sqrt r) else .ok again).bind fun again =>
      solve p g dx sqrt old left (iter + 1) again new
    else .ok new

/-- `update(oldGrid, steps)`, lines 276-461: both grids; `newGrid` starts as a copy of `oldGrid` and they are swapped after each step. -/
def update (p : Params α) (g : Shape) (dx : Nat → α) (sqrt : α → α) (maxIter : Nat) : Nat → (Int → α × α) × (Int → α × α) → Outcome ((Int → α × α) × (Int → α × α))
  | 0, s => .ok s
  | n + 1, s => (solve p g dx sqrt s.1 maxIter 0 true s.2).bind fun new => update p g dx sqrt maxIter n (new, s.1)

end

end MMSP.ConvexSplit
