import Verif.Conserve
import Verif.Relax
/-!
# Gaussian noise

Model of `gaussian` (the polar method with a saved second number), which stands three times in the same words: `examples/phase_transitions/model_A/model_A.cpp` 13-39,
`examples/phase_transitions/model_B/model_B.cpp` 13-39 and `examples/phase_transitions/spinodal/spinodal.cpp` 13-39, and of the update loop of the spinodal example, spinodal.cpp 72-106.

Simplifications: `double` is a linearly ordered field (exact arithmetic); `sqrt` and `log` are parameters; `rand()` reads a stream of integers, `RAND_MAX` is a parameter.
-/

namespace MMSP.Noise

variable {α : Type} [Field α] [LinearOrder α]

/-- What `gaussian` takes from the C library: `rand n` is the result of call number `n` of `rand()`. -/
structure Lib (α : Type) where
  rand : Nat → Int
  randMax : Int
  sqrt : α → α
  log : α → α

/-- The static variables of `gaussian` (spinodal.cpp 16-18) and the number of calls of `rand()` made so far. -/
structure State (α : Type) where
  u : α
  v : α
  saved : Bool
  calls : Nat

/-- Initial values, spinodal.cpp 16-18. -/
def start : State α := ⟨0, 0, false, 0⟩

/-- `2.0*double(rand())/double(RAND_MAX)-1.0`, spinodal.cpp 22-23 -/
def uniform (L : Lib α) (n : Nat) : α := 2 * (L.rand n : α) / (L.randMax : α) - 1

/-- spinodal.cpp 22-27: the point and its squared distance, if it is accepted in `fuel` attempts, and the calls made. -/
def pick (L : Lib α) : Nat → Nat → Option ((α × α × α) × Nat)
  | 0, _ => none
  | fuel + 1, n =>
    let x := uniform L n
    let y := uniform L (n + 1)
    let r := x * x + y * y
    if r ≤ 0 ∨ r > 1 then pick L fuel (n + 2) else some ((x, y, r), n + 2)

/-- `gaussian(ave, std)`, spinodal.cpp 13-39; `none` when the loop is still running after `fuel` attempts. -/
def gaussian (L : Lib α) (fuel : Nat) (ave std : α) (s : State α) : Option (α × State α) :=
  if s.saved then some (ave + s.v * std, { s with saved := false })
  else (pick L fuel s.calls).bind fun (p, n) =>
    let d := L.sqrt (-2 * L.log p.2.2 / p.2.2)
    some (ave + d * p.1 * std, ⟨d * p.1, d * p.2.1, true, n⟩)

/-- The numbers of `n` calls one after the other. -/
def series (L : Lib α) (fuel : Nat) (ave std : α) : Nat → State α → Option (List α × State α)
  | 0, s => some ([], s)
  | n + 1, s => (gaussian L fuel ave std s).bind fun (x, s) => (series L fuel ave std n s).bind fun (xs, s) => some (x :: xs, s)

/-- The noise of model_A.cpp 94-99 at node `i` of step `t`: the calls are made node by node, step by step. -/
def noiseOf (nodes : Int) (xs : List α) (t : Nat) (i : Int) : α := xs.getD (t * nodes.toNat + i.toNat) 0

/-! ## The spinodal example -/

/-- spinodal.cpp 94: `-phi+pow(phi,3)-laplacian(oldGrid,i)+noise` -/
def spinodalPotential (phi l noise : α) : α := -phi + phi ^ 3 - l + noise

/-- `update(oldGrid, steps)`, spinodal.cpp 72-106; `noise t i` is the number drawn in step `t` at node `i`. -/
def spinodal (g : Shape) (dx : Nat → α) (dt dV : α) (noise : Nat → Int → α) (n : Nat) (s : Conserve.Fields α) : Outcome (Conserve.Fields α) :=
  Conserve.update g dx (fun t i phi l => spinodalPotential phi l (noise t i)) (dt / (2 * dV)) n s

end MMSP.Noise
