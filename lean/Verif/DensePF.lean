import Verif.SparsePF
/-!
# Dense phase fields

Model of the update loops of the four examples on `grid<dim,vector<T> >`: `examples/coarsening/grain_growth/isotropic/phase_field/graingrowth.cpp` 73-111,
`examples/coarsening/zener_pinning/isotropic/phase_field/zener.cpp` 104-142, `examples/coarsening/grain_growth/anisotropic/phase_field/graingrowth.cpp` 94-190 and
`examples/coarsening/zener_pinning/anisotropic/phase_field/zener.cpp` 105-203.

Simplifications: `T` and `double` are one linearly ordered field (exact arithmetic); `energy` and `mobility` are functions of two indices (C45), `eps` and `w` functions of
the energy; a loop `for (h=0; h<fields; h++) if (s[h]>0.0)` is a loop over the list of the marked field numbers in ascending order, and `S` is its length; progress output
is left out. Field numbers are `Int` (C++ `int`).
-/

namespace MMSP.DensePF

open Stencil (gridAt bump elem laplacianVec)
open SparsePF (pairs clamp)

variable {α : Type} [Field α] [LinearOrder α]

/-- Entry `k` of a cell as a number, 0 outside; only used where `checked` found the cell long enough. -/
def entry (c : List α) (k : Int) : α := if 0 ≤ k then c.getD k.toNat 0 else 0

/-- Stands for the assertions of `operator[]` in a loop over all `n` fields: `include/MMSP.vector.h` 29-36. -/
def checked (n : Nat) (c : List α) : Outcome (Int → α) := if n ≤ c.length then .ok (entry c) else .abort 134

/-- `newGrid(i)[h] = v(h)` for all `h < n`; entries past `fields(GRID)` stay. -/
def fill (n : Nat) (v : Int → α) (z : List α) : Outcome (List α) :=
  if n ≤ z.length then .ok ((List.range n).map (fun h : Nat => v (h : Int)) ++ z.drop n) else .abort 134

/-! ## Isotropic examples -/

/-- Sum of squares, `isotropic/phase_field/graingrowth.cpp` 97-101 -/
def squares (n : Nat) (phi : Int → α) : α := (List.range n).foldl (fun sum (j : Nat) => sum + phi j * phi j) 0

/-- `isotropic/phase_field/graingrowth.cpp` 105 -/
def isoValue (dt : α) (n : Nat) (lap phi : Int → α) (j : Int) : α :=
  phi j - dt * (-phi j - phi j ^ 3 + 2 * (phi j * squares n phi - lap j))

/-- `zener_pinning/isotropic/phase_field/zener.cpp` 134-137 -/
def zenerValue (dt : α) (n : Nat) (lap phi : Int → α) (j : Int) : α :=
  if j = 0 then phi j else isoValue dt n lap phi j

/-- Body of the node loop, `isotropic/phase_field/graingrowth.cpp` 91-107 and `zener_pinning/isotropic/phase_field/zener.cpp` 121-139; `value` is `isoValue` or
`zenerValue`, `old` is `oldGrid`, `z` is the cell `newGrid(i)` before. -/
def isoCell (bd : Build) (g : Shape) (n : Nat) (dx : Nat → α) (value : (Int → α) → (Int → α) → Int → α) (old : Int → List α) (i : Int) (z : List α) : Outcome (List α) :=
  (deref g old (g.atNode bd i)).bind fun y =>
  (laplacianVec bd g n dx old (g.position i)).bind fun l =>
  (checked n y).bind fun phi =>
  (checked n l).bind fun lap =>
  fill n (value lap phi) z

/-! ## Anisotropic examples -/

/-- Whether field `h` is positive at the node or a neighbour, `anisotropic/phase_field/graingrowth.cpp` 119-128: the loops stop at the first hit. -/
def near (bd : Build) (g : Shape) (old : Int → List α) (x : Nat → Int) (h : Nat) : Outcome Bool :=
  (List.range g.dim).foldlM (fun s (j : Nat) => [-1, 0, 1].foldlM (fun s (k : Int) =>
    if s then .ok true
    else (gridAt bd g old (bump x j k)).bind fun c => (elem c h).bind fun v => .ok (decide (v > 0))) s) false

/-- The marked fields, `anisotropic/phase_field/graingrowth.cpp` 116-130. -/
def marked (bd : Build) (g : Shape) (n : Nat) (old : Int → List α) (x : Nat → Int) : Outcome (List Int) :=
  (List.range n).foldlM (fun s (h : Nat) => (near bd g old x h).bind fun b => .ok (if b then s ++ [(h : Int)] else s)) []

/-- `anisotropic/phase_field/graingrowth.cpp` 149-150; `e` is `0.5*eps*eps`. -/
def force2 (e w : Int → Int → α) (lap y d : Int → α) (h j : Int) : Int → α :=
  let d := Function.update d h (d h + (e h j * lap j + w h j * y j))
  Function.update d j (d j + (e h j * lap h + w h j * y h))

/-- `anisotropic/phase_field/graingrowth.cpp` 153-155 -/
def force3 (y d : Int → α) (h j k : Int) : Int → α :=
  let d := Function.update d h (d h + 3 * y j * y k)
  let d := Function.update d j (d j + 3 * y k * y h)
  Function.update d k (d k + 3 * y h * y j)

/-- `anisotropic/phase_field/graingrowth.cpp` 144-157, the loops over `j` and `k` -/
def forcesFrom (e w : Int → Int → α) (lap y : Int → α) (h : Int) : List Int → (Int → α) → Int → α
  | [], d => d
  | j :: t, d => forcesFrom e w lap y h t (t.foldl (fun d k => force3 y d h j k) (force2 e w lap y d h j))

/-- `anisotropic/phase_field/graingrowth.cpp` 142-157 -/
def forces3 (e w : Int → Int → α) (lap y : Int → α) : List Int → (Int → α) → Int → α
  | [], d => d
  | h :: t, d => forces3 e w lap y t (forcesFrom e w lap y h t d)

/-- `anisotropic/phase_field/graingrowth.cpp` 166-167 -/
def rate2 (mu : Int → Int → α) (dF d : Int → α) (h j : Int) : Int → α :=
  let d := Function.update d h (d h - mu h j * (dF h - dF j))
  Function.update d j (d j - mu h j * (dF j - dF h))

/-- `anisotropic/phase_field/graingrowth.cpp` 160-168 -/
def rates (mu : Int → Int → α) (dF : Int → α) (s : List Int) : Int → α := pairs (rate2 mu dF) s fun _ => 0

/-- The mobility used by the Zener example, `zener_pinning/anisotropic/phase_field/zener.cpp` 176-178. -/
def pinned (mobility : Int → Int → α) (h j : Int) : α := if h = 0 ∨ j = 0 then 0 else mobility h j

/-- `anisotropic/phase_field/graingrowth.cpp` 173-175 -/
def newValue (dt S : α) (y dp : Int → α) (h : Int) : α := clamp (y h + dt * (2 / S) * dp h)

/-- `anisotropic/phase_field/graingrowth.cpp` 171-178 -/
def sumOf (n : Nat) (v : Int → α) : α := (List.range n).foldl (fun sum (h : Nat) => sum + v h) 0

/-- `anisotropic/phase_field/graingrowth.cpp` 181-184 -/
def project (n : Nat) (v : Int → α) (h : Int) : α := v h * (if |sumOf n v| > 0 then 1 / sumOf n v else 0)

/-- The node update for two marked fields or more, `anisotropic/phase_field/graingrowth.cpp` 137-184. -/
def pairValues (dt : α) (n : Nat) (energy mu : Int → Int → α) (eps w : α → α) (s : List Int) (lap y : Int → α) : Int → α :=
  let dF := forces3 (fun h j => 1 / 2 * eps (energy h j) * eps (energy h j)) (fun h j => w (energy h j)) lap y s fun _ => 0
  project n (newValue dt (s.length : α) y (rates mu dF s))

/-- Body of the node loop, `anisotropic/phase_field/graingrowth.cpp` 111-186 and `zener_pinning/anisotropic/phase_field/zener.cpp` 122-199; `value` is `pairValues`. -/
def anisoCell (bd : Build) (g : Shape) (n : Nat) (dx : Nat → α) (value : List Int → (Int → α) → (Int → α) → Int → α) (old : Int → List α) (i : Int) (z : List α) : Outcome (List α) :=
  (marked bd g n old (g.position i)).bind fun s =>
  (deref g old (g.atNode bd i)).bind fun y =>
  if s.length < 2 then .ok y
  else
    (laplacianVec bd g n dx old (g.position i)).bind fun l =>
    (checked n l).bind fun lap =>
    (checked n y).bind fun phi =>
    fill n (value s lap phi) z

/-! ## Grids -/

/-- `for (int i=0; i<nodes(oldGrid); i++)`: `cell i z` is the new content of `newGrid(i)`, which was `z`. -/
def pass {V : Type} (bd : Build) (g : Shape) (cell : Int → V → Outcome V) (new : Int → V) : Outcome (Int → V) :=
  (List.range g.nodes.toNat).foldlM (fun out (i : Nat) =>
    (deref g out (g.atNode bd i)).bind fun z => (cell i z).bind fun v => store g out (g.atNode bd i) v) new

/-- The time loop in a serial build (`ghostswap` does nothing): the data of `oldGrid` and `newGrid` after `steps` steps; `cell old i z` is the body. -/
def run {V : Type} (g : Shape) (cell : (Int → V) → Int → V → Outcome V) : Nat → (Int → V) × (Int → V) → Outcome ((Int → V) × (Int → V))
  | 0, s => .ok s
  | n + 1, s => (run g cell n s).bind fun s => (pass .serial g (cell s.1) s.2).bind fun out => .ok (out, s.1)

/-- `update(oldGrid, steps)` of `isotropic/phase_field/graingrowth.cpp` 73-111 and (`value = zenerValue`) of `zener_pinning/isotropic/phase_field/zener.cpp` 104-142. -/
def isoRun (g : Shape) (n : Nat) (dx : Nat → α) (value : (Int → α) → (Int → α) → Int → α) (steps : Nat) (old new : Int → List α) : Outcome ((Int → List α) × (Int → List α)) :=
  run g (isoCell .serial g n dx value) steps (old, new)

/-- `update(oldGrid, steps)` of `anisotropic/phase_field/graingrowth.cpp` 94-190 (`mu` the mobility) and `zener_pinning/anisotropic/phase_field/zener.cpp` 105-203
(`mu = pinned mobility`). -/
def anisoRun (g : Shape) (n : Nat) (dx : Nat → α) (dt : α) (energy mu : Int → Int → α) (eps w : α → α) (steps : Nat) (old new : Int → List α) : Outcome ((Int → List α) × (Int → List α)) :=
  run g (anisoCell .serial g n dx (pairValues dt n energy mu eps w)) steps (old, new)

end MMSP.DensePF
