import Verif.Stencil
import Mathlib.Algebra.Order.Field.Basic
import Mathlib.Algebra.Order.Group.Unbundled.Abs
/-!
# Sparse phase fields

Model of `interface_field_evolves` (`algorithms/evolvers.cpp` 16-87) and of the update loops of
`examples/coarsening/grain_growth/isotropic/sparsePF/graingrowth.cpp` 58-120, `examples/coarsening/zener_pinning/isotropic/sparsePF/zener.cpp` 98-165 and
`examples/coarsening/grain_growth/anisotropic/sparsePF/graingrowth.cpp` 87-186.

Simplifications: the value type is any linearly ordered field (exact arithmetic); literals such as `1.0e-8` are that rational number; loops over the indices stored in a
sparse cell that the loop does not change are folds over the list of its entries; `energy` and `mobility` are functions of two indices (C45); progress output is left out.
-/

namespace MMSP.SparsePF

open Stencil (gridAt bump laplacianSparse)

/-- The set of fields listed at a node or its neighbours: `algorithms/evolvers.cpp` 26-35, `isotropic/sparsePF/graingrowth.cpp` 79-90 (where the entries are `bool`). -/
def nearby {α : Type} (bd : Build) (g : Shape) (data : Int → Sparse.Cell α) (x : Nat → Int) : Outcome (Sparse.Cell Int) :=
  (List.range g.dim).foldlM (fun s (j : Nat) => [-1, 0, 1].foldlM (fun s (k : Int) => (gridAt bd g data (bump x j k)).bind fun c =>
    .ok (c.foldl (fun s e => Sparse.update s e.1 fun _ => 1) s)) s) []

variable {α : Type} [Field α] [LinearOrder α]

/-- `1.0e-8` -/
def tiny : α := 1 / 10 ^ 8

/-! ## Isotropic example -/

/-- `isotropic/sparsePF/graingrowth.cpp` 102-106 -/
def squares (y : Sparse.Cell α) : α := y.foldl (fun sum e => sum + e.2 * e.2) 0

/-- `isotropic/sparsePF/graingrowth.cpp` 111-112 -/
def isoValue (dt : α) (lap y : Sparse.Cell α) (i : Int) : α :=
  let phi := Sparse.get y i
  phi - dt * (-phi - phi ^ 3 + 2 * (phi * squares y - Sparse.get lap i))

/-- Contents of `newGrid(n)` after one pass over the node, `isotropic/sparsePF/graingrowth.cpp` 92-115; `y` is `oldGrid(n)`, `z` is `newGrid(n)` before. -/
def isoNode (dt : α) (s : Sparse.Cell Int) (lap y z : Sparse.Cell α) : Sparse.Cell α :=
  if s.length < 2 then y
  else s.foldl (fun z e => if isoValue dt lap y e.1 > tiny then Sparse.update z e.1 fun _ => isoValue dt lap y e.1 else z) z

/-- The same in `zener_pinning/isotropic/sparsePF/zener.cpp` 132-159; `n` is the number of the node. -/
def zenerNode (dt : α) (n : Nat) (s : Sparse.Cell Int) (lap y z : Sparse.Cell α) : Sparse.Cell α :=
  if s.length < 2 then y
  else s.foldl (fun z e =>
    if n = 0 then Sparse.update z e.1 fun _ => Sparse.get y e.1
    else if isoValue dt lap y e.1 > tiny then Sparse.update z e.1 fun _ => isoValue dt lap y e.1 else z) z

/-! ## Pairwise interaction -/

/-- `for (h) for (j = h+1; …)` over the listed indices. -/
def pairs {β : Type} (f : β → Int → Int → β) : List Int → β → β
  | [], b => b
  | h :: t, b => pairs f t (t.foldl (fun b j => f b h j) b)

/-- `algorithms/evolvers.cpp` 52-53, `anisotropic/sparsePF/graingrowth.cpp` 140-141; `e` is `0.5*eps*eps`. -/
def force2 (e w : Int → Int → α) (lap y d : Sparse.Cell α) (h j : Int) : Sparse.Cell α :=
  let d := Sparse.update d h fun v => v + (e h j * Sparse.get lap j + w h j * Sparse.get y j)
  Sparse.update d j fun v => v + (e h j * Sparse.get lap h + w h j * Sparse.get y h)

/-- `algorithms/evolvers.cpp` 46-55 -/
def forces2 (e w : Int → Int → α) (lap y : Sparse.Cell α) (s : List Int) : Sparse.Cell α := pairs (force2 e w lap y) s []

/-- `anisotropic/sparsePF/graingrowth.cpp` 143-146 -/
def force3 (y d : Sparse.Cell α) (h j k : Int) : Sparse.Cell α :=
  let d := Sparse.update d h fun v => v + 3 * Sparse.get y j * Sparse.get y k
  let d := Sparse.update d j fun v => v + 3 * Sparse.get y k * Sparse.get y h
  Sparse.update d k fun v => v + 3 * Sparse.get y h * Sparse.get y j

/-- `anisotropic/sparsePF/graingrowth.cpp` 135-148, the loops over `j` and `k` -/
def forcesFrom (e w : Int → Int → α) (lap y : Sparse.Cell α) (h : Int) : List Int → Sparse.Cell α → Sparse.Cell α
  | [], d => d
  | j :: t, d => forcesFrom e w lap y h t (t.foldl (fun d k => force3 y d h j k) (force2 e w lap y d h j))

/-- `anisotropic/sparsePF/graingrowth.cpp` 132-149 -/
def forces3 (e w : Int → Int → α) (lap y : Sparse.Cell α) : List Int → Sparse.Cell α → Sparse.Cell α
  | [], d => d
  | h :: t, d => forces3 e w lap y t (forcesFrom e w lap y h t d)

/-- `algorithms/evolvers.cpp` 63-64, `anisotropic/sparsePF/graingrowth.cpp` 158-159 -/
def rate2 (mu : Int → Int → α) (dF d : Sparse.Cell α) (h j : Int) : Sparse.Cell α :=
  let d := Sparse.update d h fun v => v - mu h j * (Sparse.get dF h - Sparse.get dF j)
  Sparse.update d j fun v => v - mu h j * (Sparse.get dF j - Sparse.get dF h)

/-- `algorithms/evolvers.cpp` 58-66 -/
def rates (mu : Int → Int → α) (dF : Sparse.Cell α) (s : List Int) : Sparse.Cell α := pairs (rate2 mu dF) s []

/-- `algorithms/evolvers.cpp` 72 -/
def freeValue (dt S : α) (y dp : Sparse.Cell α) (i : Int) : α := Sparse.get y i + dt * (2 / S) * Sparse.get dp i

/-- `algorithms/evolvers.cpp` 73-74 -/
def clamp (v : α) : α :=
  let v := if v > 1 then 1 else v
  if v < 0 then 0 else v

/-- `algorithms/evolvers.cpp` 69-77: new cell and `sum`. -/
def assign (value : Int → α) (s : List Int) (z : Sparse.Cell α) : Sparse.Cell α × α :=
  s.foldl (fun (a : Sparse.Cell α × α) i =>
    let z := if clamp (value i) > tiny then Sparse.update a.1 i fun _ => clamp (value i) else a.1
    (z, a.2 + Sparse.get z i)) (z, 0)

/-- `algorithms/evolvers.cpp` 80-85; the loop is that of `operator*=`. -/
def project (a : Sparse.Cell α × α) : Sparse.Cell α :=
  Sparse.mulEq a.1 (if |a.2| > 0 then 1 / a.2 else 0)

/-- `algorithms/evolvers.cpp` 36-86, `anisotropic/sparsePF/graingrowth.cpp` 121-181: contents of `latter(node)`; `y` is `former(node)`, `z` is `latter(node)` before,
`dF` the computed `dFdp`. -/
def pairNode (dF : Sparse.Cell α) (mu : Int → Int → α) (dt : α) (s : Sparse.Cell Int) (y z : Sparse.Cell α) : Sparse.Cell α :=
  if s.length < 2 then y
  else
    let dp := rates mu dF (s.map Prod.fst)
    project (assign (freeValue dt (s.length : α) y dp) (s.map Prod.fst) z)

/-- `interface_field_evolves`, `algorithms/evolvers.cpp` 36-86, after the neighbourhood `s` and the Laplacian were computed. -/
def evolveNode (dt epsilon w mu : α) (s : Sparse.Cell Int) (lap y z : Sparse.Cell α) : Sparse.Cell α :=
  pairNode (forces2 (fun _ _ => 1 / 2 * epsilon * epsilon) (fun _ _ => w) lap y (s.map Prod.fst)) (fun _ _ => mu) dt s y z

/-- The node update of `anisotropic/sparsePF/graingrowth.cpp` 121-181; `eps gamma` and `w gamma` are 138-139 with `gamma = energy(h,j)`. -/
def anisoNode (dt : α) (energy mobility : Int → Int → α) (eps w : α → α) (s : Sparse.Cell Int) (lap y z : Sparse.Cell α) : Sparse.Cell α :=
  pairNode (forces3 (fun h j => 1 / 2 * eps (energy h j) * eps (energy h j)) (fun h j => w (energy h j)) lap y (s.map Prod.fst) []) mobility dt s y z

/-! ## Grids -/

/-- `for (int n=0; n<nodes(oldGrid); n++)` with a body that reads the old grid and changes the cell `newGrid(n)`: `f` is what becomes of `newGrid(n)`, given its number,
neighbourhood, Laplacian (only computed for two fields or more), old and new cell. -/
def sweep (bd : Build) (g : Shape) (dx : Nat → α) (f : Nat → Sparse.Cell Int → Sparse.Cell α → Sparse.Cell α → Sparse.Cell α → Sparse.Cell α)
    (old new : Int → Sparse.Cell α) : Outcome (Int → Sparse.Cell α) :=
  (List.range g.nodes.toNat).foldlM (fun out (i : Nat) =>
    (nearby bd g old (g.position i)).bind fun s =>
    (deref g old (g.atNode bd i)).bind fun y =>
    (deref g out (g.atNode bd i)).bind fun z =>
    (if s.length < 2 then .ok [] else laplacianSparse bd g dx old (g.position i)).bind fun lap =>
    store g out (g.atNode bd i) (f i s lap y z)) new

/-- One `step` of `isotropic/sparsePF/graingrowth.cpp` 72-119 in a serial build: contents of `oldGrid` and `newGrid` after `swap(oldGrid,newGrid)`. -/
def isoStep (g : Shape) (dx : Nat → α) (dt : α) (grids : (Int → Sparse.Cell α) × (Int → Sparse.Cell α)) : Outcome ((Int → Sparse.Cell α) × (Int → Sparse.Cell α)) :=
  (sweep .serial g dx (fun _ => isoNode dt) grids.1 grids.2).bind fun out => .ok (out, grids.1)

/-- `update(oldGrid, steps)`, `isotropic/sparsePF/graingrowth.cpp` 58-120, serial build: `newGrid(oldGrid)` has empty cells (C48). -/
def isoRun (g : Shape) (dx : Nat → α) (dt : α) : Nat → (Int → Sparse.Cell α) → Outcome ((Int → Sparse.Cell α) × (Int → Sparse.Cell α))
  | 0, data => .ok (data, fun _ => [])
  | n + 1, data => (isoRun g dx dt n data).bind (isoStep g dx dt)

end MMSP.SparsePF
