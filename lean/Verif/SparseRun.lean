import Verif.SparsePF
/-!
# Runs of the anisotropic sparse phase-field examples

Model of `update` in `examples/coarsening/grain_growth/anisotropic/sparsePF/graingrowth.cpp` 87-186 and
`examples/coarsening/zener_pinning/anisotropic/sparsePF/zener.cpp` 99-200. The two differ in the mobility of pairs with field 0.
Simplifications are those of `Verif.SparsePF`; serial build.
-/

namespace MMSP.SparsePF

variable {α : Type} [Field α] [LinearOrder α]

/-- `zener_pinning/anisotropic/sparsePF/zener.cpp` 167-169: "set mobility of particles to zero" -/
def pinned (mobility : Int → Int → α) (h j : Int) : α := if h = 0 ∨ j = 0 then 0 else mobility h j

/-- One `step` of `anisotropic/sparsePF/graingrowth.cpp` 103-184 or, with the mobility `pinned mobility`, of `zener.cpp` 115-197: contents of `oldGrid` and `newGrid`
after `swap(oldGrid,newGrid)`. -/
def anisoStep (g : Shape) (dx : Nat → α) (dt : α) (energy mobility : Int → Int → α) (eps w : α → α) (grids : (Int → Sparse.Cell α) × (Int → Sparse.Cell α)) :
    Outcome ((Int → Sparse.Cell α) × (Int → Sparse.Cell α)) :=
  (sweep .serial g dx (fun _ => anisoNode dt energy mobility eps w) grids.1 grids.2).bind fun out => .ok (out, grids.1)

/-- `update(oldGrid, steps)`; `newGrid(oldGrid)` has empty cells (C48). -/
def anisoRun (g : Shape) (dx : Nat → α) (dt : α) (energy mobility : Int → Int → α) (eps w : α → α) :
    Nat → (Int → Sparse.Cell α) → Outcome ((Int → Sparse.Cell α) × (Int → Sparse.Cell α))
  | 0, data => .ok (data, fun _ => [])
  | n + 1, data => (anisoRun g dx dt energy mobility eps w n data).bind (anisoStep g dx dt energy mobility eps w)

end MMSP.SparsePF
