import Verif.Convert
import Verif.Global
/-!
# Grain sizes

Model of `algorithms/grainsize.hpp`.

Simplifications. The header was written for an older grid class (`grid<int>` instead of `grid<dim,int>`, `MMSP.grid.hpp`); the model is of the function
bodies with today's `grid`, `sparse` and `global`. Counts are unbounded integers (a count is at most the number of nodes, an `int`). The value type is any linear
order (no NaN) with 0.
-/

namespace MMSP.GrainSize

/-- `algorithms/grainsize.hpp` 30-32 (and 60-69, 98-109): `id` is the domain of a cell, `none` when the node is passed over. -/
def countNodes {T : Type} (bd : Build) (g : Shape) (id : T → Outcome (Option Int)) (data : Int → T) : Outcome (Sparse.Cell Int) :=
  (List.range g.nodes.toNat).foldlM (fun s (i : Nat) => (deref g data (g.atNode bd i)).bind fun cell => (id cell).bind fun k =>
    .ok (match k with | some k => Sparse.update s k fun n => n + 1 | none => s)) []

/-- `algorithms/grainsize.hpp` 32 -/
def intId (v : Int) : Outcome (Option Int) := .ok (some v)

variable {α : Type}

/-- `algorithms/grainsize.hpp` 61-67 -/
def vectorId [LinearOrder α] (c : List α) : Outcome (Option Int) :=
  (Convert.vecGet c 0).bind fun v =>
  ((List.range (c.length - 1)).foldlM (fun (a : Int × α) (i : Nat) => (Convert.vecGet c ((i : Int) + 1)).bind fun value =>
    .ok (if value > a.2 then ((i : Int) + 1, value) else a)) (0, v)).bind fun r => .ok (some r.1)

/-- `algorithms/grainsize.hpp` 99-106 -/
def sparseId [LinearOrder α] [Zero α] (c : Sparse.Cell α) : Outcome (Option Int) :=
  if c.length > 0 then (Convert.dominantSparse c).bind fun k => .ok (some k) else .ok none

/-- `operator+=` is what `global(grainsize,"sum")` uses, `algorithms/grainsize.hpp` 35; `min` and `max` are not used. -/
def ops : Global.Ops (Sparse.Cell Int) := ⟨Sparse.addEq, Sparse.min, Sparse.max⟩

end MMSP.GrainSize
