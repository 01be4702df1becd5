import Verif.Tessellate
/-!
# The generators of initial conditions

Model of `algorithms/generators.cpp`, which repeats much of `tessellate.hpp` (`Verif.Tessellate`): 59-72 (`seeds_from_buffer`), 127-184
(`propagate_distance`), 186-408 without MPI (`approximate_voronoi`), 410-448 (`seedswap`) and 576-601 (`tessellate`). Where the seeds come from is
the subject of `Verif.GeneratorsSeeds`.

Simplifications: those of `Verif.Tessellate`. The entry `seeds[id]` of the outer list is given directly where only that entry is used.
-/

namespace MMSP.Generators

open MMSP.Stencil MMSP.PriorityQueue
open MMSP.Tessellate (Seed State visit checked initial whileLoop andThen)

/-! ## Fast marching -/

/-- `algorithms/generators.cpp` 136-137 and 161-163: what the loops add to `position`, in their order. -/
def offsets : Nat → List (List Int)
  | 0 => [[]]
  | k + 1 => [-1, 0, 1].flatMap fun a => (offsets k).map (a :: ·)

/-- `x` in the loop. -/
def shift (pos : Nat → Int) (o : List Int) : Nat → Int := fun d => pos d + o.getD d 0

/-- `algorithms/generators.cpp` 138-151 (164-179): the body of the innermost loop; `p` is a copy of the loop variable. -/
def body (g : Shape) (pos : Nat → Int) (core id : Int) (st : State) (o : List Int) : Outcome State :=
  if (List.range g.dim).all fun d => shift pos o d == pos d then .ok st else
  let p := checked g (shift pos o)
  if (List.range g.dim).any fun d => decide (p d < g.x0 d) || decide (p d ≥ g.x1 d) then .ok st else
  visit g pos core id p st

/-- `algorithms/generators.cpp` 127-184 for the voxel at array index `e`. -/
def propagate (g : Shape) (e : Int) (st : State) : Outcome State :=
  (deref g st.data e).bind fun core =>
  (deref g st.data (g.atVec .serial core.x)).bind fun v =>
  (offsets g.dim).foldlM (body g core.x v.value v.id) st

/-- `algorithms/generators.cpp` 219-228 (313-322), from seed number `i` on. -/
def seedLoop (g : Shape) : Nat → List Seed → State → Outcome State
  | _, [], st => .ok st
  | i, s :: ss, st =>
    if (List.range g.dim).any fun d => decide (s.at d ≥ g.x1 d) || decide (s.at d < g.x0 d) then .abort 134 else
    let e := g.atVec .serial s.at
    (deref g st.data e).bind fun v =>
    (propagate g e ⟨Function.update st.data e { v with value := 0, id := i }, st.queue⟩).bind fun st =>
    seedLoop g (i + 1) ss st

/-- `algorithms/generators.cpp` 230-235 (324-329). -/
def march (g : Shape) (fuel : Nat) (st : State) : Outcome (Option State) :=
  whileLoop (fun st => decide (st.queue.size ≠ 0)) (fun st =>
    st.queue.top.bind fun e =>
    (st.queue.pop fun e => (st.data e).value).bind fun q =>
    (propagate g e ⟨st.data, q⟩).bind fun st => .ok (some st)) fuel st

/-- The distance grid: limits of the phase-field grid, default boundary conditions (200, 294). -/
def box (dim : Nat) (x0 x1 : Nat → Int) : Shape := ⟨dim, x0, x1, fun _ => .periodic, fun _ => .periodic, 0⟩

/-- `algorithms/generators.cpp` 186-408 without MPI up to the copy: the distance grid. `MMSP::Abort(-1)` for other dimensions. -/
def distances (dim : Nat) (x0 x1 : Nat → Int) (seeds : List Seed) (fuel : Nat) : Outcome (Option State) :=
  if dim = 2 ∨ dim = 3 then
    (seedLoop (box dim x0 x1) 0 seeds (initial (box dim x0 x1))).bind fun st =>
    andThen (march (box dim x0 x1) fuel st) fun st => march (box dim x0 x1) fuel st
  else .abort (-1)

/-- `algorithms/generators.cpp` 186-408 without MPI on the grid `g` with cells `data`; 291 and 393 are the copy. -/
def approximateVoronoi {T : Type} [Zero T] [One T] (g : Shape) (seeds : List Seed) (fuel : Nat) (data : Int → Sparse.Cell T) :
    Outcome (Option (Int → Sparse.Cell T)) :=
  andThen (distances g.dim g.x0 g.x1 seeds fuel) fun st =>
  ((List.range g.nodes.toNat).foldlM (fun data (n : Nat) =>
    (deref (box g.dim g.x0 g.x1) st.data ((box g.dim g.x0 g.x1).atNode .serial n)).bind fun v =>
    (deref g data (g.atNode .serial n)).bind fun c =>
    store g data (g.atNode .serial n) (Sparse.update c v.id fun _ => 1)) data).bind fun data => .ok (some data)

/-! ## Exchange of seeds -/

/-- `algorithms/generators.cpp` 410-448 (MPI): `seeds` on rank `r` afterwards, given `seeds[id]` of all ranks. Before, rank `r` has its own list in
`seeds[r]`, and empty lists in the other `np` entries. -/
def seedswap (locals : List (List Seed)) (r : Nat) : Outcome (List (List Seed)) :=
  (locals.mapM Tessellate.sendBuffer).bind fun sends =>
  let sizes := sends.map Prod.snd
  let block := Tessellate.allgatherv (sends.map Prod.fst) sizes (List.replicate sizes.sum 0)
  ((List.range locals.length).mapM fun i =>
    Tessellate.seedsFromBuffer (if i = r then locals.getD r [] else []) (block.drop (Tessellate.offset sizes i)) (sizes.getD i 0)).bind fun seeds =>
  .ok (seeds ++ [[]])

/-- `algorithms/generators.cpp` 576-601 with MPI, on rank `r` with grid `g`. Its `exact_voronoi` (81-125) is that of `tessellate.hpp` 115-157, line by line. -/
def tessellateMpi {T : Type} [Zero T] [One T] (g : Shape) (locals : List (List Seed)) (r : Nat) (data : Int → Sparse.Cell T) :
    Outcome (Int → Sparse.Cell T) :=
  (seedswap locals r).bind fun seeds => Tessellate.exactVoronoi g seeds data

end MMSP.Generators
