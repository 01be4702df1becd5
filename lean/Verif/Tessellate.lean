import Verif.ParallelRun
import Verif.PriorityQueue
import Verif.Sparse
/-!
# Voronoi tessellation

Model of `algorithms/tessellate.hpp` 25-56 (distance, seed buffers), 112-157 (`exact_voronoi`, compiled only with MPI), 161-219
(`propagate_distance`), 221-444 (`approximate_voronoi`, compiled only without MPI) and 446-498 (`tessellate` with its exchange
of seeds).

Simplifications: `dim` is at most 3, so that no subscript of a three-entry vector fails; progress output is left out; sizes of
buffers do not overflow `int`; arithmetic of distances that leaves `int` is undefined behaviour. Loops have fuel: `none` means
that the fuel did not last.
-/

namespace MMSP.Tessellate

open MMSP.Stencil MMSP.PriorityQueue

/-- A seed: `MMSP::vector<int>` of length 3. -/
structure Seed where
  x : Int
  y : Int
  z : Int
deriving DecidableEq, Repr

/-- `s[d]` -/
def Seed.at (s : Seed) : Nat → Int
  | 0 => s.x
  | 1 => s.y
  | _ => s.z

/-- `algorithms/tessellate.hpp` 25-29 -/
def radiussq (dim : Nat) (a b : Nat → Int) : Outcome Int :=
  let r := ∑ d ∈ Finset.range dim, (b d - a d) * (b d - a d)
  if r < 2 ^ 31 then .ok r else .ub

/-! ## Exchange of seeds -/

/-- `*p = v` in an array. -/
def put (q : List Int) (i : Nat) (v : Int) : Outcome (List Int) := if i < q.length then .ok (q.set i v) else .ub

/-- `q[i]` -/
def fetch (q : List Int) (i : Nat) : Outcome Int := match q[i]? with
  | some v => .ok v
  | none => .ub

/-- `algorithms/tessellate.hpp` 32-45: the array afterwards and the number returned. -/
def seedsToBuffer (vp : List Seed) (q : List Int) : Outcome (List Int × Nat) :=
  vp.foldlM (fun (st : List Int × Nat) s =>
    [0, 1, 2].foldlM (fun (st : List Int × Nat) d => (put st.1 st.2 (s.at d)).bind fun q => .ok (q, st.2 + 1)) st) (q, 0)

/-- `algorithms/tessellate.hpp` 51-56, from pointer `q + p` on. -/
def fromLoop (q : List Int) (size : Nat) (p : Nat) (vp : List Seed) : Outcome (List Seed) :=
  if p < size then
    (fetch q (p - 2)).bind fun a => (fetch q (p - 1)).bind fun b => (fetch q p).bind fun c =>
    fromLoop q size (p + 3) (vp ++ [⟨a, b, c⟩])
  else .ok vp
termination_by size - p

/-- `algorithms/tessellate.hpp` 48-57 -/
def seedsFromBuffer (vp : List Seed) (q : List Int) (size : Nat) : Outcome (List Seed) := fromLoop q size 2 vp

/-- `algorithms/tessellate.hpp` 458-460: the buffer and size one rank sends. -/
def sendBuffer (local' : List Seed) : Outcome (List Int × Nat) := seedsToBuffer local' (List.replicate (3 * local'.length) 0)

/-- `algorithms/tessellate.hpp` 466-467: `offsets[i]`. -/
def offset (sizes : List Nat) (i : Nat) : Nat := (sizes.take i).sum

/-- `recv[o .. o+n)` becomes the first `n` entries of `part`. -/
def splice (recv : List Int) (o n : Nat) (part : List Int) : List Int := recv.take o ++ part.take n ++ recv.drop (o + n)

/-- `MPI_Allgatherv` of `algorithms/tessellate.hpp` 470: the piece of rank `i` goes to `offsets[i]`. -/
def allgatherv (sends : List (List Int)) (sizes : List Nat) (recv : List Int) : List Int :=
  (List.range sends.length).foldl (fun r i => splice r (offset sizes i) (sizes.getD i 0) (sends.getD i [])) recv

/-- `algorithms/tessellate.hpp` 455-479 (MPI): `seeds` on every rank, given the local seeds of all ranks. `seeds` comes with one
empty entry more than there are ranks (586, 605). -/
def exchange (locals : List (List Seed)) : Outcome (List (List Seed)) :=
  (locals.mapM sendBuffer).bind fun sends =>
  let sizes := sends.map Prod.snd
  let block := allgatherv (sends.map Prod.fst) sizes (List.replicate sizes.sum 0)
  ((List.range locals.length).mapM fun i => seedsFromBuffer [] (block.drop (offset sizes i)) (sizes.getD i 0)).bind fun seeds =>
  .ok (seeds ++ [[]])

/-! ## Exact tessellation -/

/-- `algorithms/tessellate.hpp` 140: the seed after `check_boundary` on every axis. -/
def image (g : Shape) (s : Seed) : Nat → Int := fun d =>
  if d < g.dim then checkBoundary .mpi (s.at d) (g.x0 d) (g.x1 d) (g.b0 d) (g.b1 d) else s.at d

/-- `min_distance`, `min_identity`, `identity` -/
structure Best where
  distance : Int
  identity : Int
  count : Int

/-- `algorithms/tessellate.hpp` 135-138 and 143-146. -/
def Best.consider (b : Best) (distance : Int) : Best :=
  if distance < b.distance then { b with distance := distance, identity := b.count } else b

/-- `algorithms/tessellate.hpp` 131-147, one seed. -/
def Best.seed (g : Shape) (x : Nat → Int) (b : Best) (s : Seed) : Outcome Best :=
  let b := { b with count := b.count + 1 }
  (radiussq g.dim x s.at).bind fun r =>
  let b := b.consider r
  if (List.range 3).all fun d => image g s d == s.at d then .ok b else
  (radiussq g.dim x (image g s)).bind fun r => .ok (b.consider r)

/-- `algorithms/tessellate.hpp` 126-149: `min_identity` for the node at `x`. -/
def nodeIdentity (g : Shape) (seeds : List (List Seed)) (x : Nat → Int) : Outcome Int :=
  (seeds.foldlM (fun (b : Best) (rank : List Seed) => rank.foldlM (Best.seed g x) b) (⟨2 ^ 31 - 1, -1, -1⟩ : Best)).bind fun b => .ok b.identity

/-- `algorithms/tessellate.hpp` 112-157 -/
def exactVoronoi {T : Type} [Zero T] [One T] (g : Shape) (seeds : List (List Seed)) (data : Int → Sparse.Cell T) :
    Outcome (Int → Sparse.Cell T) :=
  (List.range g.nodes.toNat).foldlM (fun data (n : Nat) =>
    (nodeIdentity g seeds (g.position n)).bind fun i =>
    (deref g data (g.atNode .mpi n)).bind fun c =>
    store g data (g.atNode .mpi n) (Sparse.update c i fun _ => 1)) data

/-- `algorithms/tessellate.hpp` 446-498 with MPI, on the rank with grid `g`: exchange of the seeds, then exact tessellation. -/
def tessellateMpi {T : Type} [Zero T] [One T] (g : Shape) (locals : List (List Seed)) (data : Int → Sparse.Cell T) :
    Outcome (Int → Sparse.Cell T) :=
  (exchange locals).bind fun seeds => exactVoronoi g seeds data

/-- `algorithms/tessellate.hpp` 543-560 with MPI: of the seeds read from the file (same on every rank), those a rank keeps. -/
def localSeeds (g : Shape) (file : List Seed) : List Seed :=
  file.filter fun s => (List.range g.dim).all fun d => !(decide (s.at d < g.x0 d) || decide (s.at d ≥ g.x1 d))

/-! ## Fast marching -/

/-- `algorithms/tessellate.hpp` 68-97: `DistanceVoxel`. -/
structure Voxel where
  x : Nat → Int
  value : Int
  id : Int

/-- The distance grid and the queue, which holds pointers to voxels (their array indices). -/
structure State where
  data : Int → Voxel
  queue : PQ Int

/-- `while (test) f` -/
def whileLoop {α : Type} (test : α → Bool) (f : α → Outcome (Option α)) : Nat → α → Outcome (Option α)
  | 0, a => if test a then .ok none else .ok (some a)
  | n + 1, a => if test a then (f a).bind fun r => match r with
      | none => .ok none
      | some a => whileLoop test f n a
    else .ok (some a)

/-- Go on if the first part finished. -/
def andThen {α β : Type} (o : Outcome (Option α)) (f : α → Outcome (Option β)) : Outcome (Option β) := o.bind fun r => match r with
  | none => .ok none
  | some a => f a

/-- `algorithms/tessellate.hpp` 177-184 (205-213 in 3D). -/
def visit (g : Shape) (pos : Nat → Int) (core id : Int) (p : Nat → Int) (st : State) : Outcome State :=
  (radiussq g.dim pos p).bind fun r =>
  if core + r ≥ 2 ^ 31 then .ub else
  let e := g.atVec .serial p
  (deref g st.data e).bind fun v =>
  if v.value > core + r then
    let data := Function.update st.data e { v with value := core + r, id := id }
    let key := fun e => (data e).value
    (if st.queue.inHeap e then st.queue.updatePosition key e else st.queue.push key e).bind fun q => .ok ⟨data, q⟩
  else .ok st

/-- `p[d]` of all axes after `check_boundary`, `algorithms/tessellate.hpp` 174 (201). -/
def checked (g : Shape) (p : Nat → Int) : Nat → Int := fun d =>
  if d < g.dim then checkBoundary .serial (p d) (g.x0 d) (g.x1 d) (g.b0 d) (g.b1 d) else p d

/-- `algorithms/tessellate.hpp` 172-184 (199-213): the body of the innermost loop; `p` is a loop variable that the body changes. -/
def body (g : Shape) (pos : Nat → Int) (core id : Int) (a : (Nat → Int) × State) : Outcome ((Nat → Int) × State) :=
  if (List.range g.dim).all fun d => a.1 d == pos d then .ok a else
  let p := checked g a.1
  if (List.range g.dim).any fun d => decide (p d < g.x0 d) || decide (p d ≥ g.x1 d) then .ok (p, a.2) else
  (visit g pos core id p a.2).bind fun st => .ok (p, st)

/-- `algorithms/tessellate.hpp` 170-186 (196-217): the loops over the last `k` axes. -/
def scan (g : Shape) (pos : Nat → Int) (core id : Int) (fuel : Nat) : Nat → (Nat → Int) × State → Outcome (Option ((Nat → Int) × State))
  | 0, a => (body g pos core id a).bind fun a => .ok (some a)
  | k + 1, a =>
    whileLoop (fun a => decide (a.1 (g.dim - (k + 1)) < pos (g.dim - (k + 1)) + 2))
      (fun a => andThen (scan g pos core id fuel k a) fun a => .ok (some (bump a.1 (g.dim - (k + 1)) 1, a.2)))
      fuel (Function.update a.1 (g.dim - (k + 1)) (pos (g.dim - (k + 1)) - 1), a.2)

/-- `algorithms/tessellate.hpp` 161-219 for the voxel at array index `e`. -/
def propagate (g : Shape) (fuel : Nat) (e : Int) (st : State) : Outcome (Option State) :=
  (deref g st.data e).bind fun core =>
  (deref g st.data (g.atVec .serial core.x)).bind fun v =>
  andThen (scan g core.x v.value v.id fuel g.dim (core.x, st)) fun a => .ok (some a.2)

/-- `algorithms/tessellate.hpp` 237-247 (322-335): all distances `INT_MAX`. -/
def initial (g : Shape) : State := ⟨fun i => ⟨g.position i, 2 ^ 31 - 1, 0⟩, empty⟩

/-- `algorithms/tessellate.hpp` 255-263 (343-351), from seed number `i` on. -/
def seedLoop (g : Shape) (fuel : Nat) : Nat → List Seed → State → Outcome (Option State)
  | _, [], st => .ok (some st)
  | i, s :: ss, st =>
    if (List.range g.dim).any fun d => decide (s.at d ≥ g.x1 d) || decide (s.at d < g.x0 d) then .abort 134 else
    let e := g.atVec .serial s.at
    (deref g st.data e).bind fun v =>
    andThen (propagate g fuel e ⟨Function.update st.data e { v with value := 0, id := i }, st.queue⟩) fun st =>
    seedLoop g fuel (i + 1) ss st

/-- `algorithms/tessellate.hpp` 266-270 (354-358). -/
def march (g : Shape) (fuel : Nat) (st : State) : Outcome (Option State) :=
  whileLoop (fun st => decide (st.queue.size ≠ 0)) (fun st =>
    st.queue.top.bind fun e =>
    (st.queue.pop fun e => (st.data e).value).bind fun q =>
    propagate g fuel e ⟨st.data, q⟩) fuel st

/-- `algorithms/tessellate.hpp` 221-444 without MPI, on a grid with limits `x0`, `x1`: the distance grid is constructed with the
default boundary conditions. -/
def approximateVoronoi (dim : Nat) (x0 x1 : Nat → Int) (seeds : List Seed) (fuel : Nat) : Outcome (Option State) :=
  if dim = 2 ∨ dim = 3 then
    let g : Shape := ⟨dim, x0, x1, fun _ => .periodic, fun _ => .periodic, 0⟩
    andThen (seedLoop g fuel 0 seeds (initial g)) fun st =>
    andThen (march g fuel st) fun st => march g fuel st
  else .abort 1

end MMSP.Tessellate
