import Verif.Spin
import Verif.Sparse
import Mathlib.Algebra.Order.Field.Basic
/-!
# Grain topology

Model of `utility/mmsp2topo.cpp` (31-60 `check_neighbors`, 139-221 the loops over the nodes, 293-305 the analysis of the grains) and of the class `Grain`
(`algorithms/topology/topology.hpp` 23-120, `algorithms/topology/topology.cpp` 8-203).

Simplifications. `float` arithmetic is exact, in any linearly ordered field. `std::set<id_type>` is the ascending list of its elements; `std::map`s from grain numbers are partial
functions; sets of sets and the map of edges are lists without repeated keys, in order of insertion (nothing computed here depends on the order). `checkFaces` sets `face_check`
and then loops while it is not set (`topology.cpp` 115-123): it has no effect and is left out. A serial build. Volumes, averages and the text written are left out, apart from the
condition for a line (`topology.cpp` 248) and the centroid of excluded grains.
-/

namespace MMSP.Topology

open Stencil (gridAt)

/-! ## Sets -/

/-- `std::set<id_type>` -/
abbrev Ids := List Nat

/-- `set.insert(i)` -/
def insertId (i : Nat) : Ids → Ids
  | [] => [i]
  | a :: s => if i < a then i :: a :: s else if i = a then a :: s else a :: insertId i s

/-- Conversion of `int` to `id_type`, `unsigned short`: `topology.hpp` 23 -/
def toId (i : Int) : Nat := (i % 65536).toNat

/-! ## Grains -/

/-- `class Grain`, `topology.hpp` 106-118. `moment` is `centroid` before the division by the volume; every edge has its list of points. -/
structure Grain (α : Type) where
  volume : α
  moment : Nat → α
  faces : Ids
  edges : List (Ids × List (Nat → Int))
  vertices : List Ids

variable {α : Type} [Field α] [LinearOrder α]

/-- `Grain::Grain`, `topology.cpp` 8-15 -/
def fresh : Grain α := ⟨0, fun _ => 0, [], [], []⟩

/-- `addMass`, `topology.hpp` 77-80 -/
def Grain.addMass (v : α) (x : Nat → Int) (gr : Grain α) : Grain α := { gr with volume := gr.volume + v, moment := fun j => gr.moment j + v * (x j : α) }

/-- `edges[e].push_back(p)` -/
def pushEdge (e : Ids) (x : Nat → Int) : List (Ids × List (Nat → Int)) → List (Ids × List (Nat → Int))
  | [] => [(e, [x])]
  | a :: s => if a.1 = e then (a.1, a.2 ++ [x]) :: s else a :: pushEdge e x s

/-- `updateEdges`, `topology.hpp` 87-89 -/
def Grain.updateEdges (e : Ids) (x : Nat → Int) (gr : Grain α) : Grain α := { gr with edges := pushEdge e x gr.edges }

/-- `vertices.insert(v)` -/
def insertSet (v : Ids) (vs : List Ids) : List Ids := if v ∈ vs then vs else vs ++ [v]

/-- `updateVertices`, `topology.hpp` 90-92 -/
def Grain.updateVertices (v : Ids) (gr : Grain α) : Grain α := { gr with vertices := insertSet v gr.vertices }

/-- `addNeighbor`, `topology.hpp` 93-95 -/
def Grain.addNeighbor (i : Nat) (gr : Grain α) : Grain α := { gr with faces := insertId i gr.faces }

/-- `map<id_type, Grain> grains`, `mmsp2topo.cpp` 116 -/
abbrev Grains (α : Type) := Nat → Option (Grain α)

/-- `grains.insert(make_pair(i, Grain(i))).first->second.addMass(v, x)`, `mmsp2topo.cpp` 146-147 -/
def massAt (i : Nat) (v : α) (x : Nat → Int) (gs : Grains α) : Grains α := fun k => if k = i then some (((gs i).getD fresh).addMass v x) else gs k

/-- `itr = grains.find(i); itr->second.…`: undefined if there is no such grain. -/
def modify (i : Nat) (f : Grain α → Grain α) (gs : Grains α) : Outcome (Grains α) :=
  match gs i with
  | none => .ub
  | some gr => .ok fun k => if k = i then some (f gr) else gs k

/-! ## The loops over the nodes -/

/-- `x` is a node of the local box, `mmsp2topo.cpp` 38, 40, 48 -/
def inside (g : Shape) (y : Nat → Int) : Bool := (List.range g.dim).all fun j => decide (g.x0 j ≤ y j ∧ y j < g.x1 j)

/-- The same point, `mmsp2topo.cpp` 42, 49 -/
def same (g : Shape) (x y : Nat → Int) : Bool := (List.range g.dim).all fun j => decide (y j = x j)

/-- One of the corners, `mmsp2topo.cpp` 52 -/
def corner (g : Shape) (x y : Nat → Int) : Bool := (List.range g.dim).all fun j => decide (y j = x j - 1 ∨ y j = x j + 1)

/-- The body of the loops, `mmsp2topo.cpp` 38-55; `me` is converted back from `id_type` for the comparison, what is inserted is converted to it. -/
def visit (g : Shape) (data : Int → Sparse.Cell α) (me : Nat) (x : Nat → Int) (adjacent : Ids) (y : Nat → Int) : Outcome Ids :=
  if inside g y then (if same g x y then .ok adjacent else
    (gridAt .serial g data y).bind fun c => (Sparse.grainId (-1) c).bind fun i =>
    if i = me then .ok adjacent else if g.dim = 3 ∧ corner g x y then .ok adjacent else .ok (insertId (toId i) adjacent))
  else .ok adjacent

/-- `check_neighbors`, `mmsp2topo.cpp` 31-60 -/
def checkNeighbors (g : Shape) (data : Int → Sparse.Cell α) (me : Nat) (x : Nat → Int) : Outcome Ids :=
  Spin.boxFold (visit g data me x) (List.range g.dim) x []

/-- Masses of all grains at a node, `mmsp2topo.cpp` 142-155, 195-208. -/
def masses (c : Sparse.Cell α) (major : Nat) (x : Nat → Int) (gs : Grains α) : Grains α :=
  c.foldl (fun gs e => if toId e.1 = major then gs else massAt (toId e.1) (Sparse.get c (toId e.1)) x gs) (massAt major (Sparse.get c major) x gs)

/-- `mmsp2topo.cpp` 159-169 -/
def classify2 (major : Nat) (neighbors : Ids) (x : Nat → Int) (gs : Grains α) : Outcome (Grains α) :=
  if neighbors.length = 1 then modify major (Grain.updateEdges neighbors x) gs
  else if neighbors.length = 2 then neighbors.foldlM (fun gs j => modify j (Grain.updateVertices neighbors) gs) gs
  else .ok gs

/-- `mmsp2topo.cpp` 212-219 -/
def classify3 (major : Nat) (neighbors : Ids) (x : Nat → Int) (gs : Grains α) : Outcome (Grains α) :=
  if neighbors.length = 2 then
    (modify major (Grain.updateEdges neighbors x) gs).bind fun gs => modify major (fun gr => neighbors.foldl (fun gr i => gr.addNeighbor i) gr) gs
  else .ok gs

/-- The body of the loop over the nodes, `mmsp2topo.cpp` 141-169, 194-219. -/
def node (g : Shape) (data : Int → Sparse.Cell α) (gs : Grains α) (n : Nat) : Outcome (Grains α) :=
  (deref g data (g.atNode .serial n)).bind fun c => (Sparse.grainId (-1) c).bind fun i =>
  let major := toId i
  let gs := masses c major (g.position n) gs
  (checkNeighbors g data major (g.position n)).bind fun neighbors =>
  if g.dim = 2 then classify2 major neighbors (g.position n) gs else classify3 major neighbors (g.position n) gs

/-- `mmsp2topo.cpp` 127-227 -/
def collect (g : Shape) (data : Int → Sparse.Cell α) : Outcome (Grains α) := (List.range g.nodes.toNat).foldlM (node g data) fun _ => none

/-! ## Analysis of a grain -/

/-- Number of edges of the face towards `f`, `topology.cpp` 175-180. -/
def edgesOf (edges : List (Ids × List (Nat → Int))) (f : Nat) : Nat := edges.foldl (fun p e => e.1.foldl (fun p i => if i = f then p + 1 else p) p) 0

/-- `while (pvec.size() <= p) pvec.push_back(0); ++pvec[p];` `topology.cpp` 181-182 -/
def tally (pvec : List Nat) (p : Nat) : List Nat := (pvec ++ List.replicate (p + 1 - pvec.length) 0).modify p (· + 1)

/-- `makePvector<3>`, `topology.cpp` 160-186: the vector and the value returned. -/
def makePvector (gr : Grain α) : Outcome (List Nat × Nat) :=
  if gr.edges.length = 0 then .ok ([0], 0) else
  let pvec := gr.faces.foldl (fun pvec f => tally pvec (edgesOf gr.edges f)) [0]
  match pvec[1]? with
  | none => .ub
  | some k => if k = 0 then .ok (pvec, pvec.length) else .abort 134

/-- `makePvector<2>`, `topology.cpp` 162-170 -/
def makePvector2 (gr : Grain α) : List Nat × Nat := ([0, 0, gr.edges.length], 3)

/-- `edges.find(…) != edges.end()` -/
def hasEdge (edges : List (Ids × List (Nat → Int))) (a b : Nat) : Bool := edges.any fun e => e.1 = insertId b (insertId a [])

/-- The loop over the faces for one edge, `topology.cpp` 89-109. -/
def corners (gr : Grain α) (vs : List Ids) (e : Ids) : Outcome (List Ids) :=
  match e with
  | a :: b :: _ =>
    if a = b then .abort 134 else
    .ok (gr.faces.foldl (fun vs c => if c = a ∨ c = b then vs else
      if hasEdge gr.edges a c ∧ hasEdge gr.edges b c then insertSet (insertId c (insertId b (insertId a []))) vs else vs) vs)
  | _ => .ub

/-- `inferVertices<3>`, `topology.cpp` 78-112: the grain afterwards and the value returned. -/
def inferVertices (gr : Grain α) : Outcome (Grain α × Int) :=
  if gr.edges.length < 3 then .ok (gr, -1) else if gr.faces.length < 3 then .ok (gr, 0) else
  (gr.edges.foldlM (fun vs e => corners gr vs e.1) []).bind fun vs => .ok ({ gr with vertices := vs }, vs.length)

/-- `computeTopology<3>`, `topology.cpp` 50-65: the grain, its `pvector` and the four numbers. -/
def computeTopology (gr : Grain α) : Outcome (Grain α × List Nat × List Int) :=
  (inferVertices gr).bind fun r => (makePvector r.1).bind fun p => .ok (r.1, p.1, [0, r.2, p.2, r.1.faces.length])

/-- The loop over the grains, `mmsp2topo.cpp` 293-305, in three dimensions. -/
def analyse (gs : Grains α) : Outcome (List (Nat × Grain α × List Nat)) :=
  ((List.range 65536).filterMap fun k => (gs k).map fun gr => (k, gr)).foldlM (fun out e =>
    (computeTopology e.2).bind fun r => .ok (out ++ [(e.1, r.1, r.2.1)])) []

/-- `mmsp2topo` on a three-dimensional grid, up to the output. -/
def topology (g : Shape) (data : Int → Sparse.Cell α) : Outcome (List (Nat × Grain α × List Nat)) := (collect g data).bind analyse

/-- `getEuler`, `topology.hpp` 53-55 -/
def euler (gr : Grain α) : Int := gr.vertices.length + gr.faces.length - gr.edges.length

/-- `isPlateaunic<3>`, `topology.hpp` 60-63, with `size_t` arithmetic. -/
def plateaunic (gr : Grain α) : Bool := decide ((gr.edges.length : Int) % 2 ^ 64 = (3 * gr.faces.length - 6) % 2 ^ 64)

/-- `getPbar<3>` for a given `pvector`, `topology.cpp` 188-203; 0/0 is not a number. -/
def pbar (pvec : List Nat) : Option α :=
  let count : Nat := pvec.foldl (· + ·) 0
  let answer : Nat := pvec.zipIdx.foldl (fun (s : Nat) e => s + e.1 * e.2) 0
  if count = 0 then none else some ((answer : α) / count)

/-- A grain that is not excluded gets a line, `topology.cpp` 248. -/
def printed (gr : Grain α) : Bool := !decide (gr.vertices.length < 2 ∨ gr.edges.length < 3 ∨ gr.faces.length < 3)

/-! ## Centroids of excluded grains -/

/-- All points on edges. -/
def points (gr : Grain α) : List (Nat → Int) := gr.edges.flatMap Prod.snd

/-- `min[d]`, `max[d]`, `topology.cpp` 22-35 -/
def bounds (gr : Grain α) (d : Nat) : Int × Int := (points gr).foldl (fun m x => (if x d < m.1 then x d else m.1, if x d > m.2 then x d else m.2)) (1000, 0)

/-- `x[d]` after `topology.cpp` 43-44. -/
def fold (gr : Grain α) (dim : Nat) (x : Nat → Int) : Nat → Int := fun d =>
  if d < dim then (let m := bounds gr d; if m.2 - x d < x d - m.1 then x d - m.2 else x d) else x d

/-- `estimateCentroid`, `topology.cpp` 17-48 -/
def estimateCentroid (dim : Nat) (gr : Grain α) : Grain α :=
  if gr.edges.length = 0 then gr else if dim = 3 ∧ gr.faces.length = 0 then gr else
  let weight := gr.volume / ((points gr).length : α)
  (points gr).foldl (fun g' x => g'.addMass weight (fold gr dim x)) { gr with volume := 0, moment := fun _ => 0 }

end MMSP.Topology
