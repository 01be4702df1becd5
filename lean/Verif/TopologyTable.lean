import Verif.Topology
import Verif.FileHeader
import Mathlib.Data.List.Sort
/-!
# The table of mmsp2topo

Model of `utility/mmsp2topo.cpp` 107-113, 141-145, 228-392 and of `printCSV`, `algorithms/topology/topology.cpp` 205-264: exclusion of grains, the numbers printed at the end and the
rows of the comma-separated table. It continues the model of `Verif/Topology.lean`.

Simplifications. As there; a row is the list of its columns. `toInt` is the conversion of a `float` to `int`; the conversion of 0/0 or of infinity is undefined, so a row for a grain
of volume zero is. Opening and writing files, times and debugging output are left out. `exclusions[138]` and `exclusions[202]` are never changed.
-/

namespace MMSP.Topology

variable {α : Type} [Field α] [LinearOrder α]

/-! ## Bulk and other grains -/

/-- A grain with its number, `excluded` and `pvector`: `topology.hpp` 106-118. -/
structure Entry (α : Type) where
  key : Nat
  grain : Grain α
  excluded : Bool
  pvec : List Nat

/-- `map<id_type, Grain>` in the order of its keys. -/
def entries (gs : Grains α) : List (Entry α) := (List.range 65536).filterMap fun k => (gs k).map fun gr => ⟨k, gr, false, []⟩

/-- State of the loop `mmsp2topo.cpp` 232-245: the grains so far, `exclusions[177]`, `BulkGrains` and `average_volume` before the division. -/
structure Bulk (α : Type) where
  out : List (Entry α)
  small : Nat
  bulk : Nat
  total : α

/-- One step of it, `mmsp2topo.cpp` 233-244; `unit` is the product of the spacings. -/
def bulkStep (unit : α) (s : Bulk α) (e : Entry α) : Bulk α :=
  if e.excluded then { s with out := s.out ++ [e] }
  else if e.grain.volume < 1 then { s with out := s.out ++ [{ e with excluded := true }], small := s.small + 1 }
  else { s with out := s.out ++ [e], bulk := s.bulk + 1, total := s.total + unit * e.grain.volume }

/-- `mmsp2topo.cpp` 230-245 -/
def bulkLoop (unit : α) (l : List (Entry α)) : Bulk α := l.foldl (bulkStep unit) ⟨[], 0, 0, 0⟩

/-- `mmsp2topo.cpp` 246: 0/0 is not a number. -/
def Bulk.average (s : Bulk α) : Option α := if s.bulk = 0 then none else some (s.total / s.bulk)

/-! ## Analysis -/

/-- `computeTopology<2>`, `topology.cpp` 50-57, with `inferVertices<2>` 81-83 and `makePvector<2>` 162-170. -/
def computeTopology2 (gr : Grain α) : Grain α × List Nat × List Int :=
  (gr, (makePvector2 gr).1, [0, if gr.edges.length < 2 then -1 else gr.vertices.length, (makePvector2 gr).2, gr.faces.length])

/-- State of the loop `mmsp2topo.cpp` 293-337: the grains so far, `maxp`, `maxN`, `exclusions[244]`, `exclusions[262]`. -/
structure Analysis (α : Type) where
  out : List (Entry α)
  maxp : Int
  maxN : Int
  noFaces : Nat
  noEdges : Nat

/-- `mmsp2topo.cpp` 300-336 -/
def analysisStep (dim : Nat) (s : Analysis α) (e : Entry α) : Outcome (Analysis α) :=
  (if dim = 2 then .ok (computeTopology2 e.grain) else computeTopology e.grain).bind fun r =>
  match r.2.2 with
  | [a, _, p, n] =>
    let e : Entry α := { e with grain := r.1, pvec := r.2.1 }
    let x := (a = -1 : Bool) && !e.excluded
    let e : Entry α := if x then { e with excluded := true } else e
    let y := (e.grain.edges.length = 0 : Bool) && !e.excluded
    let e : Entry α := if y then { e with excluded := true } else e
    .ok ⟨s.out ++ [e], if p > s.maxp then p else s.maxp, if n > s.maxN then n else s.maxN, s.noFaces + x.toNat, s.noEdges + y.toNat⟩
  | _ => .abort 134

/-- `mmsp2topo.cpp` 286-337 -/
def analysisLoop (dim : Nat) (l : List (Entry α)) : Outcome (Analysis α) := l.foldlM (analysisStep dim) ⟨[], 0, 0, 0, 0⟩

/-! ## Rows -/

/-- A column: a whole number, a `float` or nothing. -/
inductive Col (α : Type)
  | num (i : Int)
  | val (v : α)
  | blank
deriving DecidableEq

/-- `for (int d=0; d<dim; ++d) o << ',' << x[d];` -/
def centre (dim : Nat) (toInt : α → Int) (gr : Grain α) : List (Col α) := (List.range dim).map fun d => .num (toInt (gr.moment d / gr.volume))

/-- `for (int i=first; i<last; ++i) o << c;` -/
def pad (c : Col α) (first last : Int) : List (Col α) := List.replicate (last - first).toNat c

/-- `o << ',' << *(itr->first.begin())`: an edge without a grain has no first. -/
def firstStep (out : List Nat) (e : Ids × List (Nat → Int)) : Outcome (List Nat) :=
  match e.1 with
  | [] => .ub
  | a :: _ => .ok (out ++ [a])

/-- The grains named first in the edges, in the order of `std::map`: `topology.cpp` 217, 231. -/
def firsts (gr : Grain α) : Outcome (List Nat) := (gr.edges.foldlM firstStep []).bind fun l => .ok (l.insertionSort (· ≤ ·))

/-- The columns behind the p-vector: `topology.cpp` 216-219, 230-232 and 244-246, 258-260. -/
def neighbours (dim : Nat) (gr : Grain α) (N : Int) : Outcome (List (Col α)) :=
  if dim = 2 then (firsts gr).bind fun l => .ok (l.map (fun i => .num i) ++ pad .blank gr.edges.length N)
  else .ok (gr.faces.map (fun i => .num i) ++ pad .blank gr.faces.length N)

/-- `printCSV`, `topology.cpp` 205-264: the row, or nothing. -/
def printCSV (dim : Nat) (toInt : α → Int) (e : Entry α) (p N : Int) : Outcome (Option (List (Col α))) :=
  let gr := e.grain
  if e.excluded ∧ (dim = 2 ∨ 0 < gr.faces.length) then
    if gr.volume = 0 then .ub else if ¬ 1 < e.pvec.length then .abort 134 else
    (neighbours dim gr N).bind fun ns =>
    .ok (some ([.num e.key] ++ centre dim toInt gr ++ [.val gr.volume, .num 0, .num (if dim = 2 then 1 else gr.faces.length), .num 0, .num 0] ++ pad (.num 0) 2 p ++ ns))
  else if (if dim = 2 then gr.vertices.length < 1 ∨ gr.edges.length < 2 else gr.vertices.length < 2 ∨ gr.edges.length < 3 ∨ gr.faces.length < 3) then .ok none
  else
    if gr.volume = 0 then .ub else if ¬ 1 < e.pvec.length then .abort 134 else
    (neighbours dim gr N).bind fun ns =>
    .ok (some ([.num e.key] ++ centre dim toInt gr ++ (if dim = 2 then [.num 0] else []) ++
      [.val gr.volume, .num gr.vertices.length, .num gr.faces.length, .num gr.edges.length, .num (euler gr)] ++
      (e.pvec.drop 2).map (fun q => .num q) ++ pad (.num 0) e.pvec.length p ++ ns))

/-- Number of columns named in the first line, `mmsp2topo.cpp` 346-348. -/
def headerColumns (p N : Int) : Nat := 9 + (p - 2).toNat + N.toNat

/-- One row of the loops `mmsp2topo.cpp` 350-362, 365-374. -/
def printStep (f : Entry α → Outcome (Option (List (Col α)))) (out : List (Nat × List (Col α))) (e : Entry α) : Outcome (List (Nat × List (Col α))) :=
  (f e).bind fun r => match r with
    | none => .ok out
    | some row => .ok (out ++ [(e.key, row)])

/-- A loop that writes rows, each with the number of its grain. -/
def printLoop (f : Entry α → Outcome (Option (List (Col α)))) (l : List (Entry α)) : Outcome (List (Nat × List (Col α))) := l.foldlM (printStep f) []

/-- What comes out: columns of the first line, rows of both parts, and the numbers of `mmsp2topo.cpp` 279 and 383-387. -/
structure Table (α : Type) where
  columns : Nat
  bulkRows : List (Nat × List (Col α))
  otherRows : List (Nat × List (Col α))
  bulk : Nat
  surface : Int
  zeroVolume : Nat
  zeroFaces : Nat
  zeroEdges : Nat
  average : Option α

/-- `mmsp2topo.cpp` 228-389 -/
def table (dim : Nat) (unit : α) (toInt : α → Int) (l : List (Entry α)) : Outcome (Table α) :=
  let b := bulkLoop unit l
  (analysisLoop dim b.out).bind fun s =>
  (printLoop (fun e => printCSV dim toInt e s.maxp s.maxN) (s.out.filter fun e => !e.excluded)).bind fun rows =>
  (printLoop (fun e => printCSV dim toInt { e with grain := estimateCentroid dim e.grain } s.maxp s.maxN) (s.out.filter fun e => e.excluded)).bind fun others =>
  .ok ⟨headerColumns s.maxp s.maxN, rows, others, b.bulk, l.length - b.bulk, b.small, s.noFaces, s.noEdges, b.average⟩

/-- `mmsp2topo` behind the reading of the file. -/
def mmsp2topo (g : Shape) (dx : Nat → α) (toInt : α → Int) (data : Int → Sparse.Cell α) : Outcome (Table α) :=
  (collect g data).bind fun gs => table g.dim (((List.range g.dim).map dx).prod) toInt (entries gs)

/-! ## The span of the phase -/

/-- `if (phi < min_phi) min_phi = phi; else if (phi > max_phi) max_phi = phi;`, `mmsp2topo.cpp` 107, 144-145, 197-198. -/
def span (phis : List α) : α × α := phis.foldl (fun m phi => if phi < m.1 then (phi, m.2) else if phi > m.2 then (m.1, phi) else m) (1, 0)

/-! ## What a file must say -/

/-- The tests of the type line, `mmsp2topo.cpp` 88-96: `substr` throws if it starts behind the end. -/
def accepts (type_ : List Byte) : Outcome Unit :=
  let sub (i n : Nat) : Outcome (List Byte) := if i > type_.length then .abort 134 else .ok ((type_.drop i).take n)
  (sub 0 4).bind fun a => if a ≠ FileIO.ascii "grid" then .abort (-1) else
  (sub 5 6).bind fun a => if a ≠ FileIO.ascii "sparse" then .abort (-1) else
  (sub 12 5).bind fun a => if a ≠ FileIO.ascii "float" then .abort (-1) else .ok ()

end MMSP.Topology
