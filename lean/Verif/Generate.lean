import Verif.DensePF
import Verif.Sparse
/-!
# Initial conditions

Model of the functions `generate` of the examples in a serial build: grain growth (`examples/coarsening/grain_growth`), Zener pinning (`examples/coarsening/zener_pinning`) and the
smaller ones. The grids have the default boundary conditions (periodic).

Simplifications: numbers are a field (exact arithmetic); `sqrt(n) < 16.0` for an integer `n` is `n < 256`; an entry of a cell that was never written is `none` (the constructor of
`grid` makes cells with `new T[fields]`, `include/MMSP.vector.cpp` 136-140); call number `n` of `rand()` gives `rand n`; `output` is left out.
-/

namespace MMSP.Generate

open DensePF (pass)

variable {α : Type}

/-- A serial grid made by `GRIDnD initGrid(fields,0,n0,0,n1,...)`; e.g. `isotropic/phase_field/graingrowth.cpp` 17, 36, 55. -/
def box (sides : List Int) : Shape := ⟨sides.length, fun _ => 0, fun j => sides.getD j 1, fun _ => .periodic, fun _ => .periodic, 0⟩

/-! ## Grains -/

/-- `r<16.0`, `isotropic/phase_field/graingrowth.cpp` 21-22, 40-41, 59-60 (the same in all Zener examples and in two and three dimensions of the sparse one). -/
def inside (d : Nat) (x : Nat → Int) : Bool :=
  if d = 1 then 32 - Int.tmod (x 0) 64 < 16 else (32 - Int.tmod (x 0) 64) ^ 2 + (32 - Int.tmod (x 1) 64) ^ 2 < 256

/-- `isotropic/sparsePF/graingrowth.cpp` 21-22, 35-36, 49-50 -/
def insideSparse (d : Nat) (x : Nat → Int) : Bool := if d = 1 then 32 - x 0 < 16 else inside d x

/-- The field that is set, `anisotropic/phase_field/graingrowth.cpp` 26-33, 50-60, 77-87 and `anisotropic/sparsePF/graingrowth.cpp` 23-30, 44-55, 69-80. -/
def quarter (d : Nat) (x : Nat → Int) : Nat :=
  if d = 1 then
    if Int.tmod (x 0) 128 < 32 then 3 else if Int.tmod (x 0) 128 < 64 then 2 else if Int.tmod (x 0) 128 < 96 then 1 else 0
  else
    let n := if d = 2 then 128 else 64
    if Int.tmod (x 0) n < n / 4 ∨ Int.tmod (x 0) n > 3 * n / 4 then
      if Int.tmod (x 1) n < n / 2 then 2 else 3
    else if Int.tmod (x 1) n < n / 4 ∨ Int.tmod (x 1) n > 3 * n / 4 then 1 else 0

/-- `initGrid(i)[j] = v`: the assertion of `operator[]`, `include/MMSP.vector.h` 29-36, then the assignment. -/
def put (j : Nat) (v : α) (c : List (Option α)) : Outcome (List (Option α)) := if j < c.length then .ok (c.set j (some v)) else .abort 134

/-- Body of the node loop of `isotropic/phase_field/graingrowth.cpp` 19-29, 38-48, 57-67. -/
def isoNode [Zero α] [One α] (d : Nat) (x : Nat → Int) (c : List (Option α)) : Outcome (List (Option α)) :=
  if inside d x then (put 0 0 c).bind (put 1 1) else (put 0 1 c).bind (put 1 0)

/-- `isotropic/phase_field/graingrowth.cpp` 13-71 on a grid `g` -/
def isoDense [Zero α] [One α] (g : Shape) : Outcome (Int → List (Option α)) :=
  pass .serial g (fun i c => isoNode g.dim (g.position i) c) fun _ => List.replicate 2 none

/-- Body of the node loop of `anisotropic/phase_field/graingrowth.cpp` 20-34, 44-61, 71-88. -/
def anisoNode [Zero α] [One α] (d : Nat) (x : Nat → Int) (c : List (Option α)) : Outcome (List (Option α)) :=
  ((List.range 4).foldlM (fun c h => put h 0 c) c).bind (put (quarter d x) 1)

/-- `anisotropic/phase_field/graingrowth.cpp` 14-92 on a grid `g` -/
def anisoDense [Zero α] [One α] (g : Shape) : Outcome (Int → List (Option α)) :=
  pass .serial g (fun i c => anisoNode g.dim (g.position i) c) fun _ => List.replicate 4 none

/-! ## Particles -/

/-- The points visited by the loops `for (p[0]=x[0]-1; p[0]<=x[0]+1; p[0]++) ...`, `zener_pinning/isotropic/phase_field/zener.cpp` 34, 62-63, 91-93. -/
def cube (x : Nat → Int) : Nat → List (Nat → Int)
  | 0 => [x]
  | j + 1 => (cube x j).flatMap fun p => [Function.update p j (x j - 1), Function.update p j (x j), Function.update p j (x j + 1)]

/-- One particle around node `i`, `zener_pinning/isotropic/phase_field/zener.cpp` 32-38, 60-67, 89-97; `mark` is what is done to a cell. -/
def particle {V : Type} (g : Shape) (mark : V → Outcome V) (i : Int) (data : Int → V) : Outcome (Int → V) :=
  (cube (g.position i) g.dim).foldlM (fun data p => (deref g data (g.atVec .serial p)).bind fun c => (mark c).bind fun c => store g data (g.atVec .serial p) c) data

/-- `zener_pinning/isotropic/phase_field/zener.cpp` 29, 57, 86 -/
def nParticles (nodes : Int) : Nat := (max 50 (Int.tdiv (50 * 8192) nodes)).toNat

/-- `zener_pinning/isotropic/phase_field/zener.cpp` 30-39, 58-68, 87-98 -/
def particles {V : Type} (g : Shape) (mark : V → Outcome V) (rand : Nat → Int) (n : Nat) (data : Int → V) : Outcome (Int → V) :=
  (List.range n).foldlM (fun data j => particle g mark (Int.tmod (rand j) g.nodes) data) data

/-- `zener_pinning/isotropic/phase_field/zener.cpp` 35-37 and `anisotropic` 36-38 -/
def markDense [Zero α] [One α] (c : List (Option α)) : Outcome (List (Option α)) := (put 0 1 c).bind fun c => (put 1 0 c).bind (put 2 0)

/-- Body of the node loop, `zener_pinning/isotropic/phase_field/zener.cpp` 20-27, 48-55, 77-84 and `anisotropic` 21-28, 49-56, 78-85. -/
def zenerNode [Zero α] [One α] (d : Nat) (x : Nat → Int) (c : List (Option α)) : Outcome (List (Option α)) :=
  (put 0 0 c).bind fun c => (put 1 0 c).bind fun c => if inside d x then put 2 1 c else put 1 1 c

/-- `zener_pinning/isotropic/phase_field/zener.cpp` 13-102 and `anisotropic` 14-103 on a grid `g` -/
def zenerDense [Zero α] [One α] (g : Shape) (rand : Nat → Int) : Outcome (Int → List (Option α)) :=
  (pass .serial g (fun i c => zenerNode g.dim (g.position i) c) fun _ => List.replicate 3 none).bind (particles g markDense rand (nParticles g.nodes))

/-- `set(initGrid(p),0) = 1.0; ...`, `zener_pinning/isotropic/sparsePF/zener.cpp` 33-35 and `anisotropic` 34-36 -/
def markSparse [Zero α] [One α] (c : Sparse.Cell α) : Outcome (Sparse.Cell α) :=
  .ok (Sparse.update (Sparse.update (Sparse.update c 0 fun _ => 1) 1 fun _ => 0) 2 fun _ => 0)

/-- `zener_pinning/isotropic/sparsePF/zener.cpp` 13-98 and `anisotropic` 14-99 on a grid `g` -/
def zenerSparse [Zero α] [One α] (g : Shape) (rand : Nat → Int) : Outcome (Int → Sparse.Cell α) :=
  (pass .serial g (fun i c => .ok (Sparse.update c (if inside g.dim (g.position i) then 2 else 1) fun _ => 1)) fun _ => []).bind
    (particles g markSparse rand (nParticles g.nodes))

/-- `zener_pinning/isotropic/Monte_Carlo/zener.cpp` 13-84 and `anisotropic` 14-85 on a grid `g`; `old` are the values of the new grid, which are never read. -/
def zenerMC (g : Shape) (rand : Nat → Int) (old : Int → Int) : Outcome (Int → Int) :=
  (pass .serial g (fun i _ => .ok (if inside g.dim (g.position i) then 2 else 1)) old).bind (particles g (fun _ => .ok 0) rand (nParticles g.nodes))

/-! ## Random and simple starts -/

/-- `for (i) initGrid(i) = f(rand())` of `allen-cahn.cpp` 19-20 and explicit `cahn-hilliard.cpp` 19-20 (`signed`), `ising.cpp` 18-19 (`spin`), `potts.cpp` 19-20 and
`Monte_Carlo/graingrowth.cpp` 25-26 (`choice`): every node one call. -/
def random {V : Type} (g : Shape) (f : Int → V) (rand : Nat → Int) (old : Int → V) : Outcome (Int → V) := pass .serial g (fun i _ => .ok (f (rand i.toNat))) old

/-- `1.0-2.0*double(rand())/double(RAND_MAX)` -/
def signed [Field α] (randMax r : Int) : α := 1 - 2 * (r : α) / (randMax : α)

/-- `2*(rand()%2)-1` -/
def spin (r : Int) : Int := 2 * Int.tmod r 2 - 1

/-- `rand()%q` -/
def choice (q r : Int) : Int := Int.tmod r q

/-- Body of `ostwald.cpp` 20-24, 31-35, 42-46 -/
def ostwaldNode [Field α] (randMax r : Int) (c : List (Option α)) : Outcome (List (Option α)) := (put 0 ((r : α) / (randMax : α)) c).bind (put 1 (1 - (r : α) / (randMax : α)))

/-- `solidification.cpp` 32-41: `int r = sqrt(...); r <= R` for `R = 5`. -/
def seedNode [Field α] (L : Int) (u : α) (x : Nat → Int) (c : List (Option α)) : Outcome (List (Option α)) :=
  (put 1 u c).bind (put 0 (if Int.sqrt ((x 0 - Int.tdiv L 2) ^ 2 + (x 1 - Int.tdiv L 2) ^ 2) ≤ 5 then 1 else 0))

end MMSP.Generate
