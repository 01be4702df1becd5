import Verif.Buffer
import Verif.Sparse
/-!
# Finite-difference stencils

Model of `laplacian`, `gradient`/`grad`, `divergence`/`div` of `include/MMSP.grid.cpp` 2049-2232 and of the explicit
Cahn-Hilliard and model B steps of the examples.

Simplifications: `int` is `Int`; the number type `T` (and `double`) is any type with the operations used, so nothing below
depends on arithmetic laws unless a theorem asks for them; `1.0`, `2.0` are `1` and `1 + 1`; `static_cast`s between number
types are the identity. `GRID(s)` copies its argument vector, which cannot fail here.
-/

namespace MMSP.Stencil

variable {V T : Type}

/-- `GRID(x)`: boundary handling and array access, `include/MMSP.grid.cpp` 375-383. -/
def gridAt (bd : Build) (g : Shape) (data : Int → V) (x : Nat → Int) : Outcome V := deref g data (g.atVec bd x)

/-- `s[i] += k`. -/
def bump (s : Nat → Int) (i : Nat) (k : Int) : Nat → Int := Function.update s i (s i + k)

/-- `s[i] += 1; yh = GRID(s); s[i] -= 2; yl = GRID(s); s[i] += 1;` of every stencil loop, e.g.
`include/MMSP.grid.cpp` 2056-2060. Returns `yh`, `yl` and the vector `s` left behind. -/
def neighbours (at' : (Nat → Int) → Outcome V) (s : Nat → Int) (i : Nat) : Outcome (V × V × (Nat → Int)) :=
  let s1 := bump s i 1
  (at' s1).bind fun yh =>
  let s2 := bump s1 i (-2)
  (at' s2).bind fun yl =>
  .ok (yh, yl, bump s2 i 1)

/-- `v[j]` of `vector<T>`, `include/MMSP.vector.h` 29-36: the assertion `i < size` stops the program outside the vector
(with `NDEBUG` it would be undefined behaviour). -/
def elem (v : List V) (j : Nat) : Outcome V :=
  match v[j]? with
  | some a => .ok a
  | none => .abort 134

section Ops
variable [Zero T] [One T] [Add T] [Sub T] [Mul T] [Div T]

/-- `1.0 / (dx * dx)`, `include/MMSP.grid.cpp` 2062 -/
def lapWeight (h : T) : T := 1 / (h * h)

/-- `1.0 / (2.0 * dx)`, `include/MMSP.grid.cpp` 2163 -/
def gradWeight (h : T) : T := 1 / ((1 + 1) * h)

/-- The loop of `include/MMSP.grid.cpp` 2055-2064 and, with `weight = 1.0 / pow(dx, 2.0)`, 2098-2107. -/
def lapLoop (at' : (Nat → Int) → Outcome T) (w : Nat → T) (y : T) : List Nat → (Nat → Int) → T → Outcome T
  | [], _, acc => .ok acc
  | i :: is, s, acc =>
    (neighbours at' s i).bind fun (yh, yl, s) =>
    lapLoop at' w y is s (acc + w i * (yh - (1 + 1) * y + yl))

/-- `laplacian(GRID, x)` for a scalar field, `include/MMSP.grid.cpp` 2049-2066. -/
def laplacian (bd : Build) (g : Shape) (dx : Nat → T) (data : Int → T) (x : Nat → Int) : Outcome T :=
  (gridAt bd g data x).bind fun y =>
  lapLoop (gridAt bd g data) (fun i => lapWeight (dx i)) y (List.range g.dim) x 0

/-- `laplacian(GRID, i)`, `include/MMSP.grid.cpp` 2130-2134. -/
def laplacianNode (bd : Build) (g : Shape) (dx : Nat → T) (data : Int → T) (i : Int) : Outcome T :=
  laplacian bd g dx data (g.position i)

/-- `laplacian(GRID, x, field)` for a grid of vectors, `include/MMSP.grid.cpp` 2091-2109; `pow2 h` is `pow(h, 2.0)`. -/
def laplacianField (bd : Build) (g : Shape) (pow2 : T → T) (dx : Nat → T) (data : Int → List T) (x : Nat → Int)
    (field : Nat) : Outcome T :=
  let at' := fun s => (gridAt bd g data s).bind fun v => elem v field
  (at' x).bind fun y => lapLoop at' (fun i => 1 / pow2 (dx i)) y (List.range g.dim) x 0

/-- Inner loop of `include/MMSP.grid.cpp` 2083-2084: `laplacian[j] += weight * (yh[j] - 2.0 * y[j] + yl[j])`. -/
def lapFields (w : T) (y yh yl : List T) : List Nat → List T → Outcome (List T)
  | [], acc => .ok acc
  | j :: js, acc =>
    (elem acc j).bind fun a => (elem yh j).bind fun ah => (elem y j).bind fun a0 => (elem yl j).bind fun al =>
    lapFields w y yh yl js (acc.set j (a + w * (ah - (1 + 1) * a0 + al)))

/-- Outer loop of `include/MMSP.grid.cpp` 2075-2085. -/
def lapVecLoop (at' : (Nat → Int) → Outcome (List T)) (w : Nat → T) (n : Nat) (y : List T) :
    List Nat → (Nat → Int) → List T → Outcome (List T)
  | [], _, acc => .ok acc
  | i :: is, s, acc =>
    (neighbours at' s i).bind fun (yh, yl, s) =>
    (lapFields (w i) y yh yl (List.range n) acc).bind fun acc =>
    lapVecLoop at' w n y is s acc

/-- `laplacian(GRID, x)` for a grid of vectors with `n = fields(GRID)`, `include/MMSP.grid.cpp` 2068-2089. -/
def laplacianVec (bd : Build) (g : Shape) (n : Nat) (dx : Nat → T) (data : Int → List T) (x : Nat → Int) :
    Outcome (List T) :=
  (gridAt bd g data x).bind fun y =>
  lapVecLoop (gridAt bd g data) (fun i => lapWeight (dx i)) n y (List.range g.dim) x (List.replicate n 0)

/-- The gradient loops, `include/MMSP.grid.cpp` 2159-2168 and 2178-2187; `acc` is the result vector. -/
def gradLoop (at' : (Nat → Int) → Outcome T) (dx : Nat → T) : List Nat → (Nat → Int) → List T → Outcome (List T)
  | [], _, acc => .ok acc
  | i :: is, s, acc =>
    (neighbours at' s i).bind fun (yh, yl, s) =>
    if i < acc.length then gradLoop at' dx is s (acc.set i (gradWeight (dx i) * (yh - yl))) else .abort 134

/-- `gradient(GRID, x)` (and `grad`), `include/MMSP.grid.cpp` 2154-2170, 2191-2194. `init` is the unspecified content of
`vector<T> gradient(dim)`. -/
def gradient (bd : Build) (g : Shape) (dx : Nat → T) (init : List T) (data : Int → T) (x : Nat → Int) :
    Outcome (List T) :=
  gradLoop (gridAt bd g data) dx (List.range g.dim) x init

/-- `gradient(GRID, x, field)`, `include/MMSP.grid.cpp` 2172-2189. -/
def gradientField (bd : Build) (g : Shape) (dx : Nat → T) (init : List T) (data : Int → List T) (x : Nat → Int)
    (field : Nat) : Outcome (List T) :=
  gradLoop (fun s => (gridAt bd g data s).bind fun v => elem v field) dx (List.range g.dim) x init

/-- Loop of the scalar divergence, `include/MMSP.grid.cpp` 2223-2232. -/
def divLoop (at' : (Nat → Int) → Outcome T) (dx : Nat → T) : List Nat → (Nat → Int) → T → Outcome T
  | [], _, acc => .ok acc
  | i :: is, s, acc =>
    (neighbours at' s i).bind fun (yh, yl, s) =>
    divLoop at' dx is s (acc + gradWeight (dx i) * (yh - yl))

/-- `divergence(GRID, x)` for a scalar field, `include/MMSP.grid.cpp` 2218-2234. -/
def divergence (bd : Build) (g : Shape) (dx : Nat → T) (data : Int → T) (x : Nat → Int) : Outcome T :=
  divLoop (gridAt bd g data) dx (List.range g.dim) x 0

/-- Inner loop of `include/MMSP.grid.cpp` 2211-2212: `divergence[j] += weight * (yh[j] - yl[j])`. -/
def divFields (w : T) (yh yl : List T) : List Nat → List T → Outcome (List T)
  | [], acc => .ok acc
  | j :: js, acc =>
    (elem acc j).bind fun a => (elem yh j).bind fun ah => (elem yl j).bind fun al =>
    divFields w yh yl js (acc.set j (a + w * (ah - al)))

/-- Outer loop of `include/MMSP.grid.cpp` 2203-2213. -/
def divVecLoop (at' : (Nat → Int) → Outcome (List T)) (dx : Nat → T) (n : Nat) :
    List Nat → (Nat → Int) → List T → Outcome (List T)
  | [], _, acc => .ok acc
  | i :: is, s, acc =>
    (neighbours at' s i).bind fun (yh, yl, s) =>
    (divFields (gradWeight (dx i)) yh yl (List.range n) acc).bind fun acc =>
    divVecLoop at' dx n is s acc

/-- `divergence(GRID, x)` for a grid of vectors, `include/MMSP.grid.cpp` 2196-2216: the result has `dim` entries while the
loop runs to the length of the cell. -/
def divergenceVec (bd : Build) (g : Shape) (dx : Nat → T) (data : Int → List T) (x : Nat → Int) : Outcome (List T) :=
  (gridAt bd g data x).bind fun y =>
  divVecLoop (gridAt bd g data) dx y.length (List.range g.dim) x (List.replicate g.dim 0)

end Ops

section SparseOps
variable [Zero T] [One T] [Add T] [Sub T] [Mul T] [Div T]

/-- Loop of `include/MMSP.grid.cpp` 2118-2127. -/
def lapSparseLoop (at' : (Nat → Int) → Outcome (Sparse.Cell T)) (w : Nat → T) (y : Sparse.Cell T) :
    List Nat → (Nat → Int) → Sparse.Cell T → Outcome (Sparse.Cell T)
  | [], _, acc => .ok acc
  | i :: is, s, acc =>
    (neighbours at' s i).bind fun (yh, yl, s) =>
    lapSparseLoop at' w y is s
      (Sparse.addEq acc (Sparse.smul (w i) (Sparse.add (Sparse.sub yh (Sparse.smul (1 + 1) y)) yl)))

/-- `laplacian(GRID, x)` for a grid of sparse cells, `include/MMSP.grid.cpp` 2111-2128. -/
def laplacianSparse (bd : Build) (g : Shape) (dx : Nat → T) (data : Int → Sparse.Cell T) (x : Nat → Int) :
    Outcome (Sparse.Cell T) :=
  (gridAt bd g data x).bind fun y =>
  lapSparseLoop (gridAt bd g data) (fun i => lapWeight (dx i)) y (List.range g.dim) x []

end SparseOps
end MMSP.Stencil
