import Verif.Stencil
/-!
# Arithmetic of `vector<T>` cells and of whole grids

Model of `include/MMSP.vector.h` 119-175 (`min`, `max`, `+=`, `+`, `-=`, `-`, `*=`, `*`, the inner product; the overloads for
`target`s at 312-344 forward to these), of `vector::operator=(value)` (`include/MMSP.vector.cpp` 54-59, 75-80) and of
`grid::operator=(value)`, `+=`, `-=` (`include/MMSP.grid.cpp` 338-366).

Simplifications: a vector is the list of its elements (storage and aliasing are the subject of `Verif.Heap`); `x[i]` with
`i ≥ size` stops the program in `assert` (`Stencil.elem`); the element types of the two operands are the same, except for
the factor of a scalar product, where `conv` is the `static_cast<T>` the code performs. For grids the two element types have
to be the same, since `data` of `grid<dim,U>` is not accessible from `grid<dim,T>`.
-/

namespace MMSP.VecMath

open Stencil (elem)

variable {T U : Type}

/-- `vector<T> z(N); for i < N: z[i] = f(x[i], y[i]); return z` with `N = x.length()`
(`include/MMSP.vector.h` 121-124, 128-131, 140-143, 151-154). -/
def zip (f : T → T → T) (x y : List T) : Outcome (List T) :=
  (List.range x.length).mapM fun i => do
    let a ← elem x i
    let b ← elem y i
    pure (f a b)

/-- `for i < N: x[i] = f(x[i], y[i])` with `N = x.length()` (`include/MMSP.vector.h` 135-137, 146-148); `y = none` is the call
with both operands the same object, where the second operand is read from the vector being changed. -/
def zipEq (f : T → T → T) (x : List T) (y : Option (List T)) : Outcome (List T) :=
  (List.range x.length).foldlM (fun c i => do
    let a ← elem c i
    let b ← elem (y.getD c) i
    if i < c.length then pure (c.set i (f a b)) else .ub) x

/-- `include/MMSP.utility.h` 221-223 -/
def minOf [LT T] [DecidableRel (· < · : T → T → Prop)] (x y : T) : T := if x < y then x else y

/-- `include/MMSP.utility.h` 218-220 -/
def maxOf [LT T] [DecidableRel (· < · : T → T → Prop)] (x y : T) : T := if y < x then x else y

/-- `include/MMSP.vector.h` 120-125 -/
def min [LT T] [DecidableRel (· < · : T → T → Prop)] (x y : List T) : Outcome (List T) := zip minOf x y

/-- `include/MMSP.vector.h` 127-132 -/
def max [LT T] [DecidableRel (· < · : T → T → Prop)] (x y : List T) : Outcome (List T) := zip maxOf x y

/-- `include/MMSP.vector.h` 139-144 -/
def add [Add T] (x y : List T) : Outcome (List T) := zip (fun a b => a + b) x y

/-- `include/MMSP.vector.h` 150-155 -/
def sub [Sub T] (x y : List T) : Outcome (List T) := zip (fun a b => a - b) x y

/-- `include/MMSP.vector.h` 134-138 -/
def addEq [Add T] (x : List T) (y : Option (List T)) : Outcome (List T) := zipEq (fun a b => a + b) x y

/-- `include/MMSP.vector.h` 145-149 -/
def subEq [Sub T] (x : List T) (y : Option (List T)) : Outcome (List T) := zipEq (fun a b => a - b) x y

/-- `include/MMSP.vector.h` 161-169: `value * x` and `x * value`. -/
def smul [Mul T] (conv : U → T) (value : U) (x : List T) : Outcome (List T) :=
  (List.range x.length).mapM fun i => do
    let a ← elem x i
    pure (conv value * a)

/-- `include/MMSP.vector.h` 156-160, with a factor that is not an element of `x`. -/
def mulEq [Mul T] (conv : U → T) (x : List T) (value : U) : Outcome (List T) :=
  (List.range x.length).foldlM (fun c i => do
    let a ← elem c i
    if i < c.length then pure (c.set i (a * conv value)) else .ub) x

/-- `include/MMSP.vector.h` 170-175 -/
def dot [Zero T] [Add T] [Mul T] (x y : List T) : Outcome T :=
  (List.range (if x.length > y.length then y.length else x.length)).foldlM (fun z i => do
    let a ← elem x i
    let b ← elem y i
    pure (z + a * b)) 0

/-! ## Grids -/

/-- `for i < cells: data[i] = f(data[i], GRID.data[i])` (`include/MMSP.grid.cpp` 352-366); the source array has
`src.cells` elements. For cells that are vectors `f` is `zipEq`, which can stop the program. -/
def gridZip (f : T → T → Outcome T) (g src : Shape) (data other : Int → T) : Outcome (Int → T) :=
  (List.range g.cells.toNat).foldlM (fun (c : Int → T) (i : Nat) => do
    let b ← deref src other i
    let a ← deref g c i
    let v ← f a b
    store g c i v) data

/-- `GRID += OTHER`, `include/MMSP.grid.cpp` 352-357, scalar cells -/
def gridAddEq [Add T] : Shape → Shape → (Int → T) → (Int → T) → Outcome (Int → T) := gridZip fun a b => .ok (a + b)

/-- `GRID -= OTHER`, `include/MMSP.grid.cpp` 359-364, scalar cells -/
def gridSubEq [Sub T] : Shape → Shape → (Int → T) → (Int → T) → Outcome (Int → T) := gridZip fun a b => .ok (a - b)

/-- `GRID += OTHER`, cells that are vectors -/
def gridAddEqVec [Add T] : Shape → Shape → (Int → List T) → (Int → List T) → Outcome (Int → List T) :=
  gridZip fun a b => addEq a (some b)

/-- `GRID = value`, `include/MMSP.grid.cpp` 338-343, scalar cells -/
def gridFill (conv : U → T) (g : Shape) (data : Int → T) (value : U) : Outcome (Int → T) :=
  (List.range g.cells.toNat).foldlM (fun (c : Int → T) (i : Nat) => store g c i (conv value)) data

/-- `static_cast<vector<T> >(value)` for a number `value`: the only constructor that fits is `vector(int N)`
(`include/MMSP.vector.cpp` 32-36), so the number becomes the *length*; `new T[N]` throws for negative `N` and leaves the
elements uninitialised otherwise. -/
def castToVector (value : Int) : Outcome (List (Option T)) :=
  if value < 0 then .abort 134 else .ok (List.replicate value.toNat none)

/-- `vector::operator=(const vector&)` (`include/MMSP.vector.cpp` 61-72): copying an uninitialised element is undefined. -/
def assignVector (v : List (Option T)) : Outcome (List T) :=
  v.mapM fun e => match e with
    | some a => .ok a
    | none => .ub

/-- `GRID = value`, `include/MMSP.grid.cpp` 338-343, cells that are vectors -/
def gridFillVec (g : Shape) (data : Int → List T) (value : Int) : Outcome (Int → List T) :=
  (List.range g.cells.toNat).foldlM (fun (c : Int → List T) (i : Nat) => do
    let t ← castToVector value
    let v ← assignVector t
    store g c i v) data

end MMSP.VecMath
