import Verif.Outcome
import Mathlib.Algebra.Group.Defs
import Mathlib.Algebra.GroupWithZero.Defs
import Mathlib.Order.Defs.LinearOrder
/-!
# Sparse cells as values

Model of `include/MMSP.sparse.cpp`: a `sparse<T>` as the list of its items in storage order. The storage handling is in
`Verif/Heap.lean` (`sGrow`, `vAssign`, `vCopy`, `sCopyCtor`, `vSwap`, `vDestroy`).

Simplifications: `int` indices are unbounded integers except where they are converted to `unsigned int`; `T` is any type
with the operations named in each definition (`static_cast<T>` between different types is the identity); a reference
returned by `set` is used at once, before the next `set`.
-/

namespace MMSP.Sparse

/-- `item<T>` array, `include/MMSP.sparse.h` 13-17, 58-60. -/
abbrev Cell (T : Type) := List (Int × T)

variable {T : Type}

/-- The search loop of `set` and `operator[]`, `include/MMSP.sparse.cpp` 69-71, 93-95: position of the first item with
the index. -/
def search (c : Cell T) (index : Int) : Option Nat := c.findIdx? fun e => e.1 == index

/-- `sparse::set`, `include/MMSP.sparse.cpp` 67-89: new contents and position of the referenced value. -/
def set [Zero T] (c : Cell T) (index : Int) : Cell T × Nat :=
  match search c index with
  | some k => (c, k)
  | none => (c ++ [(index, 0)], c.length)

/-- `c.set(index) = f(c.set(index))`: assignments and compound assignments through the reference. -/
def update [Zero T] (c : Cell T) (index : Int) (f : T → T) : Cell T :=
  (set c index).1.modify (set c index).2 fun e => (e.1, f e.2)

/-- `sparse::operator[]`, `include/MMSP.sparse.cpp` 91-97. -/
def get [Zero T] (c : Cell T) (index : Int) : T :=
  match search c index with
  | some k => (c[k]?.map Prod.snd).getD 0
  | none => 0

/-- `sparse::index(i)`, `include/MMSP.sparse.cpp` 126-130. -/
def index (c : Cell T) (i : Int) : Outcome Int :=
  if i < c.length then (if 0 ≤ i then (match c[i.toNat]? with | some e => .ok e.1 | none => .ub) else .ub) else .abort 134

/-- `sparse::value(i)`, `include/MMSP.sparse.cpp` 132-136. -/
def value (c : Cell T) (i : Int) : Outcome T :=
  if i < c.length then (if 0 ≤ i then (match c[i.toNat]? with | some e => .ok e.2 | none => .ub) else .ub) else .abort 134

/-- `sparse::grain_id`, `include/MMSP.sparse.cpp` 99-112. `negOne` is the sentinel `-1.0` converted to `T`; the index is
converted to `unsigned int`; the assertion fails for index `-1`. -/
def grainId [LinearOrder T] (negOne : T) (c : Cell T) : Outcome Nat :=
  let r := c.foldl (fun (acc : Nat × T) e => if e.2 > acc.2 then ((e.1 % 2 ^ 32).toNat, e.2) else acc) (0, negOne)
  if r.1 < 2 ^ 32 - 1 then .ok r.1 else .abort 134

/-- `sparse::getMagPhi`, `include/MMSP.sparse.cpp` 114-124; `conv` is the conversion of `T` to `double`, the arithmetic of
`D` and `sqrt` stand for those of `double`. -/
def getMagPhi {D : Type} [Zero D] [Add D] [Mul D] (sqrt : D → D) (conv : T → D) (c : Cell T) : D :=
  sqrt (c.foldl (fun sum e => sum + conv e.2 * conv e.2) 0)

/-- `MMSP::max`, `include/MMSP.utility.h` 219-221. -/
def maxOf [LinearOrder T] (x y : T) : T := if x > y then x else y
/-- `MMSP::min`, `include/MMSP.utility.h` 222-224. -/
def minOf [LinearOrder T] (x y : T) : T := if x < y then x else y

/-- `max(x, y)`, `include/MMSP.sparse.cpp` 211-227. -/
def max [Zero T] [LinearOrder T] (x y : Cell T) : Cell T :=
  let z := x.foldl (fun z e => update z e.1 fun _ => maxOf e.2 (get y e.1)) []
  y.foldl (fun z e => update z e.1 fun _ => maxOf e.2 (get x e.1)) z

/-- `min(x, y)`, `include/MMSP.sparse.cpp` 229-245. -/
def min [Zero T] [LinearOrder T] (x y : Cell T) : Cell T :=
  let z := x.foldl (fun z e => update z e.1 fun _ => minOf e.2 (get y e.1)) []
  y.foldl (fun z e => update z e.1 fun _ => minOf e.2 (get x e.1)) z

/-- `x += y`, `include/MMSP.sparse.cpp` 247-253, for different objects. -/
def addEq [Zero T] [Add T] (x y : Cell T) : Cell T := y.foldl (fun x e => update x e.1 fun v => v + e.2) x

/-- `x += x`: the items are read from the cell being changed. -/
def addEqSelf [Zero T] [Add T] (x : Cell T) : Cell T :=
  (List.range x.length).foldl (fun x i =>
    match x[i]? with
    | some e => update x e.1 fun v => v + e.2
    | none => x) x

/-- `x -= x`. -/
def subEqSelf [Zero T] [Sub T] (x : Cell T) : Cell T :=
  (List.range x.length).foldl (fun x i =>
    match x[i]? with
    | some e => update x e.1 fun v => v - e.2
    | none => x) x

/-- `x + y`, `include/MMSP.sparse.cpp` 255-265. -/
def add [Zero T] [Add T] (x y : Cell T) : Cell T :=
  let z := x.foldl (fun z e => update z e.1 fun v => v + e.2) []
  y.foldl (fun z e => update z e.1 fun v => v + e.2) z

/-- `x -= y`, `include/MMSP.sparse.cpp` 267-273, for different objects. -/
def subEq [Zero T] [Sub T] (x y : Cell T) : Cell T := y.foldl (fun x e => update x e.1 fun v => v - e.2) x

/-- `x - y`, `include/MMSP.sparse.cpp` 275-285. -/
def sub [Zero T] [Add T] [Sub T] (x y : Cell T) : Cell T :=
  let z := x.foldl (fun z e => update z e.1 fun v => v + e.2) []
  y.foldl (fun z e => update z e.1 fun v => v - e.2) z

/-- `x *= value`, `include/MMSP.sparse.cpp` 287-293, for a value that is not stored in `x`; `x.index(i)` is read in each
round from the cell being changed. -/
def mulEq [Zero T] [Mul T] (x : Cell T) (value : T) : Cell T :=
  (List.range x.length).foldl (fun x i =>
    match x[i]? with
    | some e => update x e.1 fun v => v * value
    | none => x) x

/-- `value * x`, `include/MMSP.sparse.cpp` 295-302. -/
def smul [Zero T] [Mul T] (value : T) (x : Cell T) : Cell T :=
  x.foldl (fun z e => update z e.1 fun _ => value * e.2) []

/-- The inner loop of `operator==`, `include/MMSP.sparse.cpp` 322-328. -/
def eqFind [DecidableEq T] (e : Int × T) : Cell T → Bool × Bool
  | [] => (false, false)
  | f :: fs => if e.1 = f.1 then (true, decide (e.2 = f.2)) else eqFind e fs

/-- `operator==`, `include/MMSP.sparse.cpp` 315-333. -/
def eq [DecidableEq T] (a b : Cell T) : Bool :=
  if a.length ≠ b.length then false
  else a.all fun e => !(!(eqFind e b).1 || ((eqFind e b).1 && !(eqFind e b).2))

end MMSP.Sparse
