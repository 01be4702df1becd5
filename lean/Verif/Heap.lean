import Verif.Outcome
import Mathlib.Logic.Function.Basic
/-!
# Vectors and sparse cells with their storage

Model of `include/MMSP.vector.cpp` and of the storage handling in `include/MMSP.sparse.cpp` on an explicit heap, so that
use of released storage, reads past the end of a block and leaks are visible.

Simplifications: element conversions (`static_cast<T>`) between different element types are not modelled; `memcpy` of
zero bytes is allowed for any pointers; `new` never runs out of memory, and a negative count throws
`std::bad_array_new_length`, which nothing catches (abort 134). Element values that were never written are `none`;
`memcpy` may copy them, reading one as a value is undefined behaviour.
-/

namespace MMSP.Heap

/-- A `vector<T>` or `sparse<T>` object: `include/MMSP.vector.h` 72-74, `include/MMSP.sparse.h` 58-60. -/
structure Obj where
  data : Option Nat
  size : Int
  deriving DecidableEq

/-- Heap blocks (live ones only) and objects. -/
structure Mem (T : Type) where
  next : Nat
  blk : Nat → Option (List (Option T))
  obj : Nat → Obj

variable {T : Type}

/-- Replacing one block. -/
def setBlk (m : Mem T) (id : Nat) (b : Option (List (Option T))) : Mem T := { m with blk := Function.update m.blk id b }

/-- `new T[n]` -/
def alloc (m : Mem T) (n : Int) : Outcome (Nat × Mem T) :=
  if n < 0 then .abort 134
  else .ok (m.next, setBlk { m with next := m.next + 1 } m.next (some (List.replicate n.toNat none)))

/-- `if (p!=NULL) { delete [] p; }` -/
def free (m : Mem T) (p : Option Nat) : Outcome (Mem T) :=
  match p with
  | none => .ok m
  | some id => if (m.blk id).isSome then .ok (setBlk m id none) else .ub

/-- Reading `p[i]` as a value. -/
def load (m : Mem T) (p : Option Nat) (i : Int) : Outcome T :=
  match p with
  | none => .ub
  | some id =>
    match m.blk id with
    | none => .ub
    | some l => if 0 ≤ i then (match l[i.toNat]? with | some (some v) => .ok v | _ => .ub) else .ub

/-- Writing `p[i]`. -/
def store (m : Mem T) (p : Option Nat) (i : Int) (v : T) : Outcome (Mem T) :=
  match p with
  | none => .ub
  | some id =>
    match m.blk id with
    | none => .ub
    | some l =>
      if 0 ≤ i ∧ i < l.length then .ok (setBlk m id (some (l.set i.toNat (some v)))) else .ub

/-- What lies behind the end of a block: `none`, reading it is undefined behaviour; `some g`, reading it gives
unspecified bytes (what happens on ordinary machines). -/
abbrev Beyond (T : Type) := Option (Nat → Option T)

/-- `memcpy(dst, src, n * sizeof(T))`; overlapping arguments are undefined behaviour. -/
def memcpy (beyond : Beyond T) (m : Mem T) (dst src : Option Nat) (n : Int) : Outcome (Mem T) :=
  if n = 0 then .ok m
  else match dst, src with
  | some d, some s =>
    if d = s then .ub else
    match m.blk d, m.blk s with
    | some ld, some ls =>
      if 0 ≤ n ∧ n ≤ ld.length then
        if n ≤ ls.length then
          .ok (setBlk m d (some (ls.take n.toNat ++ ld.drop n.toNat)))
        else match beyond with
          | none => .ub
          | some g =>
            let ext := ls ++ (List.range (n.toNat - ls.length)).map g
            .ok (setBlk m d (some (ext ++ ld.drop n.toNat)))
      else .ub
    | _, _ => .ub
  | _, _ => .ub

/-- Setting the fields of an object. -/
def setObj (m : Mem T) (a : Nat) (o : Obj) : Mem T := { m with obj := Function.update m.obj a o }

/-- `for (i = lo; i < hi; i++) data[i] = src(i);` where `data` is the field of object `a`. -/
def copyLoop (m : Mem T) (a : Nat) (lo hi : Int) (src : Mem T → Int → Outcome T) : Outcome (Mem T) :=
  ((List.range (hi - lo).toNat).map fun (k : Nat) => lo + k).foldlM
    (fun m i => (src m i).bind fun v => store m (m.obj a).data i v) m

/-! ## vector -/

/-- `v[i]` with `assert(i < size)`, `include/MMSP.vector.h` 29-36. -/
def at' (m : Mem T) (b : Nat) (i : Int) : Outcome T :=
  if i < (m.obj b).size then load m (m.obj b).data i else .abort 134

/-- Writing `a[i] = v` through `operator[]`, `include/MMSP.vector.h` 29-32. -/
def vSet (m : Mem T) (a : Nat) (i : Int) (v : T) : Outcome (Mem T) :=
  if i < (m.obj a).size then store m (m.obj a).data i v else .abort 134

/-- `vector::vector()`, `include/MMSP.vector.cpp` 9-13; `sparse::sparse()`, `include/MMSP.sparse.cpp` 13-17. -/
def vNew (m : Mem T) (a : Nat) : Mem T := setObj m a ⟨none, 0⟩

/-- `vector::operator=(const vector&)`, `include/MMSP.vector.cpp` 61-72; `sparse::operator=`, `include/MMSP.sparse.cpp`
35-48 (whole items are copied by member). -/
def vAssign (m : Mem T) (a b : Nat) : Outcome (Mem T) :=
  (free m (m.obj a).data).bind fun m =>
  let m := setObj m a { m.obj a with data := none }
  let m := setObj m a { m.obj a with size := (m.obj b).size }
  (alloc m (m.obj a).size).bind fun r =>
  let m := setObj r.2 a { r.2.obj a with data := some r.1 }
  copyLoop m a 0 (m.obj a).size fun m i => at' m b i

/-- `vector::copy`, `include/MMSP.vector.cpp` 172-181; `sparse::copy`, `include/MMSP.sparse.cpp` 189-198 (there the size is
assigned first, which makes no difference here). -/
def vCopy (beyond : Beyond T) (m : Mem T) (a b : Nat) : Outcome (Mem T) :=
  (free m (m.obj a).data).bind fun m =>
  let m := setObj m a { m.obj a with data := none }
  let m := setObj m a { m.obj a with size := (m.obj b).size }
  (alloc m (m.obj a).size).bind fun r =>
  let m := setObj r.2 a { r.2.obj a with data := some r.1 }
  memcpy beyond m (m.obj a).data (m.obj b).data (m.obj a).size

/-- Copy construction of `a` from `b`: `include/MMSP.vector.cpp` 15-21 (element loop). `a` is a new object. -/
def vCopyCtor (m : Mem T) (a b : Nat) : Outcome (Mem T) :=
  let m := setObj m a { m.obj a with size := (m.obj b).size }
  (alloc m (m.obj a).size).bind fun r =>
  let m := setObj r.2 a { r.2.obj a with data := some r.1 }
  copyLoop m a 0 (m.obj a).size fun m i => at' m b i

/-- `vector::resize`, `include/MMSP.vector.cpp` 136-170. -/
def vResize (beyond : Beyond T) (m : Mem T) (a : Nat) (N : Int) : Outcome (Mem T) :=
  if (m.obj a).size = 0 then
    let m := setObj m a { m.obj a with size := N }
    (alloc m N).bind fun r => .ok (setObj r.2 a { r.2.obj a with data := some r.1 })
  else if N > (m.obj a).size then
    (alloc m N).bind fun t =>
    (memcpy beyond t.2 (some t.1) (t.2.obj a).data (t.2.obj a).size).bind fun m =>
    (free m (m.obj a).data).bind fun m =>
    let m := setObj m a ⟨none, N⟩
    (alloc m N).bind fun r =>
    let m := setObj r.2 a { r.2.obj a with data := some r.1 }
    (memcpy beyond m (m.obj a).data (some t.1) N).bind fun m => free m (some t.1)
  else if N < (m.obj a).size then
    (alloc m N).bind fun t =>
    (memcpy beyond t.2 (some t.1) (t.2.obj a).data N).bind fun m =>
    (free m (m.obj a).data).bind fun m =>
    let m := setObj m a ⟨none, N⟩
    (alloc m N).bind fun r =>
    let m := setObj r.2 a { r.2.obj a with data := some r.1 }
    (memcpy beyond m (m.obj a).data (some t.1) N).bind fun m => free m (some t.1)
  else .ok m

/-- `vector::swap`, `include/MMSP.vector.cpp` 183-191; `sparse::swap`, `include/MMSP.sparse.cpp` 200-208. -/
def vSwap (m : Mem T) (a b : Nat) : Mem T :=
  let temp := (m.obj a).data
  let m := setObj m a { m.obj a with data := (m.obj b).data }
  let m := setObj m b { m.obj b with data := temp }
  let s := (m.obj a).size
  let m := setObj m a { m.obj a with size := (m.obj b).size }
  setObj m b { m.obj b with size := s }

/-- What an appended or multiplied `const U&` argument refers to: a separate value or an element of a vector. -/
inductive Arg (T : Type) where
  | val (v : T)
  | elem (b : Nat) (p : Option Nat) (i : Int)

/-- Reading through the reference; the address of an element was fixed when the reference was made. -/
def Arg.read (m : Mem T) : Arg T → Outcome T
  | .val v => .ok v
  | .elem _ p i => load m p i

/-- The reference `v[i]`. -/
def elemArg (m : Mem T) (b : Nat) (i : Int) : Arg T := .elem b (m.obj b).data i

/-- `vector::append(const U& value)`, `include/MMSP.vector.cpp` 193-209. -/
def vAppend (beyond : Beyond T) (m : Mem T) (a : Nat) (v : Arg T) : Outcome (Mem T) :=
  (alloc m (m.obj a).size).bind fun t =>
  (memcpy beyond t.2 (some t.1) (t.2.obj a).data (t.2.obj a).size).bind fun m =>
  (free m (m.obj a).data).bind fun m =>
  let m := setObj m a ⟨none, (m.obj a).size + 1⟩
  (alloc m (m.obj a).size).bind fun r =>
  let m := setObj r.2 a { r.2.obj a with data := some r.1 }
  (memcpy beyond m (m.obj a).data (some t.1) (m.obj a).size).bind fun m =>
  (free m (some t.1)).bind fun m =>
  (v.read m).bind fun x => store m (m.obj a).data ((m.obj a).size - 1) x

/-- `vector::append(const vector<U>& v)`, `include/MMSP.vector.cpp` 211-229. -/
def vAppendVec (beyond : Beyond T) (m : Mem T) (a b : Nat) : Outcome (Mem T) :=
  let N := (m.obj a).size
  (alloc m (m.obj a).size).bind fun t =>
  (memcpy beyond t.2 (some t.1) (t.2.obj a).data (t.2.obj a).size).bind fun m =>
  (free m (m.obj a).data).bind fun m =>
  let m := setObj m a ⟨none, (m.obj a).size + (m.obj b).size⟩
  (alloc m (m.obj a).size).bind fun r =>
  let m := setObj r.2 a { r.2.obj a with data := some r.1 }
  (memcpy beyond m (m.obj a).data (some t.1) (m.obj a).size).bind fun m =>
  (free m (some t.1)).bind fun m =>
  copyLoop m a N (m.obj a).size fun m i => at' m b (i - N)

/-- `operator*=(vector<T>&, const U&)`, `include/MMSP.vector.h` 157-161. -/
def vMulEq [Mul T] (m : Mem T) (a : Nat) (v : Arg T) : Outcome (Mem T) :=
  copyLoop m a 0 (m.obj a).size fun m i =>
    (at' m a i).bind fun x => (v.read m).bind fun y => .ok (x * y)

/-- `operator==`, `include/MMSP.vector.cpp` 231-238. -/
def vEq [DecidableEq T] (m : Mem T) (a b : Nat) : Outcome Bool :=
  if (m.obj a).size ≠ (m.obj b).size then .ok false
  else (List.range (m.obj a).size.toNat).foldlM (fun acc (i : Nat) =>
    if acc then (at' m a i).bind fun x => (at' m b i).bind fun y => .ok (decide (x = y)) else .ok false) true

/-! ## Storage handling of `sparse` that differs from `vector` -/

/-- The reallocation in `sparse::set`, `include/MMSP.sparse.cpp` 73-88: one item more, written at the end. -/
def sGrow (beyond : Beyond T) (m : Mem T) (a : Nat) (x : T) : Outcome (Mem T) :=
  (alloc m (m.obj a).size).bind fun t =>
  (memcpy beyond t.2 (some t.1) (t.2.obj a).data (t.2.obj a).size).bind fun m =>
  (free m (m.obj a).data).bind fun m =>
  let m := setObj m a { m.obj a with data := none }
  (alloc m ((m.obj a).size + 1)).bind fun r =>
  let m := setObj r.2 a { r.2.obj a with data := some r.1 }
  (memcpy beyond m (m.obj a).data (some t.1) (m.obj a).size).bind fun m =>
  (free m (some t.1)).bind fun m =>
  let m := setObj m a { m.obj a with size := (m.obj a).size + 1 }
  store m (m.obj a).data ((m.obj a).size - 1) x

/-- Copy construction of a `sparse`, `include/MMSP.sparse.cpp` 19-24 (one `memcpy`). `a` is a new object. -/
def sCopyCtor (beyond : Beyond T) (m : Mem T) (a b : Nat) : Outcome (Mem T) :=
  let m := setObj m a { m.obj a with size := (m.obj b).size }
  (alloc m (m.obj a).size).bind fun r =>
  let m := setObj r.2 a { r.2.obj a with data := some r.1 }
  memcpy beyond m (m.obj a).data (m.obj b).data (m.obj a).size

/-- Destructor, `include/MMSP.vector.cpp` 46-52, `include/MMSP.sparse.cpp` 26-32. -/
def vDestroy (m : Mem T) (a : Nat) : Outcome (Mem T) :=
  (free m (m.obj a).data).bind fun m => .ok (setObj m a { m.obj a with data := none })

end MMSP.Heap
