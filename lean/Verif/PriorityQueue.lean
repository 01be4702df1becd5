import Verif.Outcome
import Mathlib.Order.Defs.LinearOrder
import Mathlib.Logic.Function.Basic
/-!
# The priority queue of the tessellation

Model of `algorithms/priority_queue.h`. Elements (`DistanceVoxel*`) are values of a type `E`; `key e` is `e->getValue()`, which
the owner of the voxel may change between calls. `std::map` is a function to `Option`. Simplifications: `double` keys are taken from a linear
order (no NaN); sizes and indices are natural numbers below `INT_MAX`.
-/

namespace MMSP.PriorityQueue

/-- `algorithms/priority_queue.h` 94-97: `m_heap` (its elements and its size) and `backpointers`. -/
structure PQ (E : Type) where
  heap : Nat → E
  size : Nat
  back : E → Option Nat

variable {E K : Type} [DecidableEq E] [LinearOrder K]

/-- `algorithms/priority_queue.h` 21: the default constructor (`m_heap` has no elements). -/
def empty [Inhabited E] : PQ E := ⟨fun _ => default, 0, fun _ => none⟩

/-- `algorithms/priority_queue.h` 35-39 -/
def parent (i : Nat) : Nat := (i - 1) / 2

/-- `algorithms/priority_queue.h` 100-108 -/
def PQ.swap (q : PQ E) (i j : Nat) : PQ E :=
  let heap := Function.update (Function.update q.heap j (q.heap i)) i (q.heap j)
  { q with heap := heap, back := Function.update (Function.update q.back (heap i) (some i)) (heap j) (some j) }

/-- `algorithms/priority_queue.h` 111-121. Reading `m_heap[i]` beyond the end is undefined. -/
def PQ.percolateUp (key : E → K) (q : PQ E) (i : Nat) : Outcome (PQ E) :=
  if h : i = 0 then .ok q
  else if i ≥ q.size then .ub
  else if key (q.heap i) < key (q.heap (parent i)) then PQ.percolateUp key (q.swap i (parent i)) (parent i)
  else .ok q
termination_by i
decreasing_by unfold parent; omega

/-- `algorithms/priority_queue.h` 126-130: the child to compare with. -/
def PQ.child (key : E → K) (q : PQ E) (i : Nat) : Nat :=
  if 2 * i + 2 < q.size ∧ key (q.heap (2 * i + 2)) < key (q.heap (2 * i + 1)) then 2 * i + 2 else 2 * i + 1

/-- `algorithms/priority_queue.h` 123-138 -/
def PQ.percolateDown (key : E → K) (q : PQ E) (i : Nat) : PQ E :=
  if 2 * i + 1 < q.size then
    if key (q.heap (q.child key i)) < key (q.heap i) then PQ.percolateDown key (q.swap (q.child key i) i) (q.child key i)
    else q
  else q
termination_by q.size - i
decreasing_by
  have : i < q.child key i := by unfold PQ.child; split_ifs <;> omega
  simp only [PQ.swap]; omega

/-- `algorithms/priority_queue.h` 52-55 -/
def PQ.top (q : PQ E) : Outcome E := if q.size = 0 then .abort 134 else .ok (q.heap 0)

/-- `algorithms/priority_queue.h` 58-61 -/
def PQ.inHeap (q : PQ E) (e : E) : Bool := (q.back e).isSome

/-- `algorithms/priority_queue.h` 64-70 -/
def PQ.push (key : E → K) (q : PQ E) (e : E) : Outcome (PQ E) :=
  if (q.back e).isSome then .abort 134 else
  PQ.percolateUp key ⟨Function.update q.heap q.size e, q.size + 1, Function.update q.back e (some q.size)⟩ q.size

/-- `algorithms/priority_queue.h` 73-78: the iterator stays valid, and its index is read again for the second call. -/
def PQ.updatePosition (key : E → K) (q : PQ E) (e : E) : Outcome (PQ E) :=
  match q.back e with
  | none => .abort 134
  | some i => (q.percolateUp key i).bind fun q =>
    match q.back e with
    | none => .ub
    | some i => .ok (q.percolateDown key i)

/-- `algorithms/priority_queue.h` 81-88 -/
def PQ.pop (key : E → K) (q : PQ E) : Outcome (PQ E) :=
  if q.size = 0 then .abort 134 else
  if q.back (q.heap 0) = none then .abort 134 else
  .ok (PQ.percolateDown key ⟨Function.update q.heap 0 (q.heap (q.size - 1)), q.size - 1, Function.update q.back (q.heap 0) none⟩ 0)

end MMSP.PriorityQueue
