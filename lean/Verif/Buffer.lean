import Verif.Outcome
import Verif.Index
/-!
# Byte buffers: cells and grid regions

Model of the buffer functions of primitive cells (`include/MMSP.utility.h` 142-152), `scalar`
(`include/MMSP.scalar.h` 53-64), `vector` (`include/MMSP.vector.cpp` 92-117), `sparse`
(`include/MMSP.sparse.cpp` 139-161) and of grid regions (`include/MMSP.grid.cpp` 1111-1180).

Simplifications: a pointer into a buffer is the list of bytes from that position to the end of the allocation, so
reading past the end of that list is undefined behaviour. `int` has four bytes, little-endian.
`sizeof(item<T>)` is `4 + pad + sizeof(T)` with `pad` bytes of unspecified content between index and value.
-/

namespace MMSP

open Finset

abbrev Byte := UInt8

/-- Little-endian bytes of a number. -/
def leBytes : Nat → Nat → List Byte
  | 0, _ => []
  | w + 1, n => UInt8.ofNat (n % 256) :: leBytes w (n / 256)

/-- Number with the given little-endian bytes. -/
def ofLe : List Byte → Nat
  | [] => 0
  | b :: bs => b.toNat + 256 * ofLe bs

/-- How the object representation of a trivially copyable type relates to its values (what `memcpy` of an object
transfers). The two laws are the assumption made about such types. -/
structure Codec (T : Type) where
  width : Nat
  enc : T → List Byte
  dec : List Byte → T
  enc_length : ∀ v, (enc v).length = width
  dec_enc : ∀ v, dec (enc v) = v

/-- The four buffer functions of a cell type; `dec buf` is `from_buffer` applied to a pointer with the bytes `buf`
behind it and returns the new value and the returned byte count. `Valid` are the values the C++ type can hold. -/
structure Cell (T : Type) where
  Valid : T → Prop
  size : T → Nat
  enc : T → List Byte
  dec : List Byte → Outcome (T × Nat)

/-- `memcpy(dst, src, n)` out of a buffer. -/
def take (n : Nat) (buf : List Byte) : Outcome (List Byte) :=
  if n ≤ buf.length then .ok (buf.take n) else .ub

/-- `memcpy(&size, buffer, sizeof(size))` for an `int`. -/
def readInt (buf : List Byte) : Outcome Int :=
  (take 4 buf).bind fun b => .ok (if ofLe b < 2 ^ 31 then (ofLe b : Int) else (ofLe b : Int) - 2 ^ 32)

/-- Two's-complement bytes of an `int`. -/
def intBytes (n : Int) : List Byte := leBytes 4 (n % 2 ^ 32).toNat

/-- `include/MMSP.utility.h` 142-152 and `include/MMSP.scalar.h` 53-64. -/
def primCell {T : Type} (c : Codec T) : Cell T where
  Valid := fun _ => True
  size := fun _ => c.width
  enc := c.enc
  dec := fun buf => (take c.width buf).bind fun b => .ok (c.dec b, c.width)

/-- Decode `n` consecutive array elements of width `w`. -/
def decArray {T : Type} (c : Codec T) : Nat → List Byte → List T
  | 0, _ => []
  | n + 1, buf => c.dec (buf.take c.width) :: decArray c n (buf.drop c.width)

/-- `include/MMSP.vector.cpp` 92-117, and with `item<T>` elements `include/MMSP.sparse.cpp` 139-161.
A negative size makes `new T[size]` throw (`std::bad_array_new_length`), which nothing catches. -/
def arrayCell {T : Type} (c : Codec T) : Cell (List T) where
  Valid := fun v => v.length < 2 ^ 31
  size := fun v => 4 + v.length * c.width
  enc := fun v => intBytes v.length ++ v.flatMap c.enc
  dec := fun buf =>
    (readInt buf).bind fun n =>
      if n < 0 then .abort 134
      else (take (n.toNat * c.width) (buf.drop 4)).bind fun b =>
        .ok (decArray c n.toNat b, 4 + n.toNat * c.width)

/-- `include/MMSP.sparse.h` 12-16: `item<T>` in memory is an `int`, `pad` alignment bytes of unspecified content, and the
value. `memcpy` carries the alignment bytes along, so they are part of the value here. For a `T` narrower than `int` the alignment bytes come after the value; nothing below depends on
their place. -/
abbrev RawItem (T : Type) (pad : Nat) : Type :=
  { i : Int // -2 ^ 31 ≤ i ∧ i < 2 ^ 31 } × { l : List Byte // l.length = pad } × T

/-- Object representation of `item<T>`, `sizeof(item<T>) = 4 + pad + sizeof(T)`. -/
def itemCodec {T : Type} (c : Codec T) (pad : Nat) (pad0 : { l : List Byte // l.length = pad }) :
    Codec (RawItem T pad) where
  width := 4 + pad + c.width
  enc := fun it => intBytes it.1.1 ++ it.2.1.1 ++ c.enc it.2.2
  dec := fun buf =>
    let n := ofLe (buf.take 4)
    let i : Int := if n < 2 ^ 31 then (n : Int) else (n : Int) - 2 ^ 32
    (if h : -2 ^ 31 ≤ i ∧ i < 2 ^ 31 then ⟨i, h⟩ else ⟨0, by decide⟩,
      if h : ((buf.drop 4).take pad).length = pad then ⟨_, h⟩ else pad0,
      c.dec (buf.drop (4 + pad)))
  enc_length := by
    intro v
    have := v.2.1.2
    simp [intBytes, c.enc_length, leBytes, this]; omega
  dec_enc := by
    intro ⟨⟨i, hi⟩, ⟨l, hl⟩, v⟩
    subst hl
    have h4 : (intBytes i).length = 4 := by simp [intBytes, leBytes]
    have hlen : (intBytes i ++ l).length = 4 + l.length := by simp [h4]
    have hn : ofLe ((intBytes i ++ l ++ c.enc v).take 4) = (i % 2 ^ 32).toNat := by
      rw [List.append_assoc, List.take_append_of_le_length (by omega), List.take_of_length_le (by omega)]
      unfold intBytes
      simp only [leBytes, ofLe, UInt8.toNat_ofNat']
      omega
    have hd : (intBytes i ++ l ++ c.enc v).drop (4 + l.length) = c.enc v := by
      rw [← hlen, List.drop_left]
    have hp : ((intBytes i ++ l ++ c.enc v).drop 4).take l.length = l := by
      rw [List.append_assoc, ← h4, List.drop_left, List.take_left]
    have hdec : (if (i % 2 ^ 32).toNat < 2 ^ 31 then ((i % 2 ^ 32).toNat : Int)
        else ((i % 2 ^ 32).toNat : Int) - 2 ^ 32) = i := by
      split <;> omega
    simp only [hn, hd, hp, c.dec_enc, hdec]
    rw [dif_pos hi]
    simp

/-! ## Regions of a grid -/

/-- The loop `for (int x = a; x < b; x += st)`; `st` is 1 in the ordinary traversals and 2 in the `_save` ones. -/
def irange (st : Nat) (a b : Int) : List Int :=
  (List.range ((b - a + st - 1) / st).toNat).map fun (k : Nat) => a + st * k

section Region
variable {T : Type} (c : Cell T) (g : Shape) (st : Nat) (mn mx : Nat → Int)

/-- Reading `*(data + p)`; outside the array of `cells` elements this is undefined behaviour. -/
def deref (data : Int → T) (p : Int) : Outcome T := if 0 ≤ p ∧ p < g.cells then .ok (data p) else .ub

/-- `include/MMSP.grid.cpp` 1111-1122 and (`st = 2`) 1056-1073, recursion on the number `k = dim - i` of axes left; the body of the innermost
loop (`i == dim-1`) is the case `k = 0`. -/
def regionSize (data : Int → T) : Nat → Int → Outcome Nat
  | 0, p => (deref g data p).bind fun v => .ok (c.size v)
  | k + 1, p =>
    let i := g.dim - (k + 1)
    (irange st (mn i) (mx i)).foldlM (fun size x =>
      (regionSize data k (p + (x - g.s0 i) * g.sx i)).bind fun n => .ok (size + n)) 0

/-- `include/MMSP.grid.cpp` 1143-1154 and (`st = 2`) 1074-1090; the result is what has been written to the buffer. -/
def regionTo (data : Int → T) : Nat → Int → Outcome (List Byte)
  | 0, p => (deref g data p).bind fun v => .ok (c.enc v)
  | k + 1, p =>
    let i := g.dim - (k + 1)
    (irange st (mn i) (mx i)).foldlM (fun out x =>
      (regionTo data k (p + (x - g.s0 i) * g.sx i)).bind fun b => .ok (out ++ b)) []

/-- Writing `*(data + p)`. -/
def store (data : Int → T) (p : Int) (v : T) : Outcome (Int → T) :=
  if 0 ≤ p ∧ p < g.cells then .ok (Function.update data p v) else .ub

/-- `include/MMSP.grid.cpp` 1166-1177 and (`st = 2`) 1092-1108; `buf` is what lies behind the pointer `buffer`, the result is the new data
array and the returned size. -/
def regionFrom (buf : List Byte) : Nat → Int → (Int → T) → Outcome ((Int → T) × Nat)
  | 0, p, data =>
    (c.dec buf).bind fun vn => (store g data p vn.1).bind fun data' => .ok (data', vn.2)
  | k + 1, p, data =>
    let i := g.dim - (k + 1)
    (irange st (mn i) (mx i)).foldlM (fun (q : (Int → T) × Nat) x =>
      (regionFrom (buf.drop q.2) k (p + (x - g.s0 i) * g.sx i) q.1).bind fun r => .ok (r.1, q.2 + r.2)) (data, 0)

/-- `include/MMSP.grid.cpp` 1124-1127 and 1056-1059 -/
def bufferSize (data : Int → T) : Outcome Nat := regionSize c g st mn mx data g.dim 0
/-- `include/MMSP.grid.cpp` 1138-1141 and 1074-1077 -/
def toBuffer (data : Int → T) : Outcome (List Byte) := regionTo c g st mn mx data g.dim 0
/-- `include/MMSP.grid.cpp` 1161-1164 and 1092-1095 -/
def fromBuffer (buf : List Byte) (data : Int → T) : Outcome ((Int → T) × Nat) := regionFrom c g st mn mx buf g.dim 0 data

end Region

end MMSP
