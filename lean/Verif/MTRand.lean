import Verif.FileHeader
import Mathlib.Logic.Function.Basic
import Mathlib.Data.Rat.Defs
/-!
# The random number generator

Model of `algorithms/MersenneTwister.h` 67-411. `uint32` is `unsigned long`, 64 bits wide; words are natural numbers and every operation
that can leave 64 bits is reduced modulo `2^64`. Arrays are functions, `pNext` is an index into `state`; reading `state` at 624 or beyond
is undefined behaviour. Simplifications: `hash`, `seed()` and `randNorm` (clock, `/dev/urandom`, `log`) are in `MTRandSeed`; `double` arithmetic is
rational arithmetic, followed by a rounding where it is not exact.
-/

namespace MMSP.MTRand

/-- `algorithms/MersenneTwister.h` 81-83 -/
structure MT where
  state : Nat → Nat
  next : Nat
  left : Nat

/-- `algorithms/MersenneTwister.h` 128 -/
def hiBit (u : Nat) : Nat := u &&& 0x80000000
/-- `algorithms/MersenneTwister.h` 129 -/
def loBit (u : Nat) : Nat := u &&& 0x00000001
/-- `algorithms/MersenneTwister.h` 130 -/
def loBits (u : Nat) : Nat := u &&& 0x7fffffff
/-- `algorithms/MersenneTwister.h` 131-132 -/
def mixBits (u v : Nat) : Nat := hiBit u ||| loBits v
/-- `algorithms/MersenneTwister.h` 133-134 -/
def magic (u : Nat) : Nat := if loBit u ≠ 0 then 0x9908b0df else 0x0
/-- `algorithms/MersenneTwister.h` 135-136 -/
def twist (m s0 s1 : Nat) : Nat := m ^^^ (mixBits s0 s1 >>> 1) ^^^ magic s1

/-- `algorithms/MersenneTwister.h` 167-182 on the array `s`. -/
def initState (s : Nat → Nat) (seed : Nat) : Nat → Nat :=
  (List.range 623).foldl (fun s i =>
    Function.update s (i + 1) ((1812433253 * (s i ^^^ (s i >>> 30)) + (i + 1)) % 2 ^ 64 &&& 0xffffffff))
    (Function.update s 0 (seed &&& 0xffffffff))

/-- `algorithms/MersenneTwister.h` 184-198: the three parts of the loop. -/
def reload (g : MT) : MT :=
  let s := (List.range 227).foldl (fun s i => Function.update s i (twist (s (i + 397)) (s i) (s (i + 1)))) g.state
  let s := (List.range 396).foldl (fun s i => Function.update s (i + 227) (twist (s i) (s (i + 227)) (s (i + 228)))) s
  ⟨Function.update s 623 (twist (s 396) (s 623) (s 0)), 0, 624⟩

/-- `algorithms/MersenneTwister.h` 200-205 and 265-266. -/
def seed (g : MT) (oneSeed : Nat) : MT := reload { g with state := initState g.state oneSeed }

/-- `algorithms/MersenneTwister.h` 218-226: state array, `i` and `j`. -/
def mixKey (bigSeed : List Nat) (a : (Nat → Nat) × Nat × Nat) : Outcome ((Nat → Nat) × Nat × Nat) :=
  let (s, i, j) := a
  match bigSeed[j]? with
  | none => .ub
  | some w =>
    let v := s i ^^^ ((s (i - 1) ^^^ (s (i - 1) >>> 30)) * 1664525) % 2 ^ 64
    let v := (v + ((w &&& 0xffffffff) + j)) % 2 ^ 64 &&& 0xffffffff
    let s := Function.update s i v
    let j := if j + 1 ≥ bigSeed.length then 0 else j + 1
    if i + 1 ≥ 624 then .ok (Function.update s 0 (s 623), 1, j) else .ok (s, i + 1, j)

/-- `algorithms/MersenneTwister.h` 227-236 -/
def mixIndex (a : (Nat → Nat) × Nat) : (Nat → Nat) × Nat :=
  let (s, i) := a
  let v := s i ^^^ ((s (i - 1) ^^^ (s (i - 1) >>> 30)) * 1566083941) % 2 ^ 64
  let s := Function.update s i ((v + (2 ^ 64 - i)) % 2 ^ 64 &&& 0xffffffff)
  if i + 1 ≥ 624 then (Function.update s 0 (s 623), 1) else (s, i + 1)

/-- `algorithms/MersenneTwister.h` 207-240 and 268-269; `seedLength` is the length of the array. -/
def seedArray (g : MT) (bigSeed : List Nat) : Outcome MT :=
  ((List.range (max 624 bigSeed.length)).foldlM (fun a _ => mixKey bigSeed a) (initState g.state 19650218, 1, 0)).bind fun a =>
  let a := (List.range 623).foldl (fun a _ => mixIndex a) (a.1, a.2.1)
  .ok (reload { g with state := Function.update a.1 0 0x80000000 })

/-- `algorithms/MersenneTwister.h` 292-297: `s1 << 7` and `s1 << 15` stay below 64 bits for the words of the state. -/
def temper (s1 : Nat) : Nat :=
  let s1 := s1 ^^^ (s1 >>> 11)
  let s1 := s1 ^^^ ((s1 <<< 7) % 2 ^ 64 &&& 0x9d2c5680)
  let s1 := s1 ^^^ ((s1 <<< 15) % 2 ^ 64 &&& 0xefc60000)
  s1 ^^^ (s1 >>> 18)

/-- `algorithms/MersenneTwister.h` 284-298 -/
def randInt (g : MT) : Outcome (Nat × MT) :=
  let g := if g.left = 0 then reload g else g
  if g.next ≥ 624 then .ub else .ok (temper (g.state g.next), ⟨g.state, g.next + 1, g.left - 1⟩)

/-- `algorithms/MersenneTwister.h` 304-309 -/
def used (n : Nat) : Nat :=
  let u := n
  let u := u ||| u >>> 1
  let u := u ||| u >>> 2
  let u := u ||| u >>> 4
  let u := u ||| u >>> 8
  u ||| u >>> 16

/-- `algorithms/MersenneTwister.h` 300-317; `none` if no number was accepted within the fuel. -/
def randIntTo (n : Nat) : Nat → MT → Outcome (Option (Nat × MT))
  | 0, _ => .ok none
  | fuel + 1, g => (randInt g).bind fun r =>
    if r.1 &&& used n > n then randIntTo n fuel r.2 else .ok (some (r.1 &&& used n, r.2))

/-- `algorithms/MersenneTwister.h` 274-282 and 401-411 (for another object). -/
def copy (o : MT) : MT := ⟨o.state, 624 - o.left, o.left⟩

/-- `algorithms/MersenneTwister.h` 364-371: the 625 words. -/
def save (g : MT) : List Nat := (List.range 624).map g.state ++ [g.left]

/-- `algorithms/MersenneTwister.h` 373-381; a count above 624 puts `pNext` before the array. -/
def load (a : List Nat) : Outcome MT :=
  if a.length < 625 then .ub else
  let left := a.getD 624 0
  if left > 624 then .ub else .ok ⟨fun i => a.getD i 0, 624 - left, left⟩

open FileIO

/-- The tab character. -/
def tab : Byte := 9

/-- `algorithms/MersenneTwister.h` 383-389 -/
def put (g : MT) : List Byte := ((List.range 624).flatMap fun i => natDec (g.state i) ++ [tab]) ++ natDec g.left

/-- `operator>>(unsigned long&)` of a number without sign; no digits or a value of more than 64 bits make it fail. -/
def extractWord (s : List Byte) : Option (Nat × List Byte) :=
  let t := s.dropWhile isSpace
  let ds := t.takeWhile isDigit
  if ds = [] ∨ digitsVal ds ≥ 2 ^ 64 then none else some (digitsVal ds, t.dropWhile isDigit)

/-- `algorithms/MersenneTwister.h` 395 -/
def extractWords : Nat → List Byte → Option (List Nat × List Byte)
  | 0, s => some ([], s)
  | n + 1, s => (extractWord s).bind fun a => (extractWords n a.2).bind fun b => some (a.1 :: b.1, b.2)

/-- `algorithms/MersenneTwister.h` 391-399; a failed extraction is not modelled (`none`). -/
def get (s : List Byte) : Option (MT × List Byte) :=
  (extractWords 624 s).bind fun a => (extractInt a.2).bind fun l =>
  if l.1 < 0 ∨ l.1 > 624 then none else some (⟨fun i => a.1.getD i 0, 624 - l.1.toNat, l.1.toNat⟩, l.2)

/-- `n` calls of `randInt()`: the numbers and the generator afterwards. -/
def draws : Nat → MT → Outcome (List Nat × MT)
  | 0, g => .ok ([], g)
  | n + 1, g => (randInt g).bind fun r => (draws n r.2).bind fun s => .ok (r.1 :: s.1, s.2)

/-- `algorithms/MersenneTwister.h` 319-320. The constant is `1.0/4294967295.0` as a `double`; `fl` rounds the product. -/
def rand (fl : ℚ → ℚ) (r : Nat) : ℚ := fl (r * ((2 ^ 32 + 1) / 2 ^ 64))

/-- `algorithms/MersenneTwister.h` 325-326: a multiplication by a power of two, exact. -/
def randExc (r : Nat) : ℚ := r * (1 / 4294967296)

/-- `algorithms/MersenneTwister.h` 331-332: exact, 33 significant bits. -/
def randDblExc (r : Nat) : ℚ := (r + 1 / 2) * (1 / 4294967296)

/-- `algorithms/MersenneTwister.h` 337-341: exact, 53 significant bits. -/
def rand53 (r r' : Nat) : ℚ := ((r >>> 5 : Nat) * 67108864 + (r' >>> 6 : Nat)) * (1 / 9007199254740992)

end MMSP.MTRand
