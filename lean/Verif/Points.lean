import Verif.Outcome
import Mathlib.Algebra.Order.Floor.Ring
import Mathlib.Algebra.Order.Field.Basic
import Mathlib.Analysis.Real.Sqrt
import Mathlib.Tactic.Linarith
import Mathlib.Tactic.FieldSimp
import Mathlib.Tactic.Ring
import Mathlib.Tactic.Positivity
/-!
# Property C134: the class `Point`

Model of `algorithms/topology/point.hpp` 6-103, for points with `int` coordinates (the points of an edge in
`algorithms/topology/topology.hpp` 117) and with floating-point coordinates (the centroid of a grain).

Simplifications: floating-point arithmetic is exact, in an ordered field. `int` arithmetic that leaves the range of `int`,
`int` division by zero and conversion to `int` of a value out of range are undefined behaviour. Dividing a floating-point
number by zero is undefined behaviour too. Output (86-90) is left out.
-/

namespace MMSP.Pts

open MMSP

/-! ## Model -/

/-- `class Point`, 6-9 -/
@[ext] structure Pt (T : Type) where
  x : T
  y : T
  z : T
deriving DecidableEq

/-- `operator[]`, 16-25 -/
def Pt.at {T : Type} (p : Pt T) (i : Int) : T := if i = 1 then p.y else if i = 2 then p.z else p.x

/-- Assignment through `operator[]`, 16-20 -/
def Pt.set {T : Type} (p : Pt T) (i : Int) (v : T) : Pt T :=
  if i = 1 then { p with y := v } else if i = 2 then { p with z := v } else { p with x := v }

/-- Something done with every coordinate, in the order of the members. -/
def Pt.each {A B : Type} (op : A → Outcome B) (p : Pt A) : Outcome (Pt B) :=
  (op p.x).bind fun a => (op p.y).bind fun b => (op p.z).bind fun c => .ok ⟨a, b, c⟩

/-- The result of an `int` operation. -/
def int32 (n : Int) : Outcome Int := if -2 ^ 31 ≤ n ∧ n < 2 ^ 31 then .ok n else .ub

/-- `operator+`, 58-60, and `operator+=`, 27-32, for `int`. -/
def plus (p q : Pt Int) : Outcome (Pt Int) :=
  (int32 (p.x + q.x)).bind fun a => (int32 (p.y + q.y)).bind fun b => (int32 (p.z + q.z)).bind fun c => .ok ⟨a, b, c⟩

/-- `operator-`, 63-65, and `operator-=`, 33-38, for `int`. -/
def minus (p q : Pt Int) : Outcome (Pt Int) :=
  (int32 (p.x - q.x)).bind fun a => (int32 (p.y - q.y)).bind fun b => (int32 (p.z - q.z)).bind fun c => .ok ⟨a, b, c⟩

/-- `operator==`, 101-103 -/
def same (p q : Pt Int) : Bool := decide (p.x = q.x) && decide (p.y = q.y) && decide (p.z = q.z)

section
variable {K : Type} [Field K] [LinearOrder K] [IsStrictOrderedRing K] [FloorRing K]

/-- The whole number a conversion from floating point to `int` gives. -/
def trunc (f : K) : Int := if 0 ≤ f then ⌊f⌋ else ⌈f⌉

/-- Conversion of a floating-point number to `int`. -/
def toInt (f : K) : Outcome Int := int32 (trunc f)

/-- `Point<int>(const Point<float>&)`, 13-14 -/
def convert (p : Pt K) : Outcome (Pt Int) := p.each toInt

/-- `operator*=` of a `Point<int>` with a floating-point factor, 39-46: the factor becomes an `int` first. -/
def mulAssign (f : K) (p : Pt Int) : Outcome (Pt Int) :=
  (toInt f).bind fun n => p.each fun a => int32 (a * n)

/-- `operator/=` of a `Point<int>` with a floating-point divisor, 47-54: the divisor becomes an `int` first. -/
def divAssign (f : K) (p : Pt Int) : Outcome (Pt Int) :=
  (toInt f).bind fun n => p.each fun a => if n = 0 then .ub else int32 (a.tdiv n)

/-- `operator*` of a floating-point number and a `Point<int>`, 73-75: a `Point` of floating-point numbers. -/
def times (f : K) (p : Pt Int) : Pt K := ⟨f * p.x, f * p.y, f * p.z⟩

/-- `operator*` of an `int` and a floating-point `Point`, 73-75: a `Point<int>`, so each product becomes an `int`. -/
def timesInt (f : Int) (p : Pt K) : Outcome (Pt Int) := p.each fun a => toInt ((f : K) * a)

/-- `operator/` of a `Point<int>` and a floating-point number, 83-85: each quotient becomes an `int`. -/
def over (p : Pt Int) (f : K) : Outcome (Pt Int) :=
  p.each fun a : Int => if f = 0 then .ub else toInt ((a : K) / f)

end

/-- The argument of `sqrt` in `distance_function` for `int`, 96-98. -/
def sqDist (p q : Pt Int) : Outcome Int :=
  (int32 (p.x - q.x)).bind fun a => (int32 (a * a)).bind fun aa =>
  (int32 (p.y - q.y)).bind fun b => (int32 (b * b)).bind fun bb => (int32 (aa + bb)).bind fun s =>
  (int32 (p.z - q.z)).bind fun c => (int32 (c * c)).bind fun cc => int32 (s + cc)

/-- `distance_function` for `int`, 96-98 -/
noncomputable def distance (p q : Pt Int) : Outcome ℝ := (sqDist p q).bind fun s => .ok (Real.sqrt s)

/-! ## Lemmas -/

private theorem int32_ok {n m : Int} : int32 n = .ok m ↔ (-2 ^ 31 ≤ n ∧ n < 2 ^ 31) ∧ m = n := by
  unfold int32; split_ifs with h
  · simp only [Outcome.ok.injEq]; exact ⟨fun e => ⟨h, e.symm⟩, fun e => e.2.symm⟩
  · exact ⟨fun e => (by cases e), fun e => absurd e.1 h⟩

private theorem int32_of {n : Int} (h : -2 ^ 31 ≤ n ∧ n < 2 ^ 31) : int32 n = .ok n := int32_ok.mpr ⟨h, rfl⟩

private theorem bind_ok {A B : Type} {o : Outcome A} {f : A → Outcome B} {b : B} :
    o.bind f = .ok b ↔ ∃ a, o = .ok a ∧ f a = .ok b := by
  cases o <;> simp [Outcome.bind]

private theorem bind_abort {A B : Type} {o : Outcome A} {f : A → Outcome B} {z : Int} :
    o.bind f = .abort z ↔ o = .abort z ∨ ∃ a, o = .ok a ∧ f a = .abort z := by
  cases o <;> simp [Outcome.bind]

private theorem int32_abort {n z : Int} : (int32 n = .abort z) = False := by
  unfold int32; split_ifs <;> simp

private theorem each_ok {A B : Type} {op : A → Outcome B} {p : Pt A} {r : Pt B} :
    p.each op = .ok r ↔ op p.x = .ok r.x ∧ op p.y = .ok r.y ∧ op p.z = .ok r.z := by
  unfold Pt.each
  simp only [bind_ok]
  constructor
  · rintro ⟨a, ha, b, hb, c, hc, h⟩
    simp only [Outcome.ok.injEq] at h
    subst h; exact ⟨ha, hb, hc⟩
  · rintro ⟨ha, hb, hc⟩
    exact ⟨_, ha, _, hb, _, hc, rfl⟩

section
variable {K : Type} [Field K] [LinearOrder K] [IsStrictOrderedRing K] [FloorRing K]

private theorem trunc_neg (f : K) : trunc (-f) = -trunc f := by
  unfold trunc
  rcases lt_trichotomy f 0 with h | h | h
  · rw [if_pos (by linarith), if_neg (by linarith), Int.floor_neg]
  · subst h; simp
  · rw [if_neg (by linarith), if_pos h.le, Int.ceil_neg]

private theorem trunc_int (n : Int) : trunc (n : K) = n := by unfold trunc; split_ifs <;> simp

private theorem trunc_mul_nonneg {f : K} (hf : 0 ≤ f) {a : Int} (ha : 0 ≤ a) :
    trunc (f * a) = a * trunc f + ⌊(a : K) * Int.fract f⌋ := by
  have haK : (0 : K) ≤ a := by exact_mod_cast ha
  unfold trunc
  rw [if_pos (mul_nonneg hf haK), if_pos hf]
  have : f * a = ((a * ⌊f⌋ : Int) : K) + (a : K) * Int.fract f := by
    have := Int.floor_add_fract f
    push_cast
    calc f * a = (⌊f⌋ + Int.fract f) * a := by rw [this]
      _ = _ := by ring
  rw [this, Int.floor_intCast_add]

private theorem trunc_mul_iff {f : K} (hf : 0 ≤ f) (a : Int) :
    trunc (f * a) = a * trunc f ↔ |(a : K)| * Int.fract f < 1 := by
  have key : ∀ b : Int, 0 ≤ b → (trunc (f * b) = b * trunc f ↔ (b : K) * Int.fract f < 1) := by
    intro b hb
    have hbK : (0 : K) ≤ b := by exact_mod_cast hb
    rw [trunc_mul_nonneg hf hb]
    have h0 : 0 ≤ (b : K) * Int.fract f := mul_nonneg hbK (Int.fract_nonneg f)
    constructor
    · intro h
      have : ⌊(b : K) * Int.fract f⌋ = 0 := by omega
      exact (Int.floor_eq_zero_iff.mp this).2
    · intro h
      have : ⌊(b : K) * Int.fract f⌋ = 0 := Int.floor_eq_zero_iff.mpr ⟨h0, h⟩
      omega
  rcases le_total 0 a with h | h
  · rw [abs_of_nonneg (by exact_mod_cast h)]; exact key a h
  · rw [abs_of_nonpos (by exact_mod_cast h)]
    have := key (-a) (by omega)
    rw [Int.cast_neg, mul_neg, trunc_neg, neg_mul, neg_inj] at this
    rw [this]

private theorem trunc_div (a n : Int) (hn : n ≠ 0) : trunc ((a : K) / (n : K)) = a.tdiv n := by
  have key : ∀ b m : Int, 0 ≤ b → 0 < m → trunc ((b : K) / (m : K)) = b.tdiv m := by
    intro b m hb hm
    have hbK : (0 : K) ≤ b := by exact_mod_cast hb
    have hmK : (0 : K) < m := by exact_mod_cast hm
    unfold trunc
    rw [if_pos (div_nonneg hbK hmK.le), Int.tdiv_eq_ediv_of_nonneg hb, Int.floor_eq_iff]
    have e := Int.mul_ediv_add_emod b m
    have l := Int.emod_lt_of_pos b hm
    have g := Int.emod_nonneg b hm.ne'
    constructor
    · rw [le_div_iff₀ hmK]
      have : b / m * m ≤ b := by linarith [mul_comm m (b / m)]
      exact_mod_cast this
    · rw [div_lt_iff₀ hmK]
      have : b < (b / m + 1) * m := by linarith [mul_comm m (b / m), add_mul (b / m) 1 m]
      exact_mod_cast this
  rcases lt_or_gt_of_ne hn with h | h <;> rcases le_total 0 a with h' | h'
  · have := key a (-n) h' (by omega)
    rw [Int.cast_neg, div_neg, trunc_neg, Int.tdiv_neg] at this
    omega
  · have := key (-a) (-n) (by omega) (by omega)
    rwa [Int.cast_neg, Int.cast_neg, neg_div_neg_eq, Int.neg_tdiv, Int.tdiv_neg, neg_neg] at this
  · exact key a n h' h
  · have := key (-a) n (by omega) h
    rw [Int.cast_neg, neg_div, trunc_neg, Int.neg_tdiv] at this
    omega

end

/-- The sum of the squares of the coordinate differences. -/
def squares (p q : Pt Int) : Int := (p.x - q.x) ^ 2 + (p.y - q.y) ^ 2 + (p.z - q.z) ^ 2

private theorem sq_small {a : Int} (h : a * a < 2 ^ 31) : -2 ^ 31 ≤ a ∧ a < 2 ^ 31 := by
  constructor <;> nlinarith

/-! ## Theorems -/

/-- C134: there are three places. Reading gives what was last stored at the same place; every index but 1 and 2 means the
first coordinate, so an index out of range is never noticed. -/
theorem subscript {T : Type} (p : Pt T) (i j : Int) (v : T) :
    ((p.set i v).at j = if i = j ∨ (i ≠ 1 ∧ i ≠ 2 ∧ j ≠ 1 ∧ j ≠ 2) then v else p.at j) ∧
    (i ≠ 1 → i ≠ 2 → p.at i = p.x) := by
  refine ⟨?_, fun h1 h2 => by simp [Pt.at, h1, h2]⟩
  unfold Pt.set Pt.at
  by_cases i1 : i = 1 <;> by_cases i2 : i = 2 <;> by_cases j1 : j = 1 <;> by_cases j2 : j = 2 <;>
    simp_all <;> omega

/-- C134: `==` holds exactly for equal points, and what `+` computes without overflow, `-` takes back. -/
theorem plus_minus (p q : Pt Int) :
    (same p q = true ↔ p = q) ∧
    ∀ r, plus p q = .ok r → (-2 ^ 31 ≤ p.x ∧ p.x < 2 ^ 31) → (-2 ^ 31 ≤ p.y ∧ p.y < 2 ^ 31) →
      (-2 ^ 31 ≤ p.z ∧ p.z < 2 ^ 31) → minus r q = .ok p := by
  constructor
  · simp [same, Pt.ext_iff, and_assoc]
  · intro r hr hx hy hz
    simp only [plus, bind_ok, int32_ok] at hr
    obtain ⟨a, ⟨_, rfl⟩, b, ⟨_, rfl⟩, c, ⟨_, rfl⟩, h⟩ := hr
    simp only [Outcome.ok.injEq] at h
    subst h
    simp only [minus, add_sub_cancel_right, int32_of hx, int32_of hy, int32_of hz, Outcome.ok_bind]

section
variable {K : Type} [Field K] [LinearOrder K] [IsStrictOrderedRing K] [FloorRing K]

/-- C134: `p *= f` of a `Point<int>` gives the products `f * p`, converted to `int`, if and only if no coordinate times the
fraction of `f` reaches one. -/
theorem mulAssign_iff {f : K} (hf : 0 ≤ f) (p r r' : Pt Int) (h : mulAssign f p = .ok r)
    (h' : convert (times f p) = .ok r') :
    r = r' ↔ |(p.x : K)| * Int.fract f < 1 ∧ |(p.y : K)| * Int.fract f < 1 ∧ |(p.z : K)| * Int.fract f < 1 := by
  simp only [mulAssign, toInt, bind_ok, each_ok, int32_ok] at h
  obtain ⟨n, ⟨_, rfl⟩, ⟨_, hx⟩, ⟨_, hy⟩, ⟨_, hz⟩⟩ := h
  simp only [convert, times, toInt, each_ok, int32_ok] at h'
  obtain ⟨⟨_, hx'⟩, ⟨_, hy'⟩, ⟨_, hz'⟩⟩ := h'
  rw [Pt.ext_iff, hx, hy, hz, hx', hy', hz', ← trunc_mul_iff hf, ← trunc_mul_iff hf, ← trunc_mul_iff hf]
  exact ⟨fun e => ⟨e.1.symm, e.2.1.symm, e.2.2.symm⟩, fun e => ⟨e.1.symm, e.2.1.symm, e.2.2.symm⟩⟩

omit [IsStrictOrderedRing K] in
/-- C134: `p *= f` with a factor between -1 and 1 makes every point the origin; `p /= f` divides by zero. -/
theorem small_factor {f : K} (h1 : -1 < f) (h2 : f < 1) (p : Pt Int) :
    mulAssign f p = .ok ⟨0, 0, 0⟩ ∧ divAssign f p = .ub := by
  have ht : trunc f = 0 := by
    unfold trunc
    split_ifs with h
    · exact Int.floor_eq_zero_iff.mpr ⟨h, h2⟩
    · exact Int.ceil_eq_zero_iff.mpr ⟨h1, (not_le.mp h).le⟩
  have h0 : int32 0 = .ok 0 := int32_of (by norm_num)
  constructor
  · simp only [mulAssign, toInt, ht, h0, Outcome.ok_bind, Pt.each, mul_zero]
  · simp only [divAssign, toInt, ht, h0, Outcome.ok_bind, Pt.each, if_pos]
    rfl

/-- C134: with a whole divisor `/=` and `/` are the same. -/
theorem whole_divisor (n : Int) (hn : n ≠ 0) (hr : -2 ^ 31 ≤ n ∧ n < 2 ^ 31) (p : Pt Int) :
    divAssign (n : K) p = over p (n : K) := by
  have hK : (n : K) ≠ 0 := by exact_mod_cast hn
  simp only [divAssign, over, toInt, trunc_int, int32_of hr, Outcome.ok_bind, if_neg hn, if_neg hK, Pt.each,
    trunc_div _ _ hn]

/-- C134: `p / (1/2)` doubles a point that `p /= (1/2)` cannot divide. -/
theorem half (p : Pt Int) (hx : -2 ^ 30 ≤ p.x ∧ p.x < 2 ^ 30) (hy : -2 ^ 30 ≤ p.y ∧ p.y < 2 ^ 30)
    (hz : -2 ^ 30 ≤ p.z ∧ p.z < 2 ^ 30) :
    over p (1 / 2 : K) = .ok ⟨2 * p.x, 2 * p.y, 2 * p.z⟩ ∧ divAssign (1 / 2 : K) p = .ub := by
  refine ⟨?_, (small_factor (by linarith [one_half_pos (α := K)]) one_half_lt_one p).2⟩
  have hd : ∀ a : Int, (a : K) / (1 / 2) = ((2 * a : Int) : K) := by intro a; push_cast; field_simp
  rw [over, each_ok]
  simp only [if_neg (one_half_pos (α := K)).ne', hd, toInt, trunc_int, int32_ok]
  refine ⟨⟨?_, trivial⟩, ⟨?_, trivial⟩, ⟨?_, trivial⟩⟩ <;> omega

/-- C134: an `int` times a floating-point point is a point of `int`s: it is the exact product if and only if all three
products are whole. -/
theorem timesInt_exact_iff (f : Int) (p : Pt K) (r : Pt Int) (h : timesInt f p = .ok r) :
    ((r.x : K) = f * p.x ∧ (r.y : K) = f * p.y ∧ (r.z : K) = f * p.z) ↔
      (∃ k : Int, (f : K) * p.x = k) ∧ (∃ k : Int, (f : K) * p.y = k) ∧ ∃ k : Int, (f : K) * p.z = k := by
  simp only [timesInt, toInt, each_ok, int32_ok] at h
  obtain ⟨⟨_, hx⟩, ⟨_, hy⟩, ⟨_, hz⟩⟩ := h
  have key : ∀ a : K, ((trunc a : Int) : K) = a ↔ ∃ k : Int, a = k := by
    intro a
    constructor
    · intro h; exact ⟨_, h.symm⟩
    · rintro ⟨k, rfl⟩; rw [trunc_int]
  rw [hx, hy, hz, key, key, key]

end

/-- C134: the distance of two `int` points is defined if and only if the squares of the differences add up to less than
2^31; then it is the Euclidean distance. -/
theorem distance_iff (p q : Pt Int) :
    (squares p q < 2 ^ 31 → distance p q = .ok (Real.sqrt (squares p q))) ∧
    (2 ^ 31 ≤ squares p q → distance p q = .ub) := by
  have h1 := mul_self_nonneg (p.x - q.x)
  have h2 := mul_self_nonneg (p.y - q.y)
  have h3 := mul_self_nonneg (p.z - q.z)
  have hs : squares p q = (p.x - q.x) * (p.x - q.x) + (p.y - q.y) * (p.y - q.y) + (p.z - q.z) * (p.z - q.z) := by
    unfold squares; ring
  constructor
  · intro h
    rw [hs] at h
    unfold distance sqDist
    rw [int32_of (sq_small (by linarith))]; simp only [Outcome.ok_bind]
    rw [int32_of (by constructor <;> linarith)]; simp only [Outcome.ok_bind]
    rw [int32_of (sq_small (by linarith))]; simp only [Outcome.ok_bind]
    rw [int32_of (n := (p.y - q.y) * (p.y - q.y)) (by constructor <;> linarith)]; simp only [Outcome.ok_bind]
    rw [int32_of (n := (p.x - q.x) * (p.x - q.x) + (p.y - q.y) * (p.y - q.y)) (by constructor <;> linarith)]
    simp only [Outcome.ok_bind]
    rw [int32_of (n := p.z - q.z) (sq_small (by linarith))]; simp only [Outcome.ok_bind]
    rw [int32_of (n := (p.z - q.z) * (p.z - q.z)) (by constructor <;> linarith)]; simp only [Outcome.ok_bind]
    rw [int32_of (by constructor <;> linarith), hs]; rfl
  · intro h
    have : ∀ s, sqDist p q ≠ .ok s := by
      intro s e
      simp only [sqDist, bind_ok, int32_ok] at e
      obtain ⟨a, ⟨_, rfl⟩, _, ⟨_, rfl⟩, b, ⟨_, rfl⟩, _, ⟨_, rfl⟩, _, ⟨_, rfl⟩, c, ⟨_, rfl⟩, _, ⟨_, rfl⟩, ⟨hlt, rfl⟩⟩ := e
      omega
    have ha : ∀ z, sqDist p q ≠ .abort z := by
      intro z e
      simp only [sqDist, bind_abort, int32_abort, false_or, and_false, exists_false] at e
    unfold distance
    cases hd : sqDist p q with
    | ok s => exact absurd hd (this s)
    | ub => rfl
    | abort z => exact absurd hd (ha z)

/-- C134: no overflow for points in a cube of side 26754, and overflow for the corners of one of side 26755. -/
theorem distance_cube (p q : Pt Int) (hx : |p.x - q.x| ≤ 26754) (hy : |p.y - q.y| ≤ 26754) (hz : |p.z - q.z| ≤ 26754) :
    distance p q = .ok (Real.sqrt (squares p q)) ∧ distance ⟨0, 0, 0⟩ ⟨26755, 26755, 26755⟩ = .ub := by
  refine ⟨(distance_iff p q).1 ?_, (distance_iff _ _).2 (by norm_num [squares])⟩
  have key : ∀ a : Int, |a| ≤ 26754 → a ^ 2 ≤ 26754 ^ 2 := fun a ha => by
    rw [← sq_abs]; exact pow_le_pow_left₀ (abs_nonneg a) ha 2
  have := key _ hx; have := key _ hy; have := key _ hz
  unfold squares
  norm_num at *
  linarith

private theorem norm_triangle (a b c u v w : ℝ) :
    Real.sqrt ((a + u) ^ 2 + (b + v) ^ 2 + (c + w) ^ 2) ≤
      Real.sqrt (a ^ 2 + b ^ 2 + c ^ 2) + Real.sqrt (u ^ 2 + v ^ 2 + w ^ 2) := by
  have h1 : 0 ≤ a ^ 2 + b ^ 2 + c ^ 2 := by positivity
  have h2 : 0 ≤ u ^ 2 + v ^ 2 + w ^ 2 := by positivity
  have hcs : a * u + b * v + c * w ≤ Real.sqrt (a ^ 2 + b ^ 2 + c ^ 2) * Real.sqrt (u ^ 2 + v ^ 2 + w ^ 2) := by
    rw [← Real.sqrt_mul h1]
    refine Real.le_sqrt_of_sq_le ?_
    linarith [sq_nonneg (a * v - b * u), sq_nonneg (a * w - c * u), sq_nonneg (b * w - c * v),
      show (a ^ 2 + b ^ 2 + c ^ 2) * (u ^ 2 + v ^ 2 + w ^ 2) = (a * u + b * v + c * w) ^ 2 + (a * v - b * u) ^ 2 +
        (a * w - c * u) ^ 2 + (b * w - c * v) ^ 2 by ring]
  refine Real.sqrt_le_iff.mpr ⟨by positivity, ?_⟩
  have e1 := Real.sq_sqrt h1
  have e2 := Real.sq_sqrt h2
  nlinarith

/-- C134: where it is defined, the distance is a metric. -/
theorem distance_metric (p q s : Pt Int) (a b c : ℝ) (ha : distance p q = .ok a) (hb : distance q s = .ok b)
    (hc : distance p s = .ok c) : 0 ≤ a ∧ (a = 0 ↔ p = q) ∧ distance q p = .ok a ∧ c ≤ a + b := by
  have val : ∀ {p q : Pt Int} {a : ℝ}, distance p q = .ok a → squares p q < 2 ^ 31 ∧ a = Real.sqrt (squares p q) := by
    intro p q a h
    by_cases hl : squares p q < 2 ^ 31
    · rw [(distance_iff p q).1 hl] at h
      exact ⟨hl, by simpa using h.symm⟩
    · rw [(distance_iff p q).2 (by omega)] at h; cases h
  obtain ⟨hl, rfl⟩ := val ha
  obtain ⟨_, rfl⟩ := val hb
  obtain ⟨_, rfl⟩ := val hc
  have hsym : squares q p = squares p q := by unfold squares; ring
  have hnn : 0 ≤ squares p q := by unfold squares; positivity
  refine ⟨Real.sqrt_nonneg _, ?_, ?_, ?_⟩
  · rw [Real.sqrt_eq_zero (by exact_mod_cast hnn), Int.cast_eq_zero]
    constructor
    · intro h
      unfold squares at h
      have h1 := sq_nonneg (p.x - q.x)
      have h2 := sq_nonneg (p.y - q.y)
      have h3 := sq_nonneg (p.z - q.z)
      have e1 : p.x - q.x = 0 := pow_eq_zero_iff (two_ne_zero) |>.mp (by linarith)
      have e2 : p.y - q.y = 0 := pow_eq_zero_iff (two_ne_zero) |>.mp (by linarith)
      have e3 : p.z - q.z = 0 := pow_eq_zero_iff (two_ne_zero) |>.mp (by linarith)
      ext <;> omega
    · rintro rfl; simp [squares]
  · rw [(distance_iff q p).1 (by rw [hsym]; exact hl), hsym]
  · have := norm_triangle ((p.x : ℝ) - q.x) (p.y - q.y) (p.z - q.z) (q.x - s.x) (q.y - s.y) (q.z - s.z)
    simpa [squares] using this

/-! ## Examples -/

/-- `(3, 0, -4) *= 2.5` gives `(6, 0, -8)`, the products are 7.5, 0 and -10. -/
example : mulAssign (5 / 2 : ℚ) ⟨3, 0, -4⟩ = .ok ⟨6, 0, -8⟩ ∧
    convert (times (5 / 2 : ℚ) ⟨3, 0, -4⟩) = .ok ⟨7, 0, -10⟩ := by decide +kernel
example : timesInt 2 (⟨2 / 5, 1, 0⟩ : Pt ℚ) = .ok ⟨0, 2, 0⟩ := by decide +kernel
example : plus ⟨1, 2, 3⟩ ⟨4, 5, 6⟩ = .ok ⟨5, 7, 9⟩ := by decide +kernel
example : squares ⟨0, 0, 0⟩ ⟨3, 4, 0⟩ = 25 ∧ squares ⟨3, 4, 0⟩ ⟨3, 4, 2⟩ < 2 ^ 31 := by decide
example : |(5 : Int) - 9| ≤ 26754 := by decide

end MMSP.Pts
