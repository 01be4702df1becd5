import Verif.IeeeConfine
import Verif.ParallelExamplesLink
/-!
# Property C118: the isotropic grain-growth and Zener-pinning examples in IEEE numbers stay finite and between 0 and 1

The programs of C87 (`isoKernel`, `evolveUpdate`; isotropic/phase_field/graingrowth.cpp 73-111, zener_pinning/isotropic/phase_field/zener.cpp 104-142) with the numbers of `Ieee.lean`: rounding to nearest,
gradual underflow, and a place for overflow and NaN.
-/

namespace MMSP.IeeeDense

open MMSP.Ieee MMSP.Ieee.Num MMSP.Stencil MMSP.ParallelRun MMSP.Symmetry
open IeeeConfine (lapVal lapVal_neg is_two four_le_top Cube timesThree roundedCube)

/-! ## Model -/

section
variable {T : Type} [Zero T] [One T] [Add T] [Sub T] [Mul T] [Neg T]

/-- graingrowth.cpp 97-101, zener.cpp 125-130: `sum` after `n` fields. -/
def squares (n : Nat) (y : List T) : T := (List.range n).foldl (fun s j => s + y.getD j 0 * y.getD j 0) 0

/-- graingrowth.cpp 104-106: what is assigned to `newGrid(i)[j]`; `y` is `oldGrid(i)`, `l` the Laplacian, `cube` the call `pow(phi[j],3)`, `1 + 1` the literal `2.0`. -/
def isoTerm (cube : T → T) (dt : T) (n : Nat) (l y : List T) (j : Nat) : T :=
  y.getD j 0 - dt * (-y.getD j 0 - cube (y.getD j 0) + (1 + 1) * (y.getD j 0 * squares n y - l.getD j 0))

/-- zener.cpp 133-138: field 0 is copied. -/
def zenerTerm (cube : T → T) (dt : T) (n : Nat) (l y : List T) (j : Nat) : T := if j = 0 then y.getD j 0 else isoTerm cube dt n l y j

end

/-! ## Specification -/

/-- A finite number from 0 to 1. -/
def Frac {f : Fmt} (a : Num f) : Prop := ∃ x, Is a x ∧ 0 ≤ x ∧ x ≤ 1

/-- A cell of `n` finite numbers from 0 to 1. -/
def Fracs {f : Fmt} (n : Nat) (v : List (Num f)) : Prop := v.length = n ∧ ∀ a ∈ v, Frac a

/-- The call `pow(phi,3)` on numbers from 0 to 1: two roundings, no negative result. -/
structure Cubed {f : Fmt} (cube : Num f → Num f) : Prop where
  near : ∀ a x, Is a x → 0 ≤ x → x ≤ 1 → ∃ y, Is (cube a) y ∧ Near f 2 y (x ^ 3) 1 ∧ 0 ≤ y

/-- `c` is `dt`, the weights `1/(dx*dx)` of the `d` axes are at most `2^k`, there are at most `2^s` fields. -/
structure Gentle (f : Fmt) (d k s : Nat) (c : ℝ) : Prop where
  good : f.Good
  c0 : 0 ≤ c
  low : c * 2 ^ (max s (k + d) + 2) ≤ 1
  high : c * (17 + 4 * 2 ^ (k + d)) ≤ 1 / 2
  digits : s ≤ f.p
  room : ((max s (k + d) : Nat) : ℤ) + 3 < f.emax

/-! ## Rounding -/

section
variable {f : Fmt}

theorem good_p (hf : f.Good) : 1 ≤ f.p := by have := hf.p2; omega

theorem rep_pow_mul {x : ℝ} (h : Rep f x) (k : Nat) : Rep f (2 ^ k * x) := by
  induction k with
  | zero => rwa [pow_zero, one_mul]
  | succ k ih => rw [pow_succ', mul_assoc]; exact rep_two_mul ih

theorem rep_pow (hf : f.Good) (k : Nat) : Rep f (2 ^ k) := by have := rep_pow_mul (rep_one hf) k; rwa [mul_one] at this

theorem rnd_le (hf : f.Good) {x y : ℝ} (hy : Rep f y) (h : x ≤ y) : rnd f x ≤ y := by
  have := rnd_mono (good_p hf) h
  rwa [rnd_rep (good_p hf) hy] at this

theorem le_rnd (hf : f.Good) {x y : ℝ} (hy : Rep f y) (h : y ≤ x) : y ≤ rnd f x := by
  have := rnd_mono (good_p hf) h
  rwa [rnd_rep (good_p hf) hy] at this

theorem rnd_abs_le (hf : f.Good) {x : ℝ} {k : Nat} (h : |x| ≤ 2 ^ k) : |rnd f x| ≤ 2 ^ k := by
  obtain ⟨a, b⟩ := abs_le.1 h
  exact abs_le.2 ⟨le_rnd hf (rep_neg (rep_pow hf k)) a, rnd_le hf (rep_pow hf k) b⟩

theorem rep_nat (hf : f.Good) {n : Nat} (h : n ≤ 2 ^ f.p) : Rep f (n : ℝ) :=
  ⟨n, 0, by rw [abs_of_nonneg (by positivity)]; exact_mod_cast h, by have := hf.low; omega, by simp⟩

theorem eps_le (hf : f.Good) : ε f ≤ 1 / 4 := by
  unfold ε
  have := hf.p2
  calc (2 : ℝ) ^ (-(f.p : ℤ)) ≤ 2 ^ (-2 : ℤ) := zpow_le_zpow_right₀ (by norm_num) (by omega)
    _ = 1 / 4 := by norm_num

theorem tiny_le_half (hf : f.Good) : tiny f ≤ 1 / 2 := by
  unfold tiny
  have := hf.low
  calc (2 : ℝ) ^ (f.e + f.p - 1) ≤ 2 ^ (-1 : ℤ) := zpow_le_zpow_right₀ (by norm_num) (by omega)
    _ = 1 / 2 := by norm_num

/-- What rounding takes away. -/
theorem rnd_ge {x m : ℝ} (h : |x| ≤ m) (hm : tiny f ≤ m) : x - ε f * m ≤ rnd f x := by
  have h1 := rnd_err f x
  have h2 := mul_le_mul_of_nonneg_left (max_le h hm) (ε_pos f).le
  linarith [(abs_le.1 (h1.trans h2)).1]

/-- Differences of close numbers are exact. -/
theorem rep_close {x : ℝ} (h : Rep f x) (h0 : 1 / 2 ≤ x) (h1 : x ≤ 1) : Rep f (1 - x) ∧ Rep f (1 - 2 * x) := by
  obtain ⟨m, k, hm, hk, e⟩ := h
  have hpos : (0 : ℝ) < 2 ^ k := Rounding.two_zpow_pos _
  have m1 : 1 ≤ m := by
    by_contra hc
    have : (m : ℝ) ≤ 0 := by exact_mod_cast (by omega : m ≤ 0)
    nlinarith
  have k0 : k ≤ 0 := by
    by_contra hc
    have h2 : (2 : ℝ) ^ (1 : ℤ) ≤ 2 ^ k := zpow_le_zpow_right₀ (by norm_num) (by omega)
    have : (1 : ℝ) ≤ m := by exact_mod_cast m1
    rw [zpow_one] at h2
    nlinarith
  obtain ⟨j, rfl⟩ : ∃ j : Nat, k = -(j : ℤ) := ⟨k.natAbs, by omega⟩
  have ej : (2 : ℝ) ^ (j : Nat) * 2 ^ (-(j : ℤ)) = 1 := by rw [zpow_neg, zpow_natCast, mul_inv_cancel₀ (by positivity)]
  have c1 : ((2 ^ j : ℤ) : ℝ) * 2 ^ (-(j : ℤ)) = 1 := by push_cast; exact ej
  have lo : (2 ^ j : ℤ) ≤ 2 * m := by
    have : ((2 ^ j : ℤ) : ℝ) ≤ 2 * m := by nlinarith
    exact_mod_cast this
  have hi : m ≤ (2 ^ j : ℤ) := by
    have : (m : ℝ) ≤ ((2 ^ j : ℤ) : ℝ) := by nlinarith
    exact_mod_cast this
  rw [abs_of_nonneg (by omega)] at hm
  refine ⟨⟨2 ^ j - m, -(j : ℤ), abs_le.2 ⟨by omega, by omega⟩, hk, ?_⟩, ⟨2 ^ j - 2 * m, -(j : ℤ), abs_le.2 ⟨by omega, by omega⟩, hk, ?_⟩⟩
  · rw [e, Int.cast_sub, sub_mul, c1]
  · rw [e, Int.cast_sub, sub_mul, c1]; push_cast; ring

/-! ## The sum of squares -/

/-- The sum of squares as it is rounded. -/
noncomputable def sqVal (f : Fmt) (v : Nat → ℝ) : Nat → ℝ
  | 0 => 0
  | j + 1 => rnd f (sqVal f v j + rnd f (v j * v j))

theorem rep_sqVal (v : Nat → ℝ) (n : Nat) : Rep f (sqVal f v n) := by
  cases n with
  | zero => exact rep_zero f
  | succ n => exact rep_rnd f _

theorem sq_le_one (hf : f.Good) {x : ℝ} (h0 : 0 ≤ x) (h1 : x ≤ 1) : 0 ≤ rnd f (x * x) ∧ rnd f (x * x) ≤ 1 :=
  ⟨rnd_nonneg (mul_nonneg h0 h0), rnd_le hf (rep_one hf) (by nlinarith)⟩

theorem sqVal_range (hf : f.Good) {v : Nat → ℝ} {n : Nat} (hn : n ≤ 2 ^ f.p) (hv : ∀ j, j < n → 0 ≤ v j ∧ v j ≤ 1) : 0 ≤ sqVal f v n ∧ sqVal f v n ≤ n := by
  induction n with
  | zero => simp [sqVal]
  | succ n ih =>
    obtain ⟨a, b⟩ := ih (by omega) fun j h => hv j (by omega)
    obtain ⟨c, d⟩ := sq_le_one hf (hv n (by omega)).1 (hv n (by omega)).2
    refine ⟨rnd_nonneg (add_nonneg a c), rnd_le hf (rep_nat hf hn) ?_⟩
    push_cast
    linarith

/-- The sum is not less than any of its terms. -/
theorem sqVal_ge (hf : f.Good) {v : Nat → ℝ} {n : Nat} (hn : n ≤ 2 ^ f.p) (hv : ∀ j, j < n → 0 ≤ v j ∧ v j ≤ 1) {j : Nat} (hj : j < n) : rnd f (v j * v j) ≤ sqVal f v n := by
  induction n with
  | zero => omega
  | succ n ih =>
    have a := (sqVal_range hf (n := n) (by omega) fun j h => hv j (by omega)).1
    have c := (sq_le_one hf (hv n (by omega)).1 (hv n (by omega)).2).1
    rcases Nat.lt_or_ge j n with h | h
    · exact (ih (by omega) (fun j h => hv j (by omega)) h).trans (le_rnd hf (rep_sqVal v n) (by linarith))
    · obtain rfl : j = n := by omega
      exact le_rnd hf (rep_rnd f _) (by linarith)

/-! ## The Laplacian -/

/-- If on every axis the second difference is at most `2q`, the Laplacian is at most `2^(k+d)*q`, rounding included. -/
theorem lapVal_le (hf : f.Good) {d k : Nat} {w : Nat → ℝ} (hw : ∀ i, i < d → 0 ≤ w i ∧ w i ≤ 2 ^ k) {phi q : ℝ} {F G : Nat → ℝ} (hq : Rep f q) (q0 : 0 ≤ q)
    (ht : ∀ i, i < d → rnd f (rnd f (F i - 2 * phi) + G i) ≤ 2 * q) : lapVal f w phi F G d ≤ 2 ^ (k + d) * q := by
  have key : ∀ i, i < d → rnd f (w i * rnd f (rnd f (F i - 2 * phi) + G i)) ≤ 2 ^ (k + 1) * q := fun i hi => by
    refine rnd_le hf (rep_pow_mul hq _) ?_
    obtain ⟨w0, w1⟩ := hw i hi
    calc w i * rnd f (rnd f (F i - 2 * phi) + G i) ≤ w i * (2 * q) := mul_le_mul_of_nonneg_left (ht i hi) w0
      _ ≤ 2 ^ k * (2 * q) := mul_le_mul_of_nonneg_right w1 (by linarith)
      _ = _ := by rw [pow_succ]; ring
  clear ht hw
  induction d with
  | zero => show (0 : ℝ) ≤ _; positivity
  | succ d ih =>
    refine rnd_le hf (rep_pow_mul hq _) ?_
    have h1 := key d (by omega)
    rcases Nat.eq_zero_or_pos d with rfl | hd
    · show (0 : ℝ) + _ ≤ _
      rw [zero_add]; exact h1
    · have h2 := ih fun i h => key i (by omega)
      have h3 : (2 : ℝ) ^ (k + 1) * q ≤ 2 ^ (k + d) * q := mul_le_mul_of_nonneg_right (pow_le_pow_right₀ (by norm_num) (by omega)) q0
      have h4 : (2 : ℝ) ^ (k + (d + 1)) = 2 * 2 ^ (k + d) := by rw [← pow_succ']; rfl
      rw [h4]
      linarith

variable {d k : Nat} {w : Nat → ℝ} {phi : ℝ} {F G : Nat → ℝ}

theorem diff_le_two (hf : f.Good) {x y z : ℝ} (hx : 0 ≤ x) (hy : y ≤ 1) (hz : z ≤ 1) : rnd f (y - 2 * x) ≤ 1 ∧ rnd f (rnd f (y - 2 * x) + z) ≤ 2 * 1 := by
  have a := rnd_le hf (rep_one hf) (show y - 2 * x ≤ 1 by linarith)
  exact ⟨a, rnd_le hf (rep_two_mul (rep_one hf)) (by linarith)⟩

theorem diff_ge (hf : f.Good) {x y z : ℝ} (hrep : Rep f x) (hy : 0 ≤ y) (hz : 0 ≤ z) : -(2 * x) ≤ rnd f (y - 2 * x) ∧ -(2 * x) ≤ rnd f (rnd f (y - 2 * x) + z) := by
  have a := le_rnd hf (rep_neg (rep_two_mul hrep)) (show -(2 * x) ≤ y - 2 * x by linarith)
  exact ⟨a, le_rnd hf (rep_neg (rep_two_mul hrep)) (by linarith)⟩

/-- The Laplacian does not pull harder than a multiple of the value. -/
theorem lapVal_ge (hf : f.Good) (hw : ∀ i, i < d → 0 ≤ w i ∧ w i ≤ 2 ^ k) (hrep : Rep f phi) (h0 : 0 ≤ phi) (hF : ∀ i, i < d → 0 ≤ F i) (hG : ∀ i, i < d → 0 ≤ G i) :
    -(2 ^ (k + d) * phi) ≤ lapVal f w phi F G d := by
  have h := lapVal_le hf hw (phi := -phi) (q := phi) (F := fun i => -F i) (G := fun i => -G i) hrep h0 fun i hi => by
    have := (diff_ge hf hrep (hF i hi) (hG i hi)).2
    rw [show -F i - 2 * -phi = -(F i - 2 * phi) by ring, rnd_neg, ← neg_add, rnd_neg]
    linarith
  rw [lapVal_neg] at h
  linarith

theorem lapVal_le_one (hf : f.Good) (hw : ∀ i, i < d → 0 ≤ w i ∧ w i ≤ 2 ^ k) (h0 : 0 ≤ phi) (hF : ∀ i, i < d → F i ≤ 1) (hG : ∀ i, i < d → G i ≤ 1) : lapVal f w phi F G d ≤ 2 ^ (k + d) := by
  have h := lapVal_le hf hw (phi := phi) (q := 1) (F := F) (G := G) (rep_one hf) zero_le_one fun i hi => (diff_le_two hf h0 (hF i hi) (hG i hi)).2
  rwa [mul_one] at h

/-- Near 1 it does not pull harder than a multiple of the room left. -/
theorem lapVal_le_room (hf : f.Good) (hw : ∀ i, i < d → 0 ≤ w i ∧ w i ≤ 2 ^ k) (hrep : Rep f phi) (h0 : 1 / 2 ≤ phi) (h1 : phi ≤ 1) (hF : ∀ i, i < d → F i ≤ 1) (hG : ∀ i, i < d → G i ≤ 1) :
    lapVal f w phi F G d ≤ 2 ^ (k + d) * (1 - phi) := by
  obtain ⟨r1, r2⟩ := rep_close hrep h0 h1
  refine lapVal_le hf hw r1 (by linarith) fun i hi => rnd_le hf (rep_two_mul r1) ?_
  have := rnd_le hf r2 (show F i - 2 * phi ≤ 1 - 2 * phi by linarith [hF i hi])
  linarith [hG i hi]

/-! ## One value -/

/-- What is subtracted, as it is rounded: `q` is the cube, `S` the sum of squares, `l` the Laplacian. -/
noncomputable def bracket (f : Fmt) (phi q S l : ℝ) : ℝ := rnd f (rnd f (-phi - q) + 2 * rnd f (rnd f (phi * S) - l))

theorem new_nonneg {s : Nat} {c : ℝ} (hg : Gentle f d k s c) {q S l : ℝ} (hrep : Rep f phi) (h0 : 0 ≤ phi) (hq : 0 ≤ q) (hS : S ≤ 2 ^ s) (hl : -(2 ^ (k + d) * phi) ≤ l) :
    0 ≤ rnd f (phi - rnd f (c * bracket f phi q S l)) := by
  have hf := hg.good
  refine rnd_nonneg ?_
  set M := max s (k + d)
  have m1 : (2 : ℝ) ^ s ≤ 2 ^ M := pow_le_pow_right₀ (by norm_num) (le_max_left _ _)
  have m2 : (2 : ℝ) ^ (k + d) ≤ 2 ^ M := pow_le_pow_right₀ (by norm_num) (le_max_right _ _)
  have a1 : rnd f (phi * S) ≤ 2 ^ M * phi := rnd_le hf (rep_pow_mul hrep _) (by nlinarith)
  have a2 : rnd f (rnd f (phi * S) - l) ≤ 2 ^ (M + 1) * phi := rnd_le hf (rep_pow_mul hrep _) (by rw [pow_succ]; nlinarith)
  have a3 : rnd f (-phi - q) ≤ 0 := rnd_le hf (rep_zero f) (by linarith)
  have a4 : bracket f phi q S l ≤ 2 ^ (M + 2) * phi := rnd_le hf (rep_pow_mul hrep _) (by rw [pow_succ 2 (M + 1)]; linarith)
  have a5 : rnd f (c * bracket f phi q S l) ≤ phi := by
    refine rnd_le hf hrep ?_
    have := mul_le_mul_of_nonneg_left a4 hg.c0
    have := mul_le_mul_of_nonneg_right hg.low h0
    linarith
  linarith

theorem one_le_two_pow' (n : Nat) : (1 : ℝ) ≤ 2 ^ n := one_le_pow₀ (by norm_num)

theorem cube_close (hf : f.Good) {q : ℝ} (h0 : 0 ≤ phi) (h1 : phi ≤ 1) (hq : Near f 2 q (phi ^ 3) 1) : q ≤ phi ^ 3 + 3 * ε f ∧ q ≤ 7 / 4 := by
  have e1 := eps_le hf
  have e0 := ε_pos f
  have h3 : phi ^ 3 ≤ 1 := pow_le_one₀ h0 h1
  have h := (abs_le.1 hq.1).2
  have : (1 + ε f) ^ 2 - 1 ≤ 3 * ε f := by nlinarith
  constructor <;> linarith

/-- The bracket near 1: at most a multiple of the room left and a few rounding errors below 0. -/
theorem bracket_ge (hf : f.Good) {L q S l : ℝ} (hL : 1 ≤ L) (hp : 1 / 2 ≤ phi) (h1 : phi ≤ 1) (hq : Near f 2 q (phi ^ 3) 1) (hS : rnd f (phi * phi) ≤ S) (hl : l ≤ L * (1 - phi)) :
    -((2 + 2 * L) * (1 - phi) + (17 + 4 * L) * ε f) ≤ bracket f phi q S l := by
  have ht := tiny_le_half hf
  have e1 := eps_le hf
  have e0 := ε_pos f
  have h0 : 0 ≤ phi := by linarith
  obtain ⟨q1, q2⟩ := cube_close hf h0 h1 hq
  set u := 1 - phi with hu
  have u0 : 0 ≤ u := by linarith
  have u1 : u ≤ 1 / 2 := by linarith
  have p2 : phi * phi ≤ 1 := by nlinarith
  have p3 : phi ^ 3 ≤ 1 := pow_le_one₀ h0 h1
  have p30 : 0 ≤ phi ^ 3 := pow_nonneg h0 3
  have Lu : L * u ≤ L / 2 := by nlinarith
  have Lu0 : 0 ≤ L * u := mul_nonneg (by linarith) u0
  have Le : L * ε f ≤ L / 4 := by nlinarith
  have Le0 : 0 ≤ L * ε f := mul_nonneg (by linarith) e0.le
  -- the sum of squares
  have s1 : phi * phi - ε f * 1 ≤ rnd f (phi * phi) := rnd_ge (by rw [abs_of_nonneg (mul_nonneg h0 h0)]; exact p2) (by linarith)
  have s2 := sq_le_one hf h0 h1
  have s3 : phi * rnd f (phi * phi) - ε f * 1 ≤ rnd f (phi * rnd f (phi * phi)) := rnd_ge (by rw [abs_of_nonneg (mul_nonneg h0 s2.1)]; exact mul_le_one₀ h1 s2.1 s2.2) (by linarith)
  have s4 : rnd f (phi * rnd f (phi * phi)) ≤ rnd f (phi * S) := rnd_mono (good_p hf) (mul_le_mul_of_nonneg_left hS h0)
  have s5 : phi ^ 3 - 2 * ε f ≤ rnd f (phi * S) := by
    have a : phi * (phi * phi - ε f) ≤ phi * rnd f (phi * phi) := mul_le_mul_of_nonneg_left (by linarith) h0
    have b : phi * (phi * phi - ε f) = phi ^ 3 - phi * ε f := by ring
    have c : phi * ε f ≤ ε f := mul_le_of_le_one_left e0.le h1
    linarith
  -- the inner bracket
  have b1 : phi ^ 3 - 2 * ε f - L * u - ε f * (1 + L) ≤ rnd f (phi ^ 3 - 2 * ε f - L * u) := rnd_ge (abs_le.2 ⟨by linarith, by linarith⟩) (by linarith)
  have b2 : rnd f (phi ^ 3 - 2 * ε f - L * u) ≤ rnd f (rnd f (phi * S) - l) := rnd_mono (good_p hf) (by linarith)
  -- the first two terms
  have q3 : -(3 / 4) ≤ q := by
    have h := (abs_le.1 hq.1).1
    have : (1 + ε f) ^ 2 - 1 ≤ 3 * ε f := by nlinarith
    linarith
  have a1 : -phi - q - ε f * 3 ≤ rnd f (-phi - q) := rnd_ge (abs_le.2 ⟨by linarith, by linarith⟩) (by linarith)
  -- the bracket
  have fact : phi - phi ^ 3 ≤ 2 * u := by
    have : phi - phi ^ 3 = (phi * (1 + phi)) * u := by rw [hu]; ring
    rw [this]; exact mul_le_mul_of_nonneg_right (by nlinarith) u0
  have y1 : (2 + 2 * L) * u + (12 + 2 * L) * ε f = 2 * u + 2 * (L * u) + 12 * ε f + 2 * (L * ε f) := by ring
  have y2 : (2 + 2 * L) * u + (17 + 4 * L) * ε f = 2 * u + 2 * (L * u) + 17 * ε f + 4 * (L * ε f) := by ring
  have y3 : ε f * (4 + 2 * L) = 4 * ε f + 2 * (L * ε f) := by ring
  have y4 : ε f * (1 + L) = ε f + L * ε f := by ring
  have d1 : -((2 + 2 * L) * u + (12 + 2 * L) * ε f) ≤ rnd f (-phi - q) + 2 * rnd f (rnd f (phi * S) - l) := by rw [y1]; linarith
  have d2 : -((2 + 2 * L) * u + (12 + 2 * L) * ε f) - ε f * (4 + 2 * L) ≤ rnd f (-((2 + 2 * L) * u + (12 + 2 * L) * ε f)) :=
    rnd_ge (abs_le.2 ⟨by rw [y1]; linarith, by rw [y1]; linarith⟩) (by linarith)
  have d3 := rnd_mono (good_p hf) d1
  unfold bracket
  rw [y2]
  rw [y1] at d2 d3
  linarith

theorem new_le_one {s : Nat} {c : ℝ} (hg : Gentle f d k s c) {q S l : ℝ} (h0 : 0 ≤ phi) (h1 : phi ≤ 1) (hq : Near f 2 q (phi ^ 3) 1) (hS0 : 0 ≤ S) (hS : rnd f (phi * phi) ≤ S)
    (hl : l ≤ 2 ^ (k + d)) (hl' : 1 / 2 ≤ phi → l ≤ 2 ^ (k + d) * (1 - phi)) : rnd f (phi - rnd f (c * bracket f phi q S l)) ≤ 1 := by
  have hf := hg.good
  have ht := tiny_le_half hf
  have e1 := eps_le hf
  have e0 := ε_pos f
  have hL := one_le_two_pow' (k + d)
  have hh := hg.high
  have c0 := hg.c0
  rcases le_or_gt (1 / 2) phi with hp | hp
  · refine rnd_le_one hf ?_
    have d3 := bracket_ge hf hL hp h1 hq hS (hl' hp)
    clear hl' hl
    set L : ℝ := 2 ^ (k + d)
    set u := 1 - phi with hu
    have u0 : 0 ≤ u := by linarith
    have z1 : c * (2 + 2 * L) ≤ 1 / 2 := le_trans (mul_le_mul_of_nonneg_left (by linarith) c0) hh
    have z2 : c * ((2 + 2 * L) * u + (17 + 4 * L) * ε f) ≤ u / 2 + ε f / 2 := by
      have a := mul_le_mul_of_nonneg_right z1 u0
      have b := mul_le_mul_of_nonneg_right hh e0.le
      have e : c * ((2 + 2 * L) * u + (17 + 4 * L) * ε f) = c * (2 + 2 * L) * u + c * (17 + 4 * L) * ε f := by ring
      rw [e]; linarith
    have y0 : 0 ≤ (2 + 2 * L) * u + (17 + 4 * L) * ε f := add_nonneg (mul_nonneg (by linarith) u0) (mul_nonneg (by linarith) e0.le)
    have z0 : 0 ≤ c * ((2 + 2 * L) * u + (17 + 4 * L) * ε f) := mul_nonneg c0 y0
    have x1 : -(c * ((2 + 2 * L) * u + (17 + 4 * L) * ε f)) - ε f * (1 / 2) ≤ rnd f (-(c * ((2 + 2 * L) * u + (17 + 4 * L) * ε f))) :=
      rnd_ge (by rw [abs_neg, abs_of_nonneg z0]; linarith) ht
    have x2 : rnd f (-(c * ((2 + 2 * L) * u + (17 + 4 * L) * ε f))) ≤ rnd f (c * bracket f phi q S l) := by
      refine rnd_mono (good_p hf) ?_
      have := mul_le_mul_of_nonneg_left d3 c0
      rwa [mul_neg] at this
    linarith
  · refine rnd_le hf (rep_one hf) ?_
    clear hl'
    obtain ⟨q1, q2⟩ := cube_close hf h0 h1 hq
    have a1 : -2 ≤ rnd f (-phi - q) := by
      have q3 : phi ^ 3 ≤ 1 / 8 := by have := pow_le_pow_left₀ h0 hp.le 3; norm_num at this ⊢; exact this
      have := le_rnd hf (rep_neg (rep_pow hf 1)) (show -2 ^ 1 ≤ -phi - q by norm_num; linarith)
      norm_num at this ⊢; exact this
    have a2 : 0 ≤ rnd f (phi * S) := rnd_nonneg (mul_nonneg h0 hS0)
    have a3 : -2 ^ (k + d) ≤ rnd f (rnd f (phi * S) - l) := le_rnd hf (rep_neg (rep_pow hf _)) (by linarith)
    have e4 : (2 : ℝ) ^ (k + d + 2) = 4 * 2 ^ (k + d) := by rw [pow_add]; ring
    have a4 : -2 ^ (k + d + 2) ≤ bracket f phi q S l := le_rnd hf (rep_neg (rep_pow hf _)) (by rw [e4]; linarith)
    have rh : Rep f (1 / 2) := ⟨1, -1, by rw [abs_one]; exact one_le_pow₀ (by norm_num), by have := hf.low; have := hf.p2; omega, by norm_num⟩
    have a5 : -(1 / 2) ≤ rnd f (c * bracket f phi q S l) := by
      refine le_rnd hf (rep_neg rh) ?_
      have := mul_le_mul_of_nonneg_left a4 c0
      rw [e4] at this
      nlinarith
    linarith

/-! ## No overflow -/

theorem below_top {j : Nat} {x : ℝ} (hx : |x| ≤ 2 ^ j) (h : (j : ℤ) < f.emax) : |x| < 2 ^ f.emax := by
  refine lt_of_le_of_lt hx ?_
  rw [← zpow_natCast]
  exact zpow_lt_zpow_right₀ (by norm_num) h

theorem below_top' {i j : Nat} {x : ℝ} (hx : |x| ≤ 2 ^ i) (hij : i ≤ j) (h : (j : ℤ) < f.emax) : |x| < 2 ^ f.emax :=
  below_top (hx.trans (pow_le_pow_right₀ (by norm_num) hij)) h

theorem lapVal_abs (hf : f.Good) (hw : ∀ i, i < d → 0 ≤ w i ∧ w i ≤ 2 ^ k) (hrep : Rep f phi) (h0 : 0 ≤ phi) (h1 : phi ≤ 1) (hF : ∀ i, i < d → 0 ≤ F i ∧ F i ≤ 1)
    (hG : ∀ i, i < d → 0 ≤ G i ∧ G i ≤ 1) : |lapVal f w phi F G d| ≤ 2 ^ (k + d) := by
  have a := lapVal_ge hf hw hrep h0 (fun i h => (hF i h).1) fun i h => (hG i h).1
  have b := lapVal_le_one hf hw h0 (fun i h => (hF i h).2) fun i h => (hG i h).2
  have c : (2 : ℝ) ^ (k + d) * phi ≤ 2 ^ (k + d) := mul_le_of_le_one_right (by positivity) h1
  exact abs_le.2 ⟨by linarith, b⟩

theorem is_double (hf : f.Good) {a : Num f} {x : ℝ} (ha : Is a x) (h : |2 * x| < 2 ^ f.emax) : Is ((1 + 1) * a) (2 * x) := by
  have e : rnd f (2 * x) = 2 * x := rnd_rep (good_p hf) (rep_two_mul ha.finite.1)
  have := (is_two hf).mul ha (by rw [e]; exact h)
  rwa [e] at this

/-- The Laplacian as computed is finite. -/
theorem lap_is (hf : f.Good) {dx : Nat → Num f} (hw : ∀ i, i < d → Is (lapWeight (dx i)) (w i) ∧ 0 ≤ w i ∧ w i ≤ 2 ^ k) (top : ((k + d : Nat) : ℤ) + 2 < f.emax) {a : Num f} (ha : Is a phi)
    (h0 : 0 ≤ phi) (h1 : phi ≤ 1) {Fn Gn : Nat → Num f} (hF : ∀ i, i < d → Is (Fn i) (F i) ∧ 0 ≤ F i ∧ F i ≤ 1) (hG : ∀ i, i < d → Is (Gn i) (G i) ∧ 0 ≤ G i ∧ G i ≤ 1) :
    Is ((List.range d).foldl (fun s i => s + lapWeight (dx i) * (Fn i - (1 + 1) * a + Gn i)) 0) (lapVal f w phi F G d) := by
  induction d with
  | zero => exact is_zero
  | succ d ih =>
    have hi := ih (fun i h => hw i (by omega)) (by push_cast at top ⊢; omega) (fun i h => hF i (by omega)) (fun i h => hG i (by omega))
    obtain ⟨f1, f2, f3⟩ := hF d (by omega)
    obtain ⟨g1, g2, g3⟩ := hG d (by omega)
    obtain ⟨w1, w2, w3⟩ := hw d (by omega)
    have rp := ha.finite.1
    have four : (4 : ℤ) ≤ f.emax + 2 := by have := hf.high; omega
    have t1 : ((k + 1 : Nat) : ℤ) < f.emax := by push_cast at top ⊢; omega
    obtain ⟨l1, l2⟩ := diff_ge (z := G d) hf rp f2 g2
    obtain ⟨u1, u2⟩ := diff_le_two (z := G d) hf h0 f3 g3
    rw [List.range_succ, List.foldl_append, List.foldl_cons, List.foldl_nil]
    have b1 : |rnd f (F d - 2 * phi)| ≤ 2 ^ 1 := abs_le.2 ⟨by linarith, by linarith⟩
    have b2 : |rnd f (rnd f (F d - 2 * phi) + G d)| ≤ 2 ^ 1 := abs_le.2 ⟨by linarith, by linarith⟩
    have b3 : |rnd f (w d * rnd f (rnd f (F d - 2 * phi) + G d))| ≤ 2 ^ (k + 1) := by
      refine rnd_abs_le hf ?_
      rw [abs_mul, abs_of_nonneg w2, pow_add]
      exact mul_le_mul w3 b2 (abs_nonneg _) (by positivity)
    have b4 := lapVal_abs (d := d + 1) (k := k) (w := w) (F := F) (G := G) hf (fun i h => (hw i h).2) rp h0 h1 (fun i h => (hF i h).2) fun i h => (hG i h).2
    have i0 := is_double hf ha (by rw [abs_mul, abs_two, abs_of_nonneg h0]; exact lt_of_le_of_lt (by linarith) (lt_of_lt_of_le (by norm_num : (2 : ℝ) < 4) (four_le_top hf)))
    have i1 := f1.sub i0 (below_top' b1 (j := k + 1) (by omega) t1)
    have i2 := i1.add g1 (below_top' b2 (j := k + 1) (by omega) t1)
    have i3 := w1.mul i2 (below_top b3 t1)
    exact hi.add i3 (below_top b4 (by push_cast at top ⊢; omega))

theorem squares_is (hf : f.Good) {n s : Nat} (hn : n ≤ 2 ^ s) (hs : s ≤ f.p) (top : (s : ℤ) < f.emax) {y : List (Num f)} {v : Nat → ℝ} (hv : ∀ j, j < n → Is (y.getD j 0) (v j) ∧ 0 ≤ v j ∧ v j ≤ 1) :
    Is (squares n y) (sqVal f v n) := by
  unfold squares
  induction n with
  | zero => exact is_zero
  | succ n ih =>
    have hp : n + 1 ≤ 2 ^ f.p := hn.trans (Nat.pow_le_pow_right (by omega) hs)
    have hi := ih (by omega) fun j h => hv j (by omega)
    obtain ⟨a1, a2, a3⟩ := hv n (by omega)
    rw [List.range_succ, List.foldl_append, List.foldl_cons, List.foldl_nil]
    have b1 := sq_le_one hf a2 a3
    have b2 := sqVal_range hf hp fun j h => (hv j h).2
    have i1 := a1.mul a1 (by rw [abs_of_nonneg b1.1]; exact lt_of_le_of_lt b1.2 (one_lt_top hf))
    refine hi.add i1 (below_top (j := s) ?_ top)
    show |sqVal f v (n + 1)| ≤ _
    rw [abs_of_nonneg b2.1]
    refine b2.2.trans ?_
    exact_mod_cast hn

/-- The value assigned to `newGrid(i)[j]`, rounding by rounding: a finite number from 0 to 1. -/
theorem isoTerm_val {cube : Num f → Num f} (hcube : Cubed cube) {s n : Nat} {c : ℝ} (hg : Gentle f d k s c) {dt : Num f} (hdt : Is dt c) (hn : n ≤ 2 ^ s) {dx : Nat → Num f}
    (hw : ∀ i, i < d → Is (lapWeight (dx i)) (w i) ∧ 0 ≤ w i ∧ w i ≤ 2 ^ k) {y l : List (Num f)} {v : Nat → ℝ} (hv : ∀ j, j < n → Is (y.getD j 0) (v j) ∧ 0 ≤ v j ∧ v j ≤ 1) {j : Nat} (hj : j < n)
    {Fn Gn : Nat → Num f} (hF : ∀ i, i < d → Is (Fn i) (F i) ∧ 0 ≤ F i ∧ F i ≤ 1) (hG : ∀ i, i < d → Is (Gn i) (G i) ∧ 0 ≤ G i ∧ G i ≤ 1)
    (hl : l.getD j 0 = (List.range d).foldl (fun s i => s + lapWeight (dx i) * (Fn i - (1 + 1) * y.getD j 0 + Gn i)) 0) :
    ∃ q, Near f 2 q (v j ^ 3) 1 ∧ Is (isoTerm cube dt n l y j) (rnd f (v j - rnd f (c * bracket f (v j) q (sqVal f v n) (lapVal f w (v j) F G d)))) ∧
      0 ≤ rnd f (v j - rnd f (c * bracket f (v j) q (sqVal f v n) (lapVal f w (v j) F G d))) ∧ rnd f (v j - rnd f (c * bracket f (v j) q (sqVal f v n) (lapVal f w (v j) F G d))) ≤ 1 := by
  have hf := hg.good
  have hp := good_p hf
  have room := hg.room
  obtain ⟨a1, a2, a3⟩ := hv j hj
  have rp := a1.finite.1
  obtain ⟨q, q1, q2, q3⟩ := hcube.near _ _ a1 a2 a3
  have hnp : n ≤ 2 ^ f.p := hn.trans (Nat.pow_le_pow_right (by omega) hg.digits)
  have m1 : s ≤ max s (k + d) := le_max_left _ _
  have m2 : k + d ≤ max s (k + d) := le_max_right _ _
  have nl := new_nonneg (d := d) (k := k) hg (S := sqVal f v n) (l := lapVal f w (v j) F G d) rp a2 q3
    ((sqVal_range hf hnp fun i h => (hv i h).2).2.trans (by exact_mod_cast hn))
    (lapVal_ge hf (fun i h => (hw i h).2) rp a2 (fun i h => (hF i h).2.1) fun i h => (hG i h).2.1)
  have nu := new_le_one (d := d) (k := k) hg (S := sqVal f v n) (l := lapVal f w (v j) F G d) a2 a3 q2 (sqVal_range hf hnp fun i h => (hv i h).2).1 (sqVal_ge hf hnp (fun i h => (hv i h).2) hj)
    (lapVal_le_one hf (fun i h => (hw i h).2) a2 (fun i h => (hF i h).2.2) fun i h => (hG i h).2.2)
    (fun hh => lapVal_le_room hf (fun i h => (hw i h).2) rp hh a3 (fun i h => (hF i h).2.2) fun i h => (hG i h).2.2)
  have iS := squares_is hf hn hg.digits (by omega) hv
  have iL := lap_is hf hw (by push_cast at room m2 ⊢; omega) a1 a2 a3 hF hG
  rw [← hl] at iL
  have bS : |sqVal f v n| ≤ 2 ^ s := by
    have := sqVal_range hf hnp fun i h => (hv i h).2
    rw [abs_of_nonneg this.1]; exact this.2.trans (by exact_mod_cast hn)
  have bL := lapVal_abs (d := d) (k := k) (w := w) (F := F) (G := G) hf (fun i h => (hw i h).2) rp a2 a3 (fun i h => (hF i h).2) fun i h => (hG i h).2
  set M := max s (k + d)
  set S := sqVal f v n
  set L := lapVal f w (v j) F G d
  have P1 : (2 : ℝ) ^ s ≤ 2 ^ M := pow_le_pow_right₀ (by norm_num) m1
  have P2 : (2 : ℝ) ^ (k + d) ≤ 2 ^ M := pow_le_pow_right₀ (by norm_num) m2
  have P0 := one_le_two_pow' M
  have E1 : (2 : ℝ) ^ (M + 1) = 2 * 2 ^ M := pow_succ' _ _
  have E2 : (2 : ℝ) ^ (M + 2) = 4 * 2 ^ M := by rw [pow_add]; ring
  have E3 : (2 : ℝ) ^ (M + 3) = 8 * 2 ^ M := by rw [pow_add]; ring
  have c1 : |rnd f (-v j - q)| ≤ 2 ^ 2 := rnd_abs_le hf (abs_le.2 ⟨by have := (cube_close hf a2 a3 q2).2; norm_num; linarith, by norm_num; linarith⟩)
  have c2 : |rnd f (v j * S)| ≤ 2 ^ M := rnd_abs_le hf (by
    rw [abs_mul, abs_of_nonneg a2]
    exact le_trans (mul_le_of_le_one_left (abs_nonneg _) a3) (bS.trans P1))
  have c3 : |rnd f (rnd f (v j * S) - L)| ≤ 2 ^ (M + 1) := rnd_abs_le hf ((abs_sub _ _).trans (by rw [E1]; linarith))
  have c4 : |2 * rnd f (rnd f (v j * S) - L)| ≤ 2 ^ (M + 2) := by rw [abs_mul, abs_two, E2]; rw [E1] at c3; linarith
  have c5 : |bracket f (v j) q S L| ≤ 2 ^ (M + 3) := rnd_abs_le hf ((abs_add_le _ _).trans (by rw [E3]; rw [E2] at c4; norm_num at c1; linarith))
  have c6 : |rnd f (c * bracket f (v j) q S L)| ≤ 2 ^ 1 := rnd_abs_le hf (by
    rw [abs_mul, abs_of_nonneg hg.c0]
    have h1 := mul_le_mul_of_nonneg_left c5 hg.c0
    have h2 := hg.low
    rw [E3] at h1
    change c * 2 ^ (M + 2) ≤ 1 at h2
    rw [E2] at h2
    norm_num
    linarith)
  have i1 := (a1.neg hp).sub q1 (below_top' c1 (j := M + 3) (by omega) (by push_cast; omega))
  have i2 := a1.mul iS (below_top c2 (by omega))
  have i3 := i2.sub iL (below_top c3 (by push_cast; omega))
  have i4 := is_double hf i3 (below_top c4 (by push_cast; omega))
  have i5 := i1.add i4 (below_top c5 (by push_cast; omega))
  have i6 := hdt.mul i5 (below_top' c6 (j := M + 3) (by omega) (by push_cast; omega))
  have i7 := a1.sub i6 (by
    show |rnd f (v j - rnd f (c * bracket f (v j) q S L))| < _
    rw [abs_of_nonneg nl]; exact lt_of_le_of_lt nu (one_lt_top hf))
  exact ⟨q, q2, i7, nl, nu⟩

/-- **C118, one value.** The value assigned to `newGrid(i)[j]` is a finite number from 0 to 1. -/
theorem isoTerm_frac {cube : Num f → Num f} (hcube : Cubed cube) {s n : Nat} {c : ℝ} (hg : Gentle f d k s c) {dt : Num f} (hdt : Is dt c) (hn : n ≤ 2 ^ s) {dx : Nat → Num f}
    (hw : ∀ i, i < d → Is (lapWeight (dx i)) (w i) ∧ 0 ≤ w i ∧ w i ≤ 2 ^ k) {y l : List (Num f)} (hy : ∀ j, j < n → Frac (y.getD j 0)) {j : Nat} (hj : j < n) {Fn Gn : Nat → Num f}
    (hF : ∀ i, i < d → Frac (Fn i)) (hG : ∀ i, i < d → Frac (Gn i)) (hl : l.getD j 0 = (List.range d).foldl (fun s i => s + lapWeight (dx i) * (Fn i - (1 + 1) * y.getD j 0 + Gn i)) 0) :
    Frac (isoTerm cube dt n l y j) := by
  choose! v hv using hy
  choose! F hF using hF
  choose! G hG using hG
  obtain ⟨q, _, h⟩ := isoTerm_val hcube hg hdt hn hw hv hj hF hG hl
  exact ⟨_, h⟩

end

/-! ## One step, node by node -/

section Step
variable {T : Type} [Zero T] [One T] [Add T] [Sub T] [Mul T] [Div T]

/-- The Laplacian of each of `n` fields. -/
def lapList (g : Shape) (n : Nat) (dx : Nat → T) (data : Int → List T) (x : Nat → Int) : List T :=
  (List.range n).map fun j => (List.range g.dim).foldl (fun a i => a + lapWeight (dx i) *
    ((cellAt g data (wrap g (bump x i 1))).getD j 0 - (1 + 1) * (cellAt g data x).getD j 0 + (cellAt g data (wrap g (bump x i (-1)))).getD j 0)) 0

omit [One T] [Add T] [Sub T] [Mul T] [Div T] in
theorem getD_some {y : List T} {j : Nat} (h : j < y.length) : y[j]? = some (y.getD j 0) := by
  rw [List.getD_eq_getElem _ _ h, List.getElem?_eq_getElem h]

theorem lapVecLoop_exists {at' : Access (List T)} {w : Nat → T} {n : Nat} {y : List T} (hy : y.length = n) {x : Nat → Int} {N : (Nat → Int) → List T} (is : List Nat) {acc : List T} (ha : acc.length = n)
    (h : ∀ i ∈ is, ∀ t, t = 1 ∨ t = -1 → at' (bump x i t) = .ok (N (bump x i t)) ∧ (N (bump x i t)).length = n) :
    ∃ L, lapVecLoop at' w n y is x acc = .ok L ∧ L.length = n := by
  induction is generalizing acc with
  | nil => exact ⟨acc, rfl, ha⟩
  | cons i is ih =>
    obtain ⟨h1, h2⟩ := h i (by simp) 1 (.inl rfl)
    obtain ⟨h3, h4⟩ := h i (by simp) (-1) (.inr rfl)
    obtain ⟨v, hv, e⟩ := ParallelRun.lapFields_ok (w i) hy h2 h4 (List.range n) (fun j hj => List.mem_range.1 hj) ha
    obtain ⟨L, e2, hL⟩ := ih hv fun i hi => h i (by simp [hi])
    exact ⟨L, by simp only [lapVecLoop, neighbours_eq, h1, h3, Outcome.ok_bind, e, e2], hL⟩

theorem lapVec_eq {g : Shape} (hg : Room 1 g) {n : Nat} (dx : Nat → T) {data : Int → List T} (hl : Compare.AllNodes g (fun v => v.length = n) data) {x : Nat → Int} (hx : g.IsNode x) :
    lapVec g.dim n dx (gridAt .serial g data) x = .ok (lapList g n dx data x) := by
  have near : ∀ i t, t = 1 ∨ t = -1 → gridAt .serial g data (bump x i t) = .ok (cellAt g data (wrap g (bump x i t))) ∧ (cellAt g data (wrap g (bump x i t))).length = n := fun i t ht => by
    have hn : g.IsNode (wrap g (bump x i t)) := near_reach hg.reach hx fun j _ => by unfold bump; by_cases e : j = i <;> simp [e]; omega
    exact ⟨Symmetry.gridAt_ok hg.reach data hn fun _ _ => rfl, hl _ hn⟩
  have here : gridAt .serial g data x = .ok (cellAt g data x) := Symmetry.gridAt_ok hg.reach data hx fun j hj => by
    have := hx j hj
    unfold checkBoundary
    split_ifs <;> omega
  unfold lapVec
  rw [here, Outcome.ok_bind]
  obtain ⟨L, e, hL⟩ := lapVecLoop_exists (at' := gridAt .serial g data) (w := fun i => lapWeight (dx i)) (n := n) (y := cellAt g data x) (hl x hx) (x := x)
    (N := fun y => cellAt g data (wrap g y)) (List.range g.dim) (acc := List.replicate n 0) (by simp) (fun i _ t ht => near i t ht)
  rw [e]
  congr 1
  refine List.ext_getElem (by rw [hL]; simp [lapList]) fun j h1 h2 => ?_
  have hj : j < n := by omega
  obtain ⟨l, l1, l2⟩ := lapVecLoop_field hj (getD_some (by rw [hl x hx]; exact hj)) e (a := 0) (by simp [hj])
  rw [lapLoop_eq (F := fun y => (cellAt g data (wrap g y)).getD j 0)] at l2
  · have l3 := Outcome.ok.inj l2
    rw [List.getElem?_eq_getElem h1] at l1
    rw [Option.some.inj l1, ← l3]
    simp [lapList]
  · intro i _
    refine ⟨?_, ?_⟩
    · rw [(near i 1 (.inl rfl)).1, Outcome.ok_bind]
      exact elem_ok.2 (getD_some (by rw [(near i 1 (.inl rfl)).2]; exact hj))
    · rw [(near i (-1) (.inr rfl)).1, Outcome.ok_bind]
      exact elem_ok.2 (getD_some (by rw [(near i (-1) (.inr rfl)).2]; exact hj))

/-- One step of the update. -/
theorem iso_one {g : Shape} (hg : Room 1 g) {n : Nat} (dx : Nat → T) (value : List T → List T → Nat → T) {σ : Grids (List T)} (hl : Compare.AllNodes g (fun v => v.length = n) (σ 0)) :
    ∃ σ', serialRun g [.loop 1 (isoKernel g.dim n dx value), .swap 0 1, .ghostswap 0] σ = .ok σ' ∧
      ∀ x, g.IsNode x → cellAt g (σ' 0) x = (List.range n).map (value (lapList g n dx (σ 0) x) (cellAt g (σ 0) x)) := by
  have here : ∀ {x}, g.IsNode x → gridAt .serial g (σ 0) x = .ok (cellAt g (σ 0) x) := fun {x} hx => Symmetry.gridAt_ok hg.reach (σ 0) hx fun j hj => by
    have := hx j hj
    unfold checkBoundary
    split_ifs <;> omega
  obtain ⟨σ', e, ho, hv, _⟩ := runLoop_cells (bd := .serial) hg.wf (fun _ => hg.ghosts) (dst := 1) (kern := isoKernel g.dim n dx value) (σ := σ)
    (val := fun x => (List.range n).map (value (lapList g n dx (σ 0) x) (cellAt g (σ 0) x)))
    (fun x y hxy => by
      have ew : ∀ i t, cellAt g (σ 0) (wrap g (bump x i t)) = cellAt g (σ 0) (wrap g (bump y i t)) := fun i t => by
        unfold cellAt
        rw [rawOffset_congr fun j hj => ?_]
        simp only [wrap, bump]
        by_cases e : j = i
        · subst e; simp [hxy j hj]
        · simp [e, hxy j hj]
      have e1 : cellAt g (σ 0) x = cellAt g (σ 0) y := by
        unfold cellAt
        rw [rawOffset_congr hxy]
      simp only [lapList, ew, e1])
    (fun τ hτ x hx _ => by
      unfold isoKernel
      beta_reduce
      rw [hτ 0 (by decide), here hx, Outcome.ok_bind, lapVec_eq hg dx hl hx, Outcome.ok_bind])
    (P := fun _ => True) (fun _ _ _ => trivial) fun _ _ => trivial
  refine ⟨swapGrids 0 1 σ', ?_, fun x hx => hv x hx⟩
  show ((runLoop .serial g 1 (isoKernel g.dim n dx value) σ).bind _) = _
  rw [e]
  rfl

/-- A test on cells that every node keeps is kept by the run, and so is a relation to the initial cell. -/
theorem iso_keeps {g : Shape} (hg : Room 1 g) {n : Nat} {dx : Nat → T} {value : List T → List T → Nat → T} {P : List T → Prop} {R : List T → List T → Prop} (hP : ∀ v, P v → v.length = n)
    (hnode : ∀ (data : Int → List T) x, g.IsNode x → Compare.AllNodes g P data → P ((List.range n).map (value (lapList g n dx data x) (cellAt g data x))))
    (hR : ∀ u l y, P y → R u y → R u ((List.range n).map (value l y))) (steps : Nat) {σ : Grids (List T)} (h : Compare.AllNodes g P (σ 0)) (hr : ∀ v, P v → R v v) :
    ∃ σ', serialRun g (evolveUpdate (isoKernel g.dim n dx value) steps) σ = .ok σ' ∧ Compare.AllNodes g P (σ' 0) ∧ Compare.Pairs g R (σ 0) (σ' 0) := by
  have e0 : serialRun g (evolveUpdate (isoKernel g.dim n dx value) steps) σ = serialRun g (repeatProg [.loop 1 (isoKernel g.dim n dx value), .swap 0 1, .ghostswap 0] steps) σ := by
    unfold evolveUpdate serialRun; rw [List.foldlM_cons]; rfl
  rw [e0]
  induction steps with
  | zero => exact ⟨σ, rfl, h, fun x hx => hr _ (h x hx)⟩
  | succ m ih =>
    obtain ⟨σ1, e1, h1, r1⟩ := ih (by unfold evolveUpdate serialRun; rw [List.foldlM_cons]; rfl)
    obtain ⟨σ2, e2, h2⟩ := iso_one hg dx value (n := n) (σ := σ1) fun x hx => hP _ (h1 x hx)
    refine ⟨σ2, by rw [repeatProg_succ, ParallelRun.serialRun_append, e1, Outcome.ok_bind, e2], fun x hx => ?_, fun x hx => ?_⟩
    · rw [h2 x hx]; exact hnode _ x hx h1
    · rw [h2 x hx]; exact hR _ _ _ (h1 x hx) (r1 x hx)

end Step

/-! ## Runs -/

section
variable {f : Fmt}

/-- **C118.** The weights of the axes. -/
def Weights (f : Fmt) (d k : Nat) (dx : Nat → Num f) : Prop := ∀ i, i < d → ∃ w, Is (lapWeight (dx i)) w ∧ 0 ≤ w ∧ w ≤ 2 ^ k

theorem fracs_getD {n : Nat} {v : List (Num f)} (h : Fracs n v) {j : Nat} (hj : j < n) : Frac (v.getD j 0) := by
  rw [List.getD_eq_getElem _ _ (by rw [h.1]; exact hj)]
  exact h.2 _ (List.getElem_mem _)

theorem lapList_getD {T : Type} [Zero T] [One T] [Add T] [Sub T] [Mul T] [Div T] (g : Shape) {n j : Nat} (hj : j < n) (dx : Nat → T) (data : Int → List T) (x : Nat → Int) :
    (lapList g n dx data x).getD j 0 = (List.range g.dim).foldl (fun a i => a + lapWeight (dx i) *
      ((cellAt g data (wrap g (bump x i 1))).getD j 0 - (1 + 1) * (cellAt g data x).getD j 0 + (cellAt g data (wrap g (bump x i (-1)))).getD j 0)) 0 := by
  unfold lapList
  rw [List.getD_eq_getElem _ _ (by simpa using hj)]
  simp

/-- One node. -/
theorem node_fracs {cube : Num f → Num f} (hcube : Cubed cube) {g : Shape} (hroom : Room 1 g) {k s n : Nat} {c : ℝ} (hg : Gentle f g.dim k s c) {dt : Num f} (hdt : Is dt c) (hn : n ≤ 2 ^ s)
    {dx : Nat → Num f} (hw : Weights f g.dim k dx) {data : Int → List (Num f)} {x : Nat → Int} (hx : g.IsNode x) (h : Compare.AllNodes g (Fracs n) data) {j : Nat} (hj : j < n) :
    Frac (isoTerm cube dt n (lapList g n dx data x) (cellAt g data x) j) := by
  choose! w hw using hw
  have near : ∀ i t, t = 1 ∨ t = -1 → Fracs n (cellAt g data (wrap g (bump x i t))) := fun i t ht =>
    h _ (near_reach hroom.reach hx fun j _ => by unfold bump; by_cases e : j = i <;> simp [e]; omega)
  exact isoTerm_frac hcube hg hdt hn hw (fun j hj => fracs_getD (h x hx) hj) hj (fun i _ => fracs_getD (near i 1 (.inl rfl)) hj) (fun i _ => fracs_getD (near i (-1) (.inr rfl)) hj)
    (lapList_getD g hj dx data x)

theorem fracs_map {n : Nat} {v : Nat → Num f} (h : ∀ j, j < n → Frac (v j)) : Fracs n ((List.range n).map v) := by
  refine ⟨by simp, fun a ha => ?_⟩
  obtain ⟨j, hj, rfl⟩ := List.mem_map.1 ha
  exact h j (List.mem_range.1 hj)

/-- **C118.** Isotropic grain growth in IEEE numbers: from cells of finite numbers from 0 to 1 every run ends with cells of finite numbers from 0 to 1, after any number of steps. -/
theorem growth_frac {cube : Num f → Num f} (hcube : Cubed cube) {g : Shape} (hroom : Room 1 g) {k s n : Nat} {c : ℝ} (hg : Gentle f g.dim k s c) {dt : Num f} (hdt : Is dt c) (hn : n ≤ 2 ^ s)
    {dx : Nat → Num f} (hw : Weights f g.dim k dx) (steps : Nat) {σ : Grids (List (Num f))} (h : Compare.AllNodes g (Fracs n) (σ 0)) :
    ∃ σ', serialRun g (evolveUpdate (isoKernel g.dim n dx (isoTerm cube dt n)) steps) σ = .ok σ' ∧ Compare.AllNodes g (Fracs n) (σ' 0) := by
  obtain ⟨σ', e, hP, _⟩ := iso_keeps hroom (P := Fracs n) (R := fun _ _ => True) (fun v hv => hv.1)
    (fun data x hx hd => fracs_map fun j hj => node_fracs hcube hroom hg hdt hn hw hx hd hj) (fun _ _ _ _ _ => trivial) steps h (fun _ _ => trivial)
  exact ⟨σ', e, hP⟩

/-- **C118.** Zener pinning: the same, and the particles (field 0) stay what they are, bit for bit. -/
theorem zener_frac {cube : Num f → Num f} (hcube : Cubed cube) {g : Shape} (hroom : Room 1 g) {k s n : Nat} {c : ℝ} (hg : Gentle f g.dim k s c) {dt : Num f} (hdt : Is dt c) (hn : n ≤ 2 ^ s)
    {dx : Nat → Num f} (hw : Weights f g.dim k dx) (steps : Nat) {σ : Grids (List (Num f))} (h : Compare.AllNodes g (Fracs n) (σ 0)) :
    ∃ σ', serialRun g (evolveUpdate (isoKernel g.dim n dx (zenerTerm cube dt n)) steps) σ = .ok σ' ∧ Compare.AllNodes g (Fracs n) (σ' 0) ∧
      Compare.Pairs g (fun u v => v.head? = u.head?) (σ 0) (σ' 0) := by
  refine iso_keeps hroom (P := Fracs n) (R := fun u v => v.head? = u.head?) (fun v hv => hv.1) (fun data x hx hd => fracs_map fun j hj => ?_) (fun u l y hy hu => ?_) steps h (fun _ _ => rfl)
  · unfold zenerTerm
    split_ifs
    · exact fracs_getD (hd x hx) hj
    · exact node_fracs hcube hroom hg hdt hn hw hx hd hj
  · cases n with
    | zero =>
      rw [← hu, List.length_eq_zero_iff.1 hy.1]; rfl
    | succ n =>
      obtain ⟨hl, _⟩ := hy
      cases y with
      | nil => simp at hl
      | cons a y => rw [← hu, List.range_succ_eq_map]; simp [zenerTerm]

/-- **C118.** The same on any decomposition, with stale ghosts. -/
theorem ranks_frac {cube : Num f → Num f} (hcube : Cubed cube) {w : World} {np n : Nat} {c : Nat → Cell (List (Num f))} (hc : ∀ k, RoundTrips (c k)) (hPc : ∀ k v, Entries (Num f) n k v → (c k).Valid v)
    (h : w.Ok np) (hgh : 1 ≤ w.ghosts) (hroom : Room 1 w.serial) {k s : Nat} {cv : ℝ} (hg : Gentle f w.d k s cv) {dt : Num f} (hdt : Is dt cv) (hn : n ≤ 2 ^ s) {dx : Nat → Num f}
    (hw : Weights f w.d k dx) (steps : Nat) {σ : Grids (List (Num f))} {D : Int → Grids (List (Num f))} (hF : SameField w np σ D 0) (hS : AllCells w np (Entries (Num f) n) σ D)
    (hσ : Compare.AllNodes w.serial (Fracs n) (σ 0)) :
    (∃ D', Finished np (mpiRun c w (evolveUpdate (isoKernel w.d n dx (isoTerm cube dt n)) steps) fun r => .ok (D r)) D' ∧ ∀ r, Ghost.IsRank np r → Compare.AllNodes (w.shape r) (Fracs n) (D' r 0)) ∧
    ∃ D', Finished np (mpiRun c w (evolveUpdate (isoKernel w.d n dx (zenerTerm cube dt n)) steps) fun r => .ok (D r)) D' ∧ ∀ r, Ghost.IsRank np r →
      Compare.AllNodes (w.shape r) (Fracs n) (D' r 0) ∧ Compare.Pairs (w.shape r) (fun u v => v.head? = u.head?) (D r 0) (D' r 0) := by
  constructor
  · obtain ⟨σ', D', e1, e2, e3⟩ := isoDense_parallel hc hPc h hgh dx (isoTerm cube dt n) steps hF hS
    obtain ⟨σ2, f1, f2⟩ := growth_frac hcube hroom hg hdt hn hw steps hσ
    obtain rfl : σ2 = σ' := Outcome.ok.inj (f1.symm.trans e1)
    refine ⟨D', e2, fun r hr x hx => ?_⟩
    rw [e3 r hr x hx]
    exact f2 x (Ghost.isNode_global h.setup hr hx)
  · obtain ⟨σ', D', e1, e2, e3⟩ := isoDense_parallel hc hPc h hgh dx (zenerTerm cube dt n) steps hF hS
    obtain ⟨σ2, f1, f2, f3⟩ := zener_frac hcube hroom hg hdt hn hw steps hσ
    obtain rfl : σ2 = σ' := Outcome.ok.inj (f1.symm.trans e1)
    refine ⟨D', e2, fun r hr => ⟨fun x hx => ?_, fun x hx => ?_⟩⟩
    · rw [e3 r hr x hx]
      exact f2 x (Ghost.isNode_global h.setup hr hx)
    · rw [e3 r hr x hx, hF r hr x hx]
      exact f3 x (Ghost.isNode_global h.setup hr hx)

end

/-! ## Grain interiors -/

/-- Nodes at most `m` hops from `x`, across periodic boundaries. -/
def Ball (g : Shape) : Nat → (Nat → Int) → (Nat → Int) → Prop
  | 0, x, y => y = x
  | m + 1, x, y => Ball g m x y ∨ ∃ i, i < g.dim ∧ ∃ t, (t = 1 ∨ t = -1) ∧ Ball g m (wrap g (bump x i t)) y

/-- A cell of grain `h`: its field is 1, the others are 0. -/
def PureCell {f : Fmt} (n h : Nat) (v : List (Num f)) : Prop := v.length = n ∧ h < n ∧ ∀ j, j < n → Is (v.getD j 0) (if j = h then 1 else 0)

section Step
variable {T : Type} [Zero T] [One T] [Add T] [Sub T] [Mul T] [Div T]

/-- A cell that does not change next to its like does not change as long as nothing else comes near: one hop per step. -/
theorem iso_local {g : Shape} (hg : Room 1 g) {n : Nat} {dx : Nat → T} {value : List T → List T → Nat → T} {v : List T}
    (hfix : ∀ (data : Int → List T) x, g.IsNode x → cellAt g data x = v → (∀ i, i < g.dim → ∀ t, t = 1 ∨ t = -1 → cellAt g data (wrap g (bump x i t)) = v) →
      (List.range n).map (value (lapList g n dx data x) (cellAt g data x)) = v)
    (steps : Nat) {σ : Grids (List T)} (hl : Compare.AllNodes g (fun v => v.length = n) (σ 0)) :
    ∃ σ', serialRun g (evolveUpdate (isoKernel g.dim n dx value) steps) σ = .ok σ' ∧ Compare.AllNodes g (fun v => v.length = n) (σ' 0) ∧
      ∀ x, g.IsNode x → (∀ y, Ball g steps x y → cellAt g (σ 0) y = v) → cellAt g (σ' 0) x = v := by
  have e0 : ∀ k, serialRun g (evolveUpdate (isoKernel g.dim n dx value) k) σ = serialRun g (repeatProg [.loop 1 (isoKernel g.dim n dx value), .swap 0 1, .ghostswap 0] k) σ := fun k => by
    unfold evolveUpdate serialRun; rw [List.foldlM_cons]; rfl
  simp only [e0]
  induction steps with
  | zero => exact ⟨σ, rfl, hl, fun x _ h => h x rfl⟩
  | succ m ih =>
    obtain ⟨σ1, e1, h1, r1⟩ := ih
    obtain ⟨σ2, e2, h2⟩ := iso_one hg dx value (n := n) (σ := σ1) h1
    refine ⟨σ2, by rw [repeatProg_succ, ParallelRun.serialRun_append, e1, Outcome.ok_bind, e2], fun x hx => by rw [h2 x hx]; simp, fun x hx h => ?_⟩
    rw [h2 x hx]
    refine hfix _ x hx (r1 x hx fun y hy => h y (.inl hy)) fun i hi t ht => r1 _ ?_ fun y hy => h y (.inr ⟨i, hi, t, ht, hy⟩)
    exact near_reach hg.reach hx fun j _ => by unfold bump; by_cases e : j = i <;> simp [e]; omega

end Step

section
variable {f : Fmt}

/-- Small integers are computed without rounding. -/
theorem rnd_int (hf : f.Good) {m : ℤ} (h : |m| ≤ 3) : rnd f m = m ∧ |rnd f (m : ℝ)| < 2 ^ f.emax := by
  have e : rnd f (m : ℝ) = m := by
    refine rnd_rep (good_p hf) ⟨m, 0, h.trans ?_, by have := hf.low; omega, by simp⟩
    calc (3 : ℤ) ≤ 2 ^ 2 := by norm_num
      _ ≤ 2 ^ f.p := pow_le_pow_right₀ (by norm_num) hf.p2
  refine ⟨e, ?_⟩
  rw [e]
  have : |(m : ℝ)| ≤ 3 := by exact_mod_cast h
  linarith [four_le_top hf]

theorem int_add (hf : f.Good) {a b : Num f} {m n : ℤ} (ha : Is a m) (hb : Is b n) (h : |m + n| ≤ 3) : Is (a + b) ((m + n : ℤ) : ℝ) := by
  obtain ⟨e, l⟩ := rnd_int hf h
  rw [← e]; push_cast at l ⊢; exact ha.add hb l

theorem int_sub (hf : f.Good) {a b : Num f} {m n : ℤ} (ha : Is a m) (hb : Is b n) (h : |m - n| ≤ 3) : Is (a - b) ((m - n : ℤ) : ℝ) := by
  obtain ⟨e, l⟩ := rnd_int hf h
  rw [← e]; push_cast at l ⊢; exact ha.sub hb l

theorem int_mul (hf : f.Good) {a b : Num f} {m n : ℤ} (ha : Is a m) (hb : Is b n) (h : |m * n| ≤ 3) : Is (a * b) ((m * n : ℤ) : ℝ) := by
  obtain ⟨e, l⟩ := rnd_int hf h
  rw [← e]; push_cast at l ⊢; exact ha.mul hb l

theorem mul_int_zero {a b : Num f} {x : ℝ} (ha : Is a x) (hb : Is b 0) : Is (a * b) 0 := by
  have := ha.mul hb (by rw [mul_zero, rnd_zero, abs_zero]; exact Rounding.two_zpow_pos _)
  rwa [mul_zero, rnd_zero] at this

theorem is_eq {a b : Num f} {x : ℝ} (ha : Is a x) (hb : Is b x) : a = b := by
  obtain ⟨_, rfl⟩ := ha
  obtain ⟨_, rfl⟩ := hb
  rfl

theorem as_int {a : Num f} (h : Is a 0) : Is a ((0 : ℤ) : ℝ) := by rwa [Int.cast_zero]

/-- The Laplacian of a constant is exactly 0. -/
theorem lap_flat (hf : f.Good) {d : Nat} {dx : Nat → Num f} (hw : ∀ i, i < d → ∃ w, Is (lapWeight (dx i)) w) {a : Num f} {b : ℤ} (ha : Is a b) (h0 : 0 ≤ b) (h1 : b ≤ 1) :
    Is ((List.range d).foldl (fun s i => s + lapWeight (dx i) * (a - (1 + 1) * a + a)) 0) 0 := by
  induction d with
  | zero => exact is_zero
  | succ d ih =>
    rw [List.range_succ, List.foldl_append, List.foldl_cons, List.foldl_nil]
    obtain ⟨w, hw'⟩ := hw d (by omega)
    have i2 : Is (1 + 1 : Num f) ((2 : ℤ) : ℝ) := by have := is_two hf; exact_mod_cast this
    have i3 := int_mul hf i2 ha (abs_le.2 ⟨by omega, by omega⟩)
    have i4 := int_sub hf ha i3 (abs_le.2 ⟨by omega, by omega⟩)
    have i5 := int_add hf i4 ha (abs_le.2 ⟨by omega, by omega⟩)
    rw [show b - 2 * b + b = 0 by ring] at i5
    rw [Int.cast_zero] at i5
    have i7 := int_add hf (as_int (ih fun i h => hw i (by omega))) (as_int (mul_int_zero hw' i5)) (by decide)
    rw [add_zero, Int.cast_zero] at i7
    exact i7

theorem pure_int {n h : Nat} {v : List (Num f)} (hp : PureCell n h v) {j : Nat} (hj : j < n) : Is (v.getD j 0) ((if j = h then 1 else 0 : ℤ) : ℝ) := by
  have := hp.2.2 j hj
  split_ifs at this ⊢ <;> simpa using this

theorem squares_pure (hf : f.Good) {n h : Nat} {v : List (Num f)} (hp : PureCell n h v) : Is (squares n v) ((1 : ℤ) : ℝ) := by
  have key : ∀ m, m ≤ n → Is (squares m v) ((if h < m then 1 else 0 : ℤ) : ℝ) := fun m => by
    induction m with
    | zero => intro _; simpa [squares] using is_zero
    | succ m ih =>
      intro hm
      have i0 := ih (by omega)
      unfold squares at i0 ⊢
      rw [List.range_succ, List.foldl_append, List.foldl_cons, List.foldl_nil]
      have i1 := pure_int hp (j := m) (by omega)
      have i2 := int_mul hf i1 i1 (by split_ifs <;> decide)
      have i3 := int_add hf i0 i2 (by split_ifs <;> decide)
      refine Eq.mp ?_ i3
      congr 2
      split_ifs <;> omega
  have := key n le_rfl
  rwa [if_pos hp.2.1] at this

/-- **C118, grain interiors.** In a cell of one grain among cells of the same grain no value changes, not by one bit. -/
theorem isoTerm_pure (hf : f.Good) {cube : Num f → Num f} (c1 : ∀ a, Is a 1 → Is (cube a) 1) (c0 : ∀ a, Is a 0 → Is (cube a) 0) {dt : Num f} {c : ℝ} (hdt : Is dt c) {n h d : Nat} {dx : Nat → Num f}
    (hw : ∀ i, i < d → ∃ w, Is (lapWeight (dx i)) w) {y l : List (Num f)} (hp : PureCell n h y) {j : Nat} (hj : j < n)
    (hl : l.getD j 0 = (List.range d).foldl (fun s i => s + lapWeight (dx i) * (y.getD j 0 - (1 + 1) * y.getD j 0 + y.getD j 0)) 0) : isoTerm cube dt n l y j = y.getD j 0 := by
  have i1 := pure_int hp hj
  set b : ℤ := if j = h then 1 else 0 with hb
  have b0 : b = 0 ∨ b = 1 := by rw [hb]; split_ifs <;> simp
  have il : Is (l.getD j 0) ((0 : ℤ) : ℝ) := by
    rw [hl, Int.cast_zero]
    exact lap_flat hf hw i1 (by omega) (by omega)
  have iq : Is (cube (y.getD j 0)) (b : ℝ) := by
    rcases b0 with e | e
    · rw [e] at i1 ⊢; rw [Int.cast_zero] at i1 ⊢; exact c0 _ i1
    · rw [e] at i1 ⊢; rw [Int.cast_one] at i1 ⊢; exact c1 _ i1
  have i2 : Is (1 + 1 : Num f) ((2 : ℤ) : ℝ) := by have := is_two hf; exact_mod_cast this
  have in1 : Is (-y.getD j 0) ((-b : ℤ) : ℝ) := by have := i1.neg (good_p hf); push_cast; exact this
  have a1 := int_sub hf in1 iq (by rcases b0 with e | e <;> rw [e] <;> decide)
  have a2 := int_mul hf i1 (squares_pure hf hp) (by rcases b0 with e | e <;> rw [e] <;> decide)
  have a3 := int_sub hf a2 il (by rcases b0 with e | e <;> rw [e] <;> decide)
  have a4 := int_mul hf i2 a3 (by rcases b0 with e | e <;> rw [e] <;> decide)
  have a5 := int_add hf a1 a4 (by rcases b0 with e | e <;> rw [e] <;> decide)
  rw [show -b - b + 2 * (b * 1 - 0) = 0 by ring, Int.cast_zero] at a5
  have a6 := as_int (mul_int_zero hdt a5)
  have a7 := int_sub hf i1 a6 (by rcases b0 with e | e <;> rw [e] <;> decide)
  rw [sub_zero] at a7
  exact is_eq a7 i1

/-- **C118, grain interiors.** A node more than `steps` hops away from every cell that is not of its grain is unchanged after `steps` steps, bit for bit; so for Zener pinning. No limit on the time step. -/
theorem interior_kept (hf : f.Good) {cube : Num f → Num f} (c1 : ∀ a, Is a 1 → Is (cube a) 1) (c0 : ∀ a, Is a 0 → Is (cube a) 0) {dt : Num f} {c : ℝ} (hdt : Is dt c) {g : Shape} (hroom : Room 1 g)
    {n h : Nat} {dx : Nat → Num f} (hw : ∀ i, i < g.dim → ∃ w, Is (lapWeight (dx i)) w) {value : List (Num f) → List (Num f) → Nat → Num f} (hval : value = isoTerm cube dt n ∨ value = zenerTerm cube dt n)
    {v : List (Num f)} (hv : PureCell n h v) (steps : Nat) {σ : Grids (List (Num f))} (hl : Compare.AllNodes g (fun v => v.length = n) (σ 0)) :
    ∃ σ', serialRun g (evolveUpdate (isoKernel g.dim n dx value) steps) σ = .ok σ' ∧
      ∀ x, g.IsNode x → (∀ y, Ball g steps x y → cellAt g (σ 0) y = v) → cellAt g (σ' 0) x = v := by
  obtain ⟨σ', e, _, h3⟩ := iso_local hroom (n := n) (dx := dx) (value := value) (v := v) (fun data x hx e0 en => by
    refine List.ext_getElem (by simp [hv.1]) fun j h1 h2 => ?_
    have hj : j < n := by simpa using h1
    rw [List.getElem_map, List.getElem_range]
    have key : isoTerm cube dt n (lapList g n dx data x) (cellAt g data x) j = (cellAt g data x).getD j 0 := by
      rw [e0]
      refine isoTerm_pure hf c1 c0 hdt hw hv hj ?_
      rw [lapList_getD g hj, e0]
      refine List.foldl_ext _ _ _ fun a i hi => ?_
      rw [en i (List.mem_range.1 hi) 1 (.inl rfl), en i (List.mem_range.1 hi) (-1) (.inr rfl)]
    have fin : (cellAt g data x).getD j 0 = v[j] := by rw [e0, List.getD_eq_getElem _ _ h2]
    rcases hval with rfl | rfl
    · rw [key, fin]
    · unfold zenerTerm
      split_ifs
      · exact fin
      · rw [key, fin]) steps hl
  exact ⟨σ', e, h3⟩

/-- **C118, grain interiors.** The same on any decomposition. -/
theorem ranks_interior (hf : f.Good) {cube : Num f → Num f} (c1 : ∀ a, Is a 1 → Is (cube a) 1) (c0 : ∀ a, Is a 0 → Is (cube a) 0) {dt : Num f} {cv : ℝ} (hdt : Is dt cv) {w : World} {np n h : Nat}
    {c : Nat → Cell (List (Num f))} (hc : ∀ k, RoundTrips (c k)) (hPc : ∀ k v, Entries (Num f) n k v → (c k).Valid v) (hok : w.Ok np) (hgh : 1 ≤ w.ghosts) (hroom : Room 1 w.serial)
    {dx : Nat → Num f} (hw : ∀ i, i < w.d → ∃ x, Is (lapWeight (dx i)) x) {value : List (Num f) → List (Num f) → Nat → Num f} (hval : value = isoTerm cube dt n ∨ value = zenerTerm cube dt n)
    {v : List (Num f)} (hv : PureCell n h v) (steps : Nat) {σ : Grids (List (Num f))} {D : Int → Grids (List (Num f))} (hF : SameField w np σ D 0) (hS : AllCells w np (Entries (Num f) n) σ D)
    (hl : Compare.AllNodes w.serial (fun v => v.length = n) (σ 0)) :
    ∃ D', Finished np (mpiRun c w (evolveUpdate (isoKernel w.d n dx value) steps) fun r => .ok (D r)) D' ∧
      ∀ r, Ghost.IsRank np r → ∀ x, (w.shape r).IsNode x → (∀ y, Ball w.serial steps x y → cellAt w.serial (σ 0) y = v) → cellAt (w.shape r) (D' r 0) x = v := by
  obtain ⟨σ', D', e1, e2, e3⟩ := isoDense_parallel hc hPc hok hgh dx value steps hF hS
  obtain ⟨σ2, f1, f2⟩ := interior_kept hf c1 c0 hdt hroom (dx := dx) hw hval hv steps hl
  obtain rfl : σ2 = σ' := Outcome.ok.inj (f1.symm.trans e1)
  refine ⟨D', e2, fun r hr x hx hb => ?_⟩
  rw [e3 r hr x hx]
  exact f2 x (Ghost.isNode_global hok.setup hr hx) hb

/-! ## `pow` -/

/-- Two products, and the cube rounded once, satisfy the requirements on `pow`. -/
theorem timesThree_cubed (hf : f.Good) : Cubed (timesThree (T := Num f)) ∧ (∀ a : Num f, Is a 1 → Is (timesThree a) 1) ∧ ∀ a : Num f, Is a 0 → Is (timesThree a) 0 := by
  have h := IeeeConfine.timesThree_cube hf
  refine ⟨⟨fun a x ha h0 h1 => ?_⟩, h.one, fun a ha => mul_int_zero (mul_int_zero ha ha) ha⟩
  obtain ⟨y, y1, y2⟩ := h.near a x ha (abs_le.2 ⟨by linarith, h1⟩)
  refine ⟨y, y1, y2, ?_⟩
  have b1 := sq_le_one hf h0 h1
  have i1 := ha.mul ha (by rw [abs_of_nonneg b1.1]; exact lt_of_le_of_lt b1.2 (one_lt_top hf))
  have b2 : 0 ≤ rnd f (rnd f (x * x) * x) := rnd_nonneg (mul_nonneg b1.1 h0)
  have b3 : rnd f (rnd f (x * x) * x) ≤ 1 := rnd_le hf (rep_one hf) (mul_le_one₀ b1.2 h0 h1)
  have i2 := i1.mul ha (by rw [abs_of_nonneg b2]; exact lt_of_le_of_lt b3 (one_lt_top hf))
  rw [y1.unique i2]; exact b2

theorem roundedCube_cubed (hf : f.Good) : Cubed (roundedCube (f := f)) ∧ (∀ a : Num f, Is a 1 → Is (roundedCube a) 1) ∧ ∀ a : Num f, Is a 0 → Is (roundedCube a) 0 := by
  have h := IeeeConfine.roundedCube_cube hf
  have comp : ∀ (a : Num f) x, Is a x → 0 ≤ x → x ≤ 1 → Is (roundedCube a) (rnd f (x ^ 3)) := fun a x ha h0 h1 => by
    obtain ⟨_, rfl⟩ := ha
    refine of_is ?_
    rw [abs_of_nonneg (rnd_nonneg (pow_nonneg h0 3))]
    exact lt_of_le_of_lt (rnd_le hf (rep_one hf) (pow_le_one₀ h0 h1)) (one_lt_top hf)
  refine ⟨⟨fun a x ha h0 h1 => ?_⟩, h.one, fun a ha => ?_⟩
  · obtain ⟨y, y1, y2⟩ := h.near a x ha (abs_le.2 ⟨by linarith, h1⟩)
    refine ⟨y, y1, y2, ?_⟩
    rw [y1.unique (comp a x ha h0 h1)]
    exact rnd_nonneg (pow_nonneg h0 3)
  · have := comp a 0 ha le_rfl zero_le_one
    rwa [zero_pow (by norm_num), rnd_zero] at this

end

/-! ## The examples as shipped -/

/-- **C118.** `dt = 0.01` (graingrowth.cpp 83, zener.cpp 114) in `double`s, spacing 1, up to three dimensions and sixteen fields (graingrowth.cpp has two, zener.cpp three). -/
theorem shipped_gentle {d : Nat} (hd : d ≤ 3) : Gentle double d 0 4 (5764607523034235 * 2 ^ (-59 : ℤ)) := by
  refine ⟨double_good, by norm_num, ?_, ?_, by decide, ?_⟩
  · interval_cases d <;> norm_num
  · interval_cases d <;> norm_num
  · rw [max_eq_left (by omega)]; decide

theorem unit_weights (d : Nat) : Weights double d 0 fun _ => 1 := fun _ _ => ⟨1, IeeeConfine.weight_one double_good, zero_le_one, by norm_num⟩

/-- **C118.** Both examples in `double`s, underflow and overflow included: started from finite values from 0 to 1, as `generate` does, every value is a finite number from 0 to 1 for ever. -/
theorem shipped_frac {cube : Num double → Num double} (hcube : Cubed cube) {g : Shape} (hroom : Room 1 g) (hd : g.dim ≤ 3) {n : Nat} (hn : n ≤ 16) (steps : Nat) {σ : Grids (List (Num double))}
    (h : Compare.AllNodes g (Fracs n) (σ 0)) :
    (∃ σ', serialRun g (evolveUpdate (isoKernel g.dim n (fun _ => 1) (isoTerm cube IeeeConfine.dt n)) steps) σ = .ok σ' ∧ Compare.AllNodes g (Fracs n) (σ' 0)) ∧
    ∃ σ', serialRun g (evolveUpdate (isoKernel g.dim n (fun _ => 1) (zenerTerm cube IeeeConfine.dt n)) steps) σ = .ok σ' ∧ Compare.AllNodes g (Fracs n) (σ' 0) ∧
      Compare.Pairs g (fun u v => v.head? = u.head?) (σ 0) (σ' 0) :=
  ⟨growth_frac hcube hroom (shipped_gentle hd) IeeeConfine.dt_is hn (unit_weights _) steps h, zener_frac hcube hroom (shipped_gentle hd) IeeeConfine.dt_is hn (unit_weights _) steps h⟩

/-- With exact arithmetic the right-hand sides are those of C65 and C117. -/
theorem exact_link {α : Type} [Field α] [LinearOrder α] (dt : α) (n : Nat) (l y : List α) (j : Nat) :
    isoTerm (fun x => x ^ 3) dt n l y j = DensePF.isoValue dt n (DensePF.entry l) (DensePF.entry y) j ∧
    zenerTerm (fun x => x ^ 3) dt n l y j = DensePF.zenerValue dt n (DensePF.entry l) (DensePF.entry y) j := by
  have e : ∀ (v : List α) (i : Nat), DensePF.entry v (i : Int) = v.getD i 0 := fun v i => by unfold DensePF.entry; rw [if_pos (by omega), Int.toNat_natCast]
  have h : isoTerm (fun x => x ^ 3) dt n l y j = DensePF.isoValue dt n (DensePF.entry l) (DensePF.entry y) j := by
    unfold isoTerm DensePF.isoValue squares DensePF.squares
    simp only [e, one_add_one_eq_two]
  refine ⟨h, ?_⟩
  unfold zenerTerm DensePF.zenerValue
  rw [h, e]
  simp only [Nat.cast_eq_zero]

/-! ## Necessity -/

/-- **C118, necessity.** With time step 1 two overlapping grains, both 1 everywhere, are both -1 after one step. -/
theorem large_step_leaves : ∃ σ', serialRun (Conserve.line .periodic .periodic) (evolveUpdate (isoKernel 1 2 (fun _ => 1) (isoTerm timesThree (1 : Num double) 2)) 1) (fun _ _ => [1, 1]) = .ok σ' ∧
    Compare.AllNodes (Conserve.line .periodic .periodic) (fun v => v.length = 2 ∧ ∀ a ∈ v, Is a (-1)) (σ' 0) := by
  have hf := double_good
  have one : Is (1 : Num double) ((1 : ℤ) : ℝ) := by rw [Int.cast_one]; exact is_one hf
  have hr := line_room .periodic (by decide)
  obtain ⟨σ', e, h⟩ := iso_one (n := 2) hr (fun _ => (1 : Num double)) (isoTerm timesThree (1 : Num double) 2) (σ := fun _ _ => [1, 1]) fun _ _ => rfl
  refine ⟨σ', e, fun x hx => ?_⟩
  rw [h x hx]
  refine ⟨by simp, fun a ha => ?_⟩
  obtain ⟨j, hj, rfl⟩ := List.mem_map.1 ha
  have hj := List.mem_range.1 hj
  have hy : ([1, 1] : List (Num double)).getD j 0 = 1 := by interval_cases j <;> rfl
  have il : Is ((lapList (Conserve.line .periodic .periodic) 2 (fun _ => (1 : Num double)) (fun _ => [1, 1]) x).getD j 0) ((0 : ℤ) : ℝ) := by
    rw [lapList_getD _ hj, Int.cast_zero]
    have := lap_flat (d := 1) hf (dx := fun _ => 1) (fun _ _ => ⟨1, IeeeConfine.weight_one hf⟩) one (by decide) (by decide)
    show Is ((List.range 1).foldl (fun a i => a + lapWeight 1 * (([1, 1] : List (Num double)).getD j 0 - (1 + 1) * ([1, 1] : List (Num double)).getD j 0 + ([1, 1] : List (Num double)).getD j 0)) 0) 0
    rw [hy]; exact this
  have i2 : Is (1 + 1 : Num double) ((2 : ℤ) : ℝ) := by have := is_two hf; exact_mod_cast this
  have m1 : Is ((1 : Num double) * 1) ((1 : ℤ) : ℝ) := by have := int_mul hf one one (by decide); simpa using this
  have iq : Is (timesThree (1 : Num double)) ((1 : ℤ) : ℝ) := by have := int_mul hf m1 one (by decide); simpa [timesThree] using this
  have is' : Is (squares 2 ([1, 1] : List (Num double))) ((2 : ℤ) : ℝ) := by
    have z : Is (0 : Num double) ((0 : ℤ) : ℝ) := by rw [Int.cast_zero]; exact is_zero
    have := int_add hf (int_add hf z m1 (by decide)) m1 (by decide)
    exact this
  show Is (isoTerm timesThree 1 2 _ ([1, 1] : List (Num double)) j) (-1)
  unfold isoTerm
  rw [hy]
  have in1 : Is (-(1 : Num double)) ((-1 : ℤ) : ℝ) := by have := one.neg (good_p hf); push_cast at this ⊢; exact this
  have a1 := int_sub hf in1 iq (by decide)
  have a2 := int_mul hf one is' (by decide)
  have a3 := int_sub hf a2 il (by decide)
  -- 2.0*2 is 4: exact as a power of two
  rw [show ((1 * 2 - 0 : ℤ) : ℝ) = 2 by norm_num] at a3
  have a4 := is_double hf a3 (by rw [abs_of_nonneg (by norm_num)]; exact lt_of_lt_of_le (by norm_num) IeeeConfine.top_double)
  have e5 : rnd double (((-1 - 1 : ℤ) : ℝ) + 2 * 2) = 2 := by
    have := (rnd_int hf (m := 2) (by decide)).1
    norm_num at this ⊢; exact this
  have a5 := a1.add a4 (by rw [e5, abs_two]; exact lt_of_lt_of_le (by norm_num) IeeeConfine.top_double)
  rw [e5, show (2 : ℝ) = ((2 : ℤ) : ℝ) by norm_num] at a5
  have a7 := int_sub hf one (int_mul hf one a5 (by decide)) (by decide)
  norm_num at a7
  exact a7

/-! ## Examples -/

theorem one_frac : Frac (1 : Num double) := ⟨1, is_one double_good, zero_le_one, le_rfl⟩
theorem zero_frac : Frac (0 : Num double) := ⟨0, is_zero, le_rfl, zero_le_one⟩

/-- A million steps of two grains on three periodic nodes. -/
example : ∃ σ', serialRun (Conserve.line .periodic .periodic) (evolveUpdate (isoKernel 1 2 (fun _ => 1) (isoTerm timesThree IeeeConfine.dt 2)) 1000000) (fun _ n => if n = 1 then [1, 0] else [0, 1]) = .ok σ' ∧
    Compare.AllNodes (Conserve.line .periodic .periodic) (Fracs 2) (σ' 0) := by
  refine (shipped_frac (timesThree_cubed double_good).1 (line_room .periodic (by decide)) (by decide) (by decide) _ fun x _ => ?_).1
  show Fracs 2 (if _ = (1 : Int) then [(1 : Num double), 0] else [0, 1])
  split_ifs <;> refine ⟨rfl, fun a ha => ?_⟩ <;> simp at ha <;> rcases ha with rfl | rfl <;> first | exact one_frac | exact zero_frac

/-- Two ranks, one thousand steps, three fields, a particle in one node, stale ghosts. -/
example : ∃ D', Finished 2 (mpiRun (fun _ => arrayCell doubleBytes) smallWorld (evolveUpdate (isoKernel 1 3 (fun _ => 1) (zenerTerm roundedCube IeeeConfine.dt 3)) 1000)
      fun r => .ok fun k => if k = 0 then shared (fun x => if x = 0 then [1, 0, 0] else [0, 1, 0]) [1, 1, 1] r else fun _ => [0, 0, 0]) D' ∧ ∀ r, Ghost.IsRank 2 r →
        Compare.AllNodes (smallWorld.shape r) (Fracs 3) (D' r 0) := by
  have hg : Gentle double smallWorld.d 0 4 _ := shipped_gentle (by decide)
  obtain ⟨D', e, h⟩ := (ranks_frac (roundedCube_cubed double_good).1 (n := 3) (dense_buffers doubleBytes (n := 3) (by decide)).1 (dense_buffers doubleBytes (by decide)).2 smallWorld_ok (by decide)
    ⟨serial_wf smallWorld_ok, rfl, by decide, fun _ _ => ⟨by simp [smallWorld, World.serial, FileIO.serialShape], by simp [smallWorld, World.serial, FileIO.serialShape]⟩, fun _ _ => by simp [smallWorld, World.serial, FileIO.serialShape],
      fun _ _ h => by simp [smallWorld, World.serial, FileIO.serialShape] at h⟩ hg IeeeConfine.dt_is
    (by decide) (unit_weights _) 1000 (σ := fun k => if k = 0 then fun x => if x = 0 then [1, 0, 0] else [0, 1, 0] else fun _ => [0, 0, 0])
    (D := fun r k => if k = 0 then shared (fun x => if x = 0 then [1, 0, 0] else [0, 1, 0]) [1, 1, 1] r else fun _ => [0, 0, 0]) (shared_same _ [1, 1, 1] rfl fun _ => rfl) (fun k => ⟨fun o _ _ => by
      show List.length _ = 3
      dsimp only
      split_ifs
      · show List.length (ite _ _ _) = 3
        split_ifs <;> rfl
      · rfl, fun r _ o _ _ => by
      show List.length _ = 3
      dsimp only
      split_ifs
      · unfold shared
        dsimp only
        split_ifs <;> rfl
      · rfl⟩)
    fun x _ => by
      show Fracs 3 (if _ = (0 : Int) then [(1 : Num double), 0, 0] else [0, 1, 0])
      split_ifs <;> refine ⟨rfl, fun a ha => ?_⟩ <;> simp at ha <;> rcases ha with rfl | ha <;> (try rcases ha with rfl | ha) <;> (try subst ha) <;> first | exact one_frac | exact zero_frac).2
  exact ⟨D', e, fun r hr => (h r hr).1⟩

/-- A single grain: every node is interior, after any number of steps. -/
example (steps : Nat) : ∃ σ', serialRun (Conserve.line .periodic .periodic) (evolveUpdate (isoKernel 1 2 (fun _ => 1) (isoTerm timesThree IeeeConfine.dt 2)) steps) (fun _ _ => [0, 1]) = .ok σ' ∧
    ∀ x, (Conserve.line .periodic .periodic).IsNode x → cellAt (Conserve.line .periodic .periodic) (σ' 0) x = [0, 1] := by
  obtain ⟨c, c1, c0⟩ := timesThree_cubed double_good
  obtain ⟨σ', e, h⟩ := interior_kept double_good c1 c0 IeeeConfine.dt_is (line_room .periodic (by decide)) (n := 2) (h := 1) (dx := fun _ => 1) (fun _ _ => ⟨1, IeeeConfine.weight_one double_good⟩) (.inl rfl)
    (v := [0, 1]) ⟨rfl, by decide, fun j hj => by interval_cases j; exacts [is_zero, is_one double_good]⟩ steps (σ := fun _ _ => [0, 1]) fun _ _ => rfl
  exact ⟨σ', e, fun x hx => h x hx fun _ _ => rfl⟩

end MMSP.IeeeDense
