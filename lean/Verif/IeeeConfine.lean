import Verif.Ieee
import Verif.IeeeCodec
import Verif.Compare
/-!
# Property C113: the Allen-Cahn example in IEEE numbers never overflows and never leaves its bounds

The program of C50 (`allenCahnUpdate`; allen-cahn.cpp 47-75) with the numbers of `Ieee.lean`: rounding to nearest, gradual underflow, and a place for overflow and NaN.
-/

namespace MMSP.IeeeConfine

open Finset
open MMSP.Ieee MMSP.Ieee.Num MMSP.Stencil MMSP.ParallelRun MMSP.Symmetry

/-! ## Specification -/

/-- A finite number within `±1`. -/
def Unit {f : Fmt} (a : Num f) : Prop := ∃ x, Is a x ∧ |x| ≤ 1

/-- The call `pow(phi,3)` of allen-cahn.cpp 69 on numbers within `±1`: exact up to two roundings, and exact at `±1`. -/
structure Cube {f : Fmt} (cube : Num f → Num f) : Prop where
  near : ∀ a x, Is a x → |x| ≤ 1 → ∃ y, Is (cube a) y ∧ Near f 2 y (x ^ 3) 1
  one : ∀ a, Is a 1 → Is (cube a) 1
  minus : ∀ a, Is a (-1) → Is (cube a) (-1)

/-- allen-cahn.cpp 69 with a given `pow(·,3)`. -/
def powRhs {T : Type} [Add T] [Sub T] [Mul T] [Neg T] (cube : T → T) (dt m r u k phi l : T) : T := phi - dt * m * (-r * phi + u * cube phi - k * l)

/-- `pow(phi,3)` as two products. -/
def timesThree {T : Type} [Mul T] (x : T) : T := x * x * x

/-- `pow(phi,3)` rounded once. -/
noncomputable def roundedCube {f : Fmt} (a : Num f) : Num f := lift (fun x _ => of f (x ^ 3)) a a

/-- With the product for `pow` the right-hand side is that of C108. -/
theorem powRhs_timesThree {T : Type} [Add T] [Sub T] [Mul T] [Neg T] (dt m r u k : T) : powRhs timesThree dt m r u k = acRhs dt m r u k := rfl

/-- Largest Laplacian on a field within `±1`, with an allowance for underflow. -/
noncomputable def lapLoad (f : Fmt) (d : Nat) (w : Nat → ℝ) : ℝ := 4 * ∑ i ∈ range d, w i + (d + 1) * tiny f

/-- Largest value of the bracket of allen-cahn.cpp 69. -/
noncomputable def load (f : Fmt) (d : Nat) (w : Nat → ℝ) (r u k : ℝ) : ℝ := |r| + u + k * lapLoad f d w + 3 * tiny f

/-- The bound 1 holds: the well does not push outwards there, the time step does not overshoot, the rounding errors are not enough to jump over the room left, and nothing overflows. `c` is `dt*M`, `w` are the weights `1/(dx*dx)`. -/
structure Pinned (f : Fmt) (d : Nat) (w : Nat → ℝ) (c r u k : ℝ) : Prop where
  good : f.Good
  c0 : 0 ≤ c
  u0 : 0 ≤ u
  k0 : 0 ≤ k
  w0 : ∀ i, i < d → 0 ≤ w i
  turn : r ≤ u
  small : c * (k * (2 * ∑ i ∈ range d, w i) + 3 * u - r) ≤ 1
  fine : ((1 + ε f) ^ (d + 6) - 1) * (c * load f d w r u k + tiny f) ≤ (2 - c * (k * (2 * ∑ i ∈ range d, w i) + 3 * u - r)) * ε f
  room : (1 + ε f) ^ (d + 7) * (4 + lapLoad f d w + (1 + c) * load f d w r u k + tiny f) < 2 ^ f.emax

/-- The constants of the program and their values. -/
structure Constants {f : Fmt} (d : Nat) (dx : Nat → Num f) (dt m r u k : Num f) (w : Nat → ℝ) (cv rv uv kv : ℝ) : Prop where
  weight : ∀ i, i < d → Is (lapWeight (dx i)) (w i)
  c : Is (dt * m) cv
  r : Is r rv
  u : Is u uv
  k : Is k kv

/-! ## What one node computes -/

section
variable {f : Fmt}

/-- The Laplacian as it is rounded. -/
noncomputable def lapVal (f : Fmt) (w : Nat → ℝ) (phi : ℝ) (F G : Nat → ℝ) : Nat → ℝ
  | 0 => 0
  | i + 1 => rnd f (lapVal f w phi F G i + rnd f (w i * rnd f (rnd f (F i - 2 * phi) + G i)))

/-- What is subtracted. -/
noncomputable def change (f : Fmt) (c r u k phi q l : ℝ) : ℝ := rnd f (c * rnd f (rnd f (rnd f (-r * phi) + rnd f (u * q)) - rnd f (k * l)))

theorem lapVal_neg (w : Nat → ℝ) (phi : ℝ) (F G : Nat → ℝ) (d : Nat) : lapVal f w (-phi) (fun i => -F i) (fun i => -G i) d = -lapVal f w phi F G d := by
  induction d with
  | zero => simp [lapVal]
  | succ d ih =>
    simp only [lapVal]
    rw [ih, show -F d - 2 * -phi = -(F d - 2 * phi) by ring, rnd_neg, ← neg_add, rnd_neg, mul_neg, rnd_neg, ← neg_add, rnd_neg]

theorem change_neg (c r u k phi q l : ℝ) : change f c r u k (-phi) (-q) (-l) = -change f c r u k phi q l := by
  unfold change
  rw [mul_neg, rnd_neg, mul_neg, rnd_neg, ← neg_add, rnd_neg, mul_neg, rnd_neg, neg_sub_neg, ← neg_sub, rnd_neg, mul_neg, rnd_neg]

theorem term_near (hf : f.Good) {w phi F G : ℝ} (w0 : 0 ≤ w) (hphi : |phi| ≤ 1) (hF : |F| ≤ 1) (hG : |G| ≤ 1) :
    Near f 1 (rnd f (F - 2 * phi)) (F - 2 * phi) 3 ∧ Near f 2 (rnd f (rnd f (F - 2 * phi) + G)) (F - 2 * phi + G) 4 ∧
      Near f 3 (rnd f (w * rnd f (rnd f (F - 2 * phi) + G))) (w * (F - 2 * phi + G)) (4 * w + tiny f) := by
  have t1 := tiny_le_one hf
  have a1 : Near f 1 (rnd f (F - 2 * phi)) (F - 2 * phi) (1 + 2) :=
    (Near.exact 0 hF t1).sub (Near.exact 0 (by rw [abs_mul, abs_two]; linarith) (by linarith))
  have a2 : Near f 2 (rnd f (rnd f (F - 2 * phi) + G)) (F - 2 * phi + G) (1 + 2 + 1) := a1.add (Near.exact 1 hG t1)
  have a3 := a2.mul w
  norm_num at a1 a2 a3
  rw [abs_of_nonneg w0, mul_comm w 4] at a3
  exact ⟨a1, a2, a3⟩

theorem lapLoad_pos {d : Nat} {w : Nat → ℝ} (w0 : ∀ i, i < d → 0 ≤ w i) : tiny f ≤ lapLoad f d w := by
  unfold lapLoad
  have := sum_nonneg fun i (hi : i ∈ range d) => w0 i (mem_range.1 hi)
  nlinarith [tiny_pos f, Nat.cast_nonneg (α := ℝ) d]

theorem lapVal_near (hf : f.Good) {d : Nat} {w : Nat → ℝ} {phi : ℝ} {F G : Nat → ℝ} (w0 : ∀ i, i < d → 0 ≤ w i) (hphi : |phi| ≤ 1) (hF : ∀ i, i < d → |F i| ≤ 1) (hG : ∀ i, i < d → |G i| ≤ 1) :
    Near f (d + 3) (lapVal f w phi F G d) (∑ i ∈ range d, w i * (F i - 2 * phi + G i)) (lapLoad f d w) := by
  induction d with
  | zero =>
    unfold lapLoad
    simp only [lapVal, range_zero, sum_empty]
    exact Near.exact _ (by rw [abs_zero]; have := tiny_pos f; norm_num; linarith) (by norm_num)
  | succ d ih =>
    have h1 := ih (fun i h => w0 i (by omega)) (fun i h => hF i (by omega)) (fun i h => hG i (by omega))
    have h2 := (term_near hf (w0 d (by omega)) hphi (hF d (by omega)) (hG d (by omega))).2.2
    have h3 := h1.add (h2.weaken (l := d + 3) (by omega))
    rw [sum_range_succ]
    refine (h3.weaken (by omega)).wider (le_of_eq ?_)
    unfold lapLoad
    rw [sum_range_succ]; push_cast; ring

/-- What is subtracted, operation by operation. -/
theorem change_parts (hf : f.Good) {d : Nat} {c r u k phi q l y m : ℝ} (c0 : 0 ≤ c) (u0 : 0 ≤ u) (k0 : 0 ≤ k) (hphi : |phi| ≤ 1) (hq : Near f 2 q (phi ^ 3) 1) (hl : Near f (d + 3) l y m) :
    Near f 1 (rnd f (-r * phi)) (-r * phi) (|r| + tiny f) ∧ Near f 3 (rnd f (u * q)) (u * phi ^ 3) (u + tiny f) ∧
    Near f 4 (rnd f (rnd f (-r * phi) + rnd f (u * q))) (-r * phi + u * phi ^ 3) (|r| + u + 2 * tiny f) ∧ Near f (d + 4) (rnd f (k * l)) (k * y) (k * m + tiny f) ∧
    Near f (d + 5) (rnd f (rnd f (rnd f (-r * phi) + rnd f (u * q)) - rnd f (k * l))) (-r * phi + u * phi ^ 3 - k * y) (|r| + u + k * m + 3 * tiny f) ∧
    Near f (d + 6) (change f c r u k phi q l) (c * (-r * phi + u * phi ^ 3 - k * y)) (c * (|r| + u + k * m + 3 * tiny f) + tiny f) := by
  have a1 := (Near.exact (f := f) 0 hphi (tiny_le_one hf)).mul (-r)
  rw [abs_neg, mul_one] at a1
  have a2 := hq.mul u
  rw [abs_of_nonneg u0, mul_one] at a2
  have a3 := ((a1.weaken (l := 3) (by omega)).add a2).wider (m' := |r| + u + 2 * tiny f) (by linarith)
  have a4 := hl.mul k
  rw [abs_of_nonneg k0] at a4
  have a5 := ((a3.weaken (l := d + 4) (by omega)).sub a4).wider (m' := |r| + u + k * m + 3 * tiny f) (by linarith)
  have a6 := a5.mul c
  rw [abs_of_nonneg c0] at a6
  exact ⟨a1, a2, a3, a4, a5, a6⟩

/-- At the value 1 no neighbour is higher, and no operation of the Laplacian changes sign. -/
theorem lapVal_at_one (hf : f.Good) {d : Nat} {w : Nat → ℝ} (F G : Nat → ℝ) (w0 : ∀ i, i < d → 0 ≤ w i) (hF : ∀ i, i < d → F i ≤ 1) (hG : ∀ i, i < d → G i ≤ 1) : lapVal f w 1 F G d ≤ 0 := by
  have hp : 1 ≤ f.p := by have := hf.p2; omega
  induction d with
  | zero => exact le_rfl
  | succ d ih =>
    have hi := ih (fun i h => w0 i (by omega)) (fun i h => hF i (by omega)) (fun i h => hG i (by omega))
    have down : ∀ {x : ℝ}, x ≤ 0 → rnd f x ≤ 0 := fun {x} hx => by have := rnd_mono hp hx; rwa [rnd_zero] at this
    have s1 : rnd f (F d - 2 * 1) ≤ -1 := by
      have := rnd_mono hp (show F d - 2 * 1 ≤ -1 by have := hF d (by omega); linarith)
      rwa [rnd_neg, rnd_one hf] at this
    have s2 := down (show rnd f (F d - 2 * 1) + G d ≤ 0 by have := hG d (by omega); linarith)
    exact down (add_nonpos hi (down (mul_nonpos_of_nonneg_of_nonpos (w0 d (by omega)) s2)))

theorem lap_range {d : Nat} {w : Nat → ℝ} {phi : ℝ} {F G : Nat → ℝ} (w0 : ∀ i, i < d → 0 ≤ w i) (hF : ∀ i, i < d → F i ≤ 1) (hG : ∀ i, i < d → G i ≤ 1) :
    ∑ i ∈ range d, w i * (F i - 2 * phi + G i) ≤ (1 - phi) * (2 * ∑ i ∈ range d, w i) := by
  rw [mul_comm (2 : ℝ) (∑ i ∈ range d, _), ← mul_assoc, mul_sum, sum_mul]
  refine sum_le_sum fun i hi => ?_
  have h1 := hF i (mem_range.1 hi)
  have h2 := hG i (mem_range.1 hi)
  nlinarith [w0 i (mem_range.1 hi)]

/-- The new value is at most 1. -/
theorem new_le_one {d : Nat} {w : Nat → ℝ} {c r u k : ℝ} (ht : Pinned f d w c r u k) {phi q : ℝ} {F G : Nat → ℝ} (hr : Rep f r) (hu : Rep f u) (hrep : Rep f phi) (hphi : |phi| ≤ 1)
    (hq : Near f 2 q (phi ^ 3) 1) (hq1 : phi = 1 → q = 1) (hF : ∀ i, i < d → |F i| ≤ 1) (hG : ∀ i, i < d → |G i| ≤ 1) :
    rnd f (phi - change f c r u k phi q (lapVal f w phi F G d)) ≤ 1 := by
  have hf := ht.good
  have hp : 1 ≤ f.p := by have := hf.p2; omega
  have hn := lapVal_near hf ht.w0 hphi hF hG
  obtain ⟨p1, p2⟩ := abs_le.1 hphi
  refine rnd_le_one hf ?_
  have hε := ε_pos f
  rcases p2.eq_or_lt with h1 | h1
  · -- at the bound
    subst h1
    have hl := lapVal_at_one hf F G ht.w0 (fun i hi => (abs_le.1 (hF i hi)).2) (fun i hi => (abs_le.1 (hG i hi)).2)
    have b2 : 0 ≤ change f c r u k 1 q (lapVal f w 1 F G d) := by
      unfold change
      rw [hq1 rfl, mul_one, mul_one, rnd_rep hp hu, rnd_neg, rnd_rep hp hr]
      refine rnd_nonneg (mul_nonneg ht.c0 (rnd_nonneg ?_))
      have c1 := rnd_nonneg (f := f) (show 0 ≤ -r + u by linarith [ht.turn])
      have c2 : rnd f (k * lapVal f w 1 F G d) ≤ 0 := by
        have := rnd_mono hp (mul_nonpos_of_nonneg_of_nonpos ht.k0 hl)
        rwa [rnd_zero] at this
      linarith
    linarith
  · -- below it
    have hlt : phi ≤ 1 - ε f := Rounded.rep_lt_one hp hrep.digits h1
    have hc := (change_parts hf (r := r) ht.c0 ht.u0 ht.k0 hphi hq hn).2.2.2.2.2.1
    have hl := lap_range (phi := phi) (F := F) (G := G) ht.w0 (fun i hi => (abs_le.1 (hF i hi)).2) fun i hi => (abs_le.1 (hG i hi)).2
    have hs := RoundConfine.confined_slack (c := c) (r := r) (u := u) (k := k) (w := 2 * ∑ i ∈ range d, w i) (R := 1) (phi := phi) ht.c0 ht.u0 ht.k0 (by linarith [ht.turn]) p1 p2 hl
    have hm : |change f c r u k phi q (lapVal f w phi F G d) - c * (-r * phi + u * phi ^ 3 - k * ∑ i ∈ range d, w i * (F i - 2 * phi + G i))| ≤
        (2 - c * (k * (2 * ∑ i ∈ range d, w i) + 3 * u - r)) * ε f := hc.trans ht.fine
    have hsm := ht.small
    have h5 := (abs_le.1 hm).1
    have e1 : (1 : ℝ) ^ 2 = 1 := one_pow 2
    rw [e1, mul_one] at hs
    nlinarith

/-- The new value is within `±1`. -/
theorem new_unit {d : Nat} {w : Nat → ℝ} {c r u k : ℝ} (ht : Pinned f d w c r u k) {phi q : ℝ} {F G : Nat → ℝ} (hr : Rep f r) (hu : Rep f u) (hrep : Rep f phi) (hphi : |phi| ≤ 1)
    (hq : Near f 2 q (phi ^ 3) 1) (hq1 : phi = 1 → q = 1) (hqm : phi = -1 → q = -1) (hF : ∀ i, i < d → |F i| ≤ 1) (hG : ∀ i, i < d → |G i| ≤ 1) :
    |rnd f (phi - change f c r u k phi q (lapVal f w phi F G d))| ≤ 1 := by
  refine abs_le.2 ⟨?_, new_le_one ht hr hu hrep hphi hq hq1 hF hG⟩
  have h := new_le_one ht (phi := -phi) (q := -q) (F := fun i => -F i) (G := fun i => -G i) hr hu (rep_neg hrep) (by rwa [abs_neg])
    (by have := hq.neg; rwa [show -phi ^ 3 = (-phi) ^ 3 by ring] at this) (fun e => by rw [hqm (by linarith)]; ring) (fun i hi => by rw [abs_neg]; exact hF i hi) (fun i hi => by rw [abs_neg]; exact hG i hi)
  rw [lapVal_neg, change_neg, neg_sub_neg, ← neg_sub, rnd_neg] at h
  linarith

/-! ## No overflow -/

theorem fits {k K : Nat} {x y m B T : ℝ} (h : Near f k x y m) (hk : k ≤ K) (hm : m ≤ B) (hB : (1 + ε f) ^ K * B < T) : |x| < T := by
  refine lt_of_le_of_lt (h.bound.trans ?_) hB
  have := pow_le_pow_right₀ (show 1 ≤ 1 + ε f by linarith [ε_pos f]) hk
  exact mul_le_mul this hm h.nonneg (by have := ε_pos f; positivity)

theorem is_two (hf : f.Good) : Is (1 + 1 : Num f) 2 := by
  have e : rnd f (1 + 1) = 2 := by
    have := rnd_rep (f := f) (by have := hf.p2; omega) (rep_two_mul (rep_one hf))
    norm_num at this ⊢; exact this
  have := (is_one hf).add (is_one hf) (by
    rw [e, abs_two]
    exact lt_of_lt_of_le (by norm_num : (2 : ℝ) < 2 ^ (2 : ℤ)) (zpow_le_zpow_right₀ (by norm_num) hf.high))
  rwa [e] at this

theorem four_le_top (hf : f.Good) : (4 : ℝ) ≤ 2 ^ f.emax := le_trans (by norm_num : (4 : ℝ) ≤ 2 ^ (2 : ℤ)) (zpow_le_zpow_right₀ (by norm_num) hf.high)

theorem is_twice (hf : f.Good) {a : Num f} {x : ℝ} (ha : Is a x) (hx : |x| ≤ 1) : Is ((1 + 1) * a) (2 * x) := by
  have e : rnd f (2 * x) = 2 * x := rnd_rep (by have := hf.p2; omega) (rep_two_mul ha.finite.1)
  have := (is_two hf).mul ha (by rw [e, abs_mul, abs_two]; linarith [four_le_top hf])
  rwa [e] at this

/-- The Laplacian as computed is finite. -/
theorem fold_is (hf : f.Good) {d : Nat} {dx : Nat → Num f} {w : Nat → ℝ} (hw : ∀ i, i < d → Is (lapWeight (dx i)) (w i)) (w0 : ∀ i, i < d → 0 ≤ w i) {B : ℝ} {K : Nat} (hK : d + 3 ≤ K)
    (hB4 : 4 ≤ B) (hBl : lapLoad f d w ≤ B) (hB : (1 + ε f) ^ K * B < 2 ^ f.emax) {a : Num f} {phi : ℝ} (ha : Is a phi) (hphi : |phi| ≤ 1) {F G : Nat → Num f} {Fv Gv : Nat → ℝ}
    (hF : ∀ i, i < d → Is (F i) (Fv i) ∧ |Fv i| ≤ 1) (hG : ∀ i, i < d → Is (G i) (Gv i) ∧ |Gv i| ≤ 1) :
    Is ((List.range d).foldl (fun s i => s + lapWeight (dx i) * (F i - (1 + 1) * a + G i)) 0) (lapVal f w phi Fv Gv d) := by
  induction d with
  | zero => exact is_zero
  | succ d ih =>
    have hle : lapLoad f d w + (4 * w d + tiny f) = lapLoad f (d + 1) w := by
      unfold lapLoad
      rw [sum_range_succ]; push_cast; ring
    have hw0 : ∀ i, i < d → 0 ≤ w i := fun i h => w0 i (by omega)
    have hwd := w0 d (by omega)
    have ht := tiny_pos f
    have hi := ih (fun i h => hw i (by omega)) hw0 (by omega) (by linarith) (fun i h => hF i (by omega)) (fun i h => hG i (by omega))
    obtain ⟨f1, f2⟩ := hF d (by omega)
    obtain ⟨g1, g2⟩ := hG d (by omega)
    obtain ⟨n1, n2, n3⟩ := term_near (f := f) hf hwd hphi f2 g2
    have n4 := lapVal_near hf w0 hphi (fun i h => (hF i h).2) (fun i h => (hG i h).2)
    have hll := lapLoad_pos (f := f) hw0
    rw [List.range_succ, List.foldl_append, List.foldl_cons, List.foldl_nil]
    have i1 := f1.sub (is_twice hf ha hphi) (fits n1 (by omega) (by linarith) hB)
    have i2 := i1.add g1 (fits n2 (by omega) (by linarith) hB)
    have i3 := (hw d (by omega)).mul i2 (fits n3 (by omega) (by linarith) hB)
    exact hi.add i3 (fits n4 (by omega) hBl hB)

/-- One node: the new value is a finite number within `±1`. -/
theorem node_unit {cube : Num f → Num f} (hcube : Cube cube) {d : Nat} {dx : Nat → Num f} {dt m r u k : Num f} {w : Nat → ℝ} {cv rv uv kv : ℝ} (hc : Constants d dx dt m r u k w cv rv uv kv)
    (ht : Pinned f d w cv rv uv kv) {phi : Num f} {F G : Nat → Num f} {x : ℝ} {Fv Gv : Nat → ℝ} (hphi : Is phi x ∧ |x| ≤ 1) (hF : ∀ i, i < d → Is (F i) (Fv i) ∧ |Fv i| ≤ 1)
    (hG : ∀ i, i < d → Is (G i) (Gv i) ∧ |Gv i| ≤ 1) :
    ∃ q, Near f 2 q (x ^ 3) 1 ∧ |rnd f (x - change f cv rv uv kv x q (lapVal f w x Fv Gv d))| ≤ 1 ∧
      Is (powRhs cube dt m r u k phi ((List.range d).foldl (fun s i => s + lapWeight (dx i) * (F i - (1 + 1) * phi + G i)) 0)) (rnd f (x - change f cv rv uv kv x q (lapVal f w x Fv Gv d))) := by
  have hf := ht.good
  have hp : 1 ≤ f.p := by have := hf.p2; omega
  obtain ⟨h1, h2⟩ := hphi
  obtain ⟨q, q1, q2⟩ := hcube.near phi x h1 h2
  have hF' : ∀ i, i < d → |Fv i| ≤ 1 := fun i h => (hF i h).2
  have hG' : ∀ i, i < d → |Gv i| ≤ 1 := fun i h => (hG i h).2
  have hu := new_unit ht (q := q) (F := Fv) (G := Gv) hc.r.finite.1 hc.u.finite.1 h1.finite.1 h2 q2 (fun e => q1.unique (hcube.one phi (e ▸ h1))) (fun e => q1.unique (hcube.minus phi (e ▸ h1))) hF' hG'
  refine ⟨q, q2, hu, ?_⟩
  have hll := lapLoad_pos (f := f) ht.w0
  have hn := lapVal_near hf ht.w0 h2 hF' hG'
  obtain ⟨n1, n2, n3, n4, n5, n6⟩ := change_parts hf (r := rv) ht.c0 ht.u0 ht.k0 h2 q2 hn
  have ht0 := tiny_pos f
  have r0 := abs_nonneg rv
  have u0 := ht.u0
  have kl := mul_nonneg ht.k0 (ht0.le.trans hll)
  have l0 : 0 ≤ load f d w rv uv kv := by unfold load; linarith
  have cl := mul_nonneg ht.c0 l0
  have hB := ht.room
  have il := fold_is hf (F := F) (G := G) hc.weight ht.w0 (B := 4 + lapLoad f d w + (1 + cv) * load f d w rv uv kv + tiny f) (K := d + 7) (by omega) (by nlinarith) (by nlinarith) hB h1 h2 hF hG
  have le1 : load f d w rv uv kv ≤ 4 + lapLoad f d w + (1 + cv) * load f d w rv uv kv + tiny f := by nlinarith
  have i1 := (hc.r.neg hp).mul h1 (fits n1 (by omega) (le_trans (by unfold load; linarith) le1) hB)
  have i2 := hc.u.mul q1 (fits n2 (by omega) (le_trans (by unfold load; linarith) le1) hB)
  have i3 := i1.add i2 (fits n3 (by omega) (le_trans (by unfold load; linarith) le1) hB)
  have i4 := hc.k.mul il (fits n4 (by omega) (le_trans (by unfold load; linarith) le1) hB)
  have i5 := i3.sub i4 (fits n5 (by omega) le1 hB)
  have i6 := hc.c.mul i5 (fits n6 (by omega) (by show cv * load f d w rv uv kv + tiny f ≤ _; nlinarith) hB)
  exact h1.sub i6 (lt_of_le_of_lt hu (one_lt_top hf))

end

/-! ## Runs -/

section
variable {f : Fmt}

/-- **C113.** Allen-Cahn in IEEE numbers: from a field of finite numbers within `±1` every run ends with finite numbers within `±1` in all nodes, after any number of steps. -/
theorem allenCahn_unit {cube : Num f → Num f} (hcube : Cube cube) {g : Shape} (hg : Room 1 g) {dx : Nat → Num f} {dt m r u k : Num f} {w : Nat → ℝ} {cv rv uv kv : ℝ}
    (hc : Constants g.dim dx dt m r u k w cv rv uv kv) (ht : Pinned f g.dim w cv rv uv kv) (steps : Nat) {σ : Grids (Num f)} (h : Compare.AllNodes g Unit (σ 0)) :
    ∃ σ', serialRun g (allenCahnUpdate g.dim dx (powRhs cube dt m r u k) steps) σ = .ok σ' ∧ Compare.AllNodes g Unit (σ' 0) := by
  obtain ⟨σ', τ', e, _, hp⟩ := Compare.run_pairs hg (dx := dx) (dx' := dx) (f := powRhs cube dt m r u k) (f' := powRhs cube dt m r u k) (P := fun _ a (_ : Num f) => Unit a)
    (fun n phi _ F G _ _ h1 h2 h3 => by
      obtain ⟨x, hx⟩ := h1
      choose! Fv hF using h2
      choose! Gv hG using h3
      obtain ⟨q, _, b, i⟩ := node_unit hcube hc ht hx hF hG
      exact ⟨_, i, b⟩) steps (σ := σ) (τ := σ) (fun x hx => h x hx)
  exact ⟨σ', e, hp⟩

/-- **C113.** The same on any decomposition. -/
theorem ranks_unit {cube : Num f → Num f} (hcube : Cube cube) {w : World} {np : Nat} {c : Nat → Cell (Num f)} (hcell : ∀ k, RoundTrips (c k)) (hv : ∀ k v, (c k).Valid v) (h : w.Ok np) (hgh : 1 ≤ w.ghosts)
    (hg : Room 1 w.serial) {dx : Nat → Num f} {dt m r u k : Num f} {wt : Nat → ℝ} {cv rv uv kv : ℝ} (hc : Constants w.d dx dt m r u k wt cv rv uv kv) (ht : Pinned f w.d wt cv rv uv kv)
    (steps : Nat) {σ : Grids (Num f)} {D : Int → Grids (Num f)} (hF : SameField w np σ D 0) (hσ : Compare.AllNodes w.serial Unit (σ 0)) :
    ∃ D', Finished np (mpiRun c w (allenCahnUpdate w.d dx (powRhs cube dt m r u k) steps) fun r => .ok (D r)) D' ∧ ∀ r, Ghost.IsRank np r → Compare.AllNodes (w.shape r) Unit (D' r 0) := by
  obtain ⟨σ', e, hu⟩ := allenCahn_unit hcube hg hc ht steps hσ
  obtain ⟨D', _, f1, _, hP⟩ := Compare.ranks_pairs (P := fun a (_ : Num f) => Unit a) hcell hv hcell hv h hgh steps hF hF ⟨σ', σ', e, e, fun x hx => hu x hx⟩
  exact ⟨D', f1, fun r hr x hx => hP r hr x hx⟩

/-! ## Distance from exact arithmetic -/

/-- Adding a last, exact number. -/
theorem sub_exact {k : Nat} {y' y m : ℝ} (x : ℝ) (h : Near f k y' y m) : |rnd f (x - y') - (x - y)| ≤ ε f * |x| + ((1 + ε f) ^ (k + 1) - 1) * m := by
  have h1 := rnd_err f (x - y')
  have hg := Near.grow_pos f k
  have hb := h.bound
  have hε := ε_pos f
  have h2 : max |x - y'| (tiny f) ≤ |x| + (1 + ε f) ^ k * m := by
    refine max_le ((abs_sub _ _).trans (by linarith)) (h.2.2.trans ?_)
    nlinarith [h.nonneg, abs_nonneg x]
  have h4 := mul_le_mul_of_nonneg_left h2 hε.le
  have e : rnd f (x - y') - (x - y) = (rnd f (x - y') - (x - y')) + -(y' - y) := by ring
  rw [e]
  refine (abs_add_le _ _).trans ?_
  rw [abs_neg, pow_succ]
  nlinarith [h.1]

/-- What one step adds to the distance: its rounding errors and the error of `dt*M`. -/
noncomputable def stray (f : Fmt) (d : Nat) (w : Nat → ℝ) (cv rv uv kv c : ℝ) : ℝ :=
  ε f + ((1 + ε f) ^ (d + 7) - 1) * (cv * load f d w rv uv kv + tiny f) + |cv - c| * (|rv| + uv + kv * (4 * ∑ i ∈ range d, w i))

theorem step_stray {d : Nat} {w : Nat → ℝ} {cv rv uv kv : ℝ} (ht : Pinned f d w cv rv uv kv) {dx : Nat → ℝ} (hdx : ∀ i, i < d → lapWeight (dx i) = w i) (c : ℝ) {phi q : ℝ} {F G : Nat → ℝ}
    (hphi : |phi| ≤ 1) (hq : Near f 2 q (phi ^ 3) 1) (hF : ∀ i, i < d → |F i| ≤ 1) (hG : ∀ i, i < d → |G i| ≤ 1) :
    |rnd f (phi - change f cv rv uv kv phi q (lapVal f w phi F G d)) - Compare.node d dx c rv uv kv phi F G| ≤ stray f d w cv rv uv kv c := by
  have hn := lapVal_near ht.good ht.w0 hphi hF hG
  have hc := sub_exact phi (change_parts ht.good (r := rv) ht.c0 ht.u0 ht.k0 hphi hq hn).2.2.2.2.2
  have es : ∑ i ∈ range d, lapWeight (dx i) * (F i - 2 * phi + G i) = ∑ i ∈ range d, w i * (F i - 2 * phi + G i) := sum_congr rfl fun i hi => by rw [hdx i (mem_range.1 hi)]
  unfold Compare.node stray
  rw [es]
  set y := ∑ i ∈ range d, w i * (F i - 2 * phi + G i)
  have hyb : |y| ≤ 4 * ∑ i ∈ range d, w i := by
    refine (abs_sum_le_sum_abs _ _).trans ?_
    rw [mul_sum]
    refine sum_le_sum fun i hi => ?_
    have w0 := ht.w0 i (mem_range.1 hi)
    rw [abs_mul, abs_of_nonneg w0, mul_comm 4]
    refine mul_le_mul_of_nonneg_left ?_ w0
    refine (abs_add_le _ _).trans ?_
    have := abs_sub (F i) (2 * phi)
    rw [abs_mul, abs_two] at this
    linarith [hF i (mem_range.1 hi), hG i (mem_range.1 hi)]
  have hb : |(-rv * phi + uv * phi ^ 3 - kv * y)| ≤ |rv| + uv + kv * (4 * ∑ i ∈ range d, w i) := by
    refine (abs_sub _ _).trans (add_le_add ((abs_add_le _ _).trans (add_le_add ?_ ?_)) ?_)
    · rw [abs_mul, abs_neg]; exact mul_le_of_le_one_right (abs_nonneg _) hphi
    · rw [abs_mul, abs_pow, abs_of_nonneg ht.u0]; exact mul_le_of_le_one_right ht.u0 (pow_le_one₀ (abs_nonneg _) hphi)
    · rw [abs_mul, abs_of_nonneg ht.k0]; exact mul_le_mul_of_nonneg_left hyb ht.k0
  set B := -rv * phi + uv * phi ^ 3 - kv * y
  set v := rnd f (phi - change f cv rv uv kv phi q (lapVal f w phi F G d))
  have e : v - (phi - c * B) = (v - (phi - cv * B)) + -((cv - c) * B) := by ring
  rw [e]
  refine (abs_add_le _ _).trans (add_le_add (hc.trans (add_le_add ?_ le_rfl)) ?_)
  · exact mul_le_of_le_one_right (ε_pos f).le hphi
  · rw [abs_neg, abs_mul]
    exact mul_le_mul_of_nonneg_left hb (abs_nonneg _)

/-- **C113.** IEEE numbers against exact arithmetic, fields within `±1`: after `n` steps the values differ by at most the initial distance times `(1+dt*M*r)^n` and the errors of the steps, each growing with
the same factor. -/
theorem allenCahn_distance {cube : Num f → Num f} (hcube : Cube cube) {g : Shape} (hg : Room 1 g) {dx : Nat → Num f} {dt m r u k : Num f} {w : Nat → ℝ} {cv rv uv kv : ℝ}
    (hc : Constants g.dim dx dt m r u k w cv rv uv kv) (ht : Pinned f g.dim w cv rv uv kv) {dx' : Nat → ℝ} (hdx : ∀ i, i < g.dim → lapWeight (dx' i) = w i) {dt' m' E : ℝ}
    (hcalm : Compare.Calm g.dim dx' (dt' * m') rv uv kv 1) (steps : Nat) {σ : Grids (Num f)} {τ : Grids ℝ}
    (h : Compare.Pairs g (fun a b => ∃ x, Is a x ∧ |x| ≤ 1 ∧ |b| ≤ 1 ∧ |x - b| ≤ E) (σ 0) (τ 0)) :
    ∃ σ' τ', serialRun g (allenCahnUpdate g.dim dx (powRhs cube dt m r u k) steps) σ = .ok σ' ∧ serialRun g (allenCahnUpdate g.dim dx' (acRhs dt' m' rv uv kv) steps) τ = .ok τ' ∧
      Compare.Pairs g (fun a b => ∃ x, Is a x ∧ |x| ≤ 1 ∧ |b| ≤ 1 ∧
        |x - b| ≤ (1 + dt' * m' * rv) ^ steps * E + stray f g.dim w cv rv uv kv (dt' * m') * ∑ j ∈ range steps, (1 + dt' * m' * rv) ^ j) (σ' 0) (τ' 0) := by
  obtain ⟨σ', τ', e1, e2, hP⟩ := Compare.run_pairs hg (dx := dx) (dx' := dx') (f := powRhs cube dt m r u k) (f' := acRhs dt' m' rv uv kv)
    (P := fun n a b => ∃ x, Is a x ∧ |x| ≤ 1 ∧ |b| ≤ 1 ∧ |x - b| ≤ Compare.spread (1 + dt' * m' * rv) (stray f g.dim w cv rv uv kv (dt' * m')) E n)
    (fun n a b F G F' G' h1 h2 h3 => by
      simp only [Compare.acRhs_node]
      obtain ⟨x, i1, x1, b1, hd⟩ := h1
      choose! Fv hF using h2
      choose! Gv hG using h3
      obtain ⟨q, hq, bd, i2⟩ := node_unit hcube hc ht ⟨i1, x1⟩ (fun i hi => ⟨(hF i hi).1, (hF i hi).2.1⟩) (fun i hi => ⟨(hG i hi).1, (hG i hi).2.1⟩)
      refine ⟨_, i2, bd, Compare.node_within hcalm b1 (fun i hi => (hF i hi).2.2.1) (fun i hi => (hG i hi).2.2.1), ?_⟩
      have hs := step_stray ht hdx (dt' * m') x1 hq (fun i hi => (hF i hi).2.1) (fun i hi => (hG i hi).2.1)
      rw [Compare.spread]
      set S := Compare.spread (1 + dt' * m' * rv) (stray f g.dim w cv rv uv kv (dt' * m')) E n
      have hS : 0 ≤ S := (abs_nonneg _).trans hd
      have up := Compare.node_gap hcalm (a := b) (b := x) (E := S) (Q := 0) (F := F') (G := G') (F' := Fv) (G' := Gv) b1 x1 hS (abs_le.1 hd).2
        (fun i hi => (abs_le.1 (hF i hi).2.2.2).2) (fun i hi => (abs_le.1 (hG i hi).2.2.2).2) (by nlinarith [sq_nonneg (x + b), sq_nonneg x, sq_nonneg b])
      have dn := Compare.node_gap hcalm (a := x) (b := b) (E := S) (Q := 0) (F := Fv) (G := Gv) (F' := F') (G' := G') x1 b1 hS (by linarith [(abs_le.1 hd).1])
        (fun i hi => by linarith [(abs_le.1 (hF i hi).2.2.2).1]) (fun i hi => by linarith [(abs_le.1 (hG i hi).2.2.2).1]) (by nlinarith [sq_nonneg (x + b), sq_nonneg x, sq_nonneg b])
      rw [mul_zero, sub_zero] at up dn
      obtain ⟨s1, s2⟩ := abs_le.1 hs
      exact abs_le.2 ⟨by linarith, by linarith⟩)
    steps (σ := σ) (τ := τ) h
  refine ⟨σ', τ', e1, e2, fun x hx => ?_⟩
  obtain ⟨v, a1, a2, a3, a4⟩ := hP x hx
  exact ⟨v, a1, a2, a3, by rw [← Compare.spread_eq]; exact a4⟩

end

/-! ## `pow` -/

section
variable {f : Fmt}

/-- Two products satisfy the requirement on `pow`. -/
theorem timesThree_cube (hf : f.Good) : Cube (timesThree (T := Num f)) := by
  have hp : 1 ≤ f.p := by have := hf.p2; omega
  have t1 := tiny_le_one hf
  have r1 := rnd_one hf
  have up : ∀ {x : ℝ}, |x| ≤ 1 → |rnd f x| ≤ 1 := fun {x} h => by
    have a := rnd_mono hp (abs_le.1 h).2
    have b := rnd_mono hp (abs_le.1 h).1
    rw [rnd_neg] at b
    rw [r1] at a b
    exact abs_le.2 ⟨b, a⟩
  have sq : ∀ {x y : ℝ}, |x| ≤ 1 → |y| ≤ 1 → |x * y| ≤ 1 := fun {x y} h h' => by rw [abs_mul]; exact mul_le_one₀ h (abs_nonneg _) h'
  have comp : ∀ a x, Is a x → |x| ≤ 1 → Is (timesThree a) (rnd f (rnd f (x * x) * x)) := fun a x ha hx =>
    (ha.mul ha (lt_of_le_of_lt (up (sq hx hx)) (one_lt_top hf))).mul ha (lt_of_le_of_lt (up (sq (up (sq hx hx)) hx)) (one_lt_top hf))
  refine ⟨fun a x ha hx => ⟨_, comp a x ha hx, ?_⟩, fun a ha => ?_, fun a ha => ?_⟩
  · have h0 : Near f 0 (x * x) (x * x) 1 := Near.exact 0 (sq hx hx) t1
    have h1 := h0.round
    have h2 : Near f 1 (rnd f (x * x) * x) (x ^ 3) 1 := by
      refine ⟨?_, ?_, t1⟩
      · have e : rnd f (x * x) * x - x ^ 3 = (rnd f (x * x) - x * x) * x := by ring
        rw [e, abs_mul]
        exact (mul_le_of_le_one_right (abs_nonneg _) hx).trans h1.1
      · rw [abs_pow]; exact pow_le_one₀ (abs_nonneg _) hx
    exact h2.round
  · have := comp a 1 ha (by norm_num)
    rwa [one_mul, r1, one_mul, r1] at this
  · have := comp a (-1) ha (by norm_num)
    rwa [neg_mul_neg, mul_one, r1, one_mul, rnd_neg, r1] at this

/-- So does the cube rounded once. -/
theorem roundedCube_cube (hf : f.Good) : Cube (roundedCube (f := f)) := by
  have hp : 1 ≤ f.p := by have := hf.p2; omega
  have r1 := rnd_one hf
  have comp : ∀ a x, Is a x → |x| ≤ 1 → Is (roundedCube a) (rnd f (x ^ 3)) := fun a x ha hx => by
    obtain ⟨h, rfl⟩ := ha
    have h3 : |x ^ 3| ≤ 1 := by rw [abs_pow]; exact pow_le_one₀ (abs_nonneg _) hx
    refine of_is (lt_of_le_of_lt ?_ (one_lt_top hf))
    have a := rnd_mono hp (abs_le.1 h3).2
    have b := rnd_mono hp (abs_le.1 h3).1
    rw [rnd_neg] at b
    rw [r1] at a b
    exact abs_le.2 ⟨b, a⟩
  refine ⟨fun a x ha hx => ⟨_, comp a x ha hx, ?_⟩, fun a ha => ?_, fun a ha => ?_⟩
  · exact ((Near.exact (f := f) 0 (by rw [abs_pow]; exact pow_le_one₀ (abs_nonneg _) hx) (tiny_le_one hf)).round).weaken (by omega)
  · have := comp a 1 ha (by norm_num)
    rwa [one_pow, r1] at this
  · have := comp a (-1) ha (by norm_num)
    rwa [show ((-1 : ℝ)) ^ 3 = -1 by norm_num, rnd_neg, r1] at this

end

/-! ## The example as shipped -/

/-- allen-cahn.cpp 58: `double dt = 0.01;` -/
noncomputable def dt : Num double := of double (1 / 100)

theorem dt_is : Is dt (5764607523034235 * 2 ^ (-59 : ℤ)) := by
  have e : rnd double (1 / 100) = 5764607523034235 * 2 ^ (-59 : ℤ) := by
    have hl : Int.log 2 |(1 / 100 : ℝ)| = -7 := by
      rw [abs_of_pos (by norm_num)]
      refine le_antisymm ?_ ?_
      · have := (Int.lt_zpow_iff_log_lt (b := 2) (by norm_num) (x := -6) (show (0 : ℝ) < 1 / 100 by norm_num)).1 (by norm_num)
        omega
      · exact (Int.zpow_le_iff_le_log (by norm_num) (by norm_num)).1 (by norm_num)
    rw [rnd_eq_fl (by unfold Rounding.ulpExp; rw [hl]; decide)]
    exact RoundConserve.dtNum_val
  have := of_is (f := double) (x := 1 / 100) (by
    rw [e]
    refine lt_of_lt_of_le (b := (1 : ℝ)) (by norm_num) (one_lt_top double_good).le)
  rwa [e] at this

theorem tiny_double : tiny double ≤ 1 / 2 ^ 100 := by
  have : tiny double = 2 ^ (-1022 : ℤ) := by unfold tiny double; norm_num
  rw [this]
  calc (2 : ℝ) ^ (-1022 : ℤ) ≤ 2 ^ (-100 : ℤ) := zpow_le_zpow_right₀ (by norm_num) (by norm_num)
    _ = _ := by norm_num

theorem top_double : (2 : ℝ) ^ 100 ≤ 2 ^ double.emax := by
  have : (2 : ℝ) ^ 100 = 2 ^ (100 : ℤ) := by norm_num
  rw [this]
  exact zpow_le_zpow_right₀ (by norm_num) (by decide)

theorem one_mul_is {f : Fmt} (hf : f.Good) {a : Num f} {x : ℝ} (ha : Is a x) : Is (a * 1) x := by
  have e : rnd f (x * 1) = x := by rw [mul_one]; exact rnd_rep (by have := hf.p2; omega) ha.finite.1
  have := ha.mul (is_one hf) (by rw [e]; exact ha.finite.2)
  rwa [e] at this

theorem weight_one {f : Fmt} (hf : f.Good) : Is (lapWeight (1 : Num f)) 1 := by
  have h1 := one_mul_is hf (is_one hf)
  have := (is_one hf).div h1 one_ne_zero (by rw [div_one, rnd_one hf, abs_one]; exact one_lt_top hf)
  rwa [div_one, rnd_one hf] at this

theorem shipped_constants (d : Nat) : Constants d (fun _ => (1 : Num double)) dt 1 1 1 1 (fun _ => 1) (5764607523034235 * 2 ^ (-59 : ℤ)) 1 1 1 :=
  ⟨fun _ _ => weight_one double_good, one_mul_is double_good dt_is, is_one double_good, is_one double_good, is_one double_good⟩

theorem ε_double : ε double = 1 / 9007199254740992 := by unfold ε double; norm_num

/-- **C113.** The constants of allen-cahn.cpp 58-62 in `double`s, spacing 1, in one, two or three dimensions. -/
theorem shipped_pinned {d : Nat} (hd : d ≤ 3) : Pinned double d (fun _ => 1) (5764607523034235 * 2 ^ (-59 : ℤ)) 1 1 1 := by
  have ht := tiny_double
  have h0 := (tiny_pos double).le
  refine ⟨double_good, by norm_num, by norm_num, by norm_num, fun _ _ => by norm_num, le_rfl, ?_, ?_, ?_⟩
  · interval_cases d <;> norm_num
  · unfold load lapLoad
    rw [ε_double]
    interval_cases d <;> norm_num at ht ⊢ <;> nlinarith
  · refine lt_of_lt_of_le ?_ top_double
    unfold load lapLoad
    rw [ε_double]
    interval_cases d <;> norm_num at ht ⊢ <;> nlinarith

/-- **C113.** The example in `double`s, underflow and overflow included: started within `±1`, as `generate` does, every value is a finite number within `±1` for ever. -/
theorem shipped_unit {cube : Num double → Num double} (hcube : Cube cube) {g : Shape} (hg : Room 1 g) (hd : g.dim ≤ 3) (steps : Nat) {σ : Grids (Num double)} (h : Compare.AllNodes g Unit (σ 0)) :
    ∃ σ', serialRun g (allenCahnUpdate g.dim (fun _ => 1) (powRhs cube dt 1 1 1 1) steps) σ = .ok σ' ∧ Compare.AllNodes g Unit (σ' 0) :=
  allenCahn_unit hcube hg (shipped_constants _) (shipped_pinned hd) steps h

theorem shipped_stray {d : Nat} (hd : d ≤ 3) : stray double d (fun _ => 1) (5764607523034235 * 2 ^ (-59 : ℤ)) 1 1 1 (1 / 100 * 1) ≤ 3 * ε double := by
  have ht := tiny_double
  have h0 := (tiny_pos double).le
  unfold stray load lapLoad
  rw [ε_double, abs_of_nonneg (by norm_num : (0 : ℝ) ≤ 5764607523034235 * 2 ^ (-59 : ℤ) - 1 / 100 * 1)]
  interval_cases d <;> norm_num at ht ⊢ <;> nlinarith

/-- **C113.** One thousand steps of the example in `double`s, underflow and overflow included: nine digits behind the point are right. -/
theorem shipped_thousand {cube : Num double → Num double} (hcube : Cube cube) {g : Shape} (hg : Room 1 g) (hd : g.dim ≤ 3) {steps : Nat} (hn : steps ≤ 1000) {σ : Grids (Num double)} {τ : Grids ℝ}
    (h : Compare.Pairs g (fun a b => Is a b ∧ |b| ≤ 1) (σ 0) (τ 0)) :
    ∃ σ' τ', serialRun g (allenCahnUpdate g.dim (fun _ => 1) (powRhs cube dt 1 1 1 1) steps) σ = .ok σ' ∧ serialRun g (allenCahnUpdate g.dim (fun _ => 1) (acRhs (1 / 100) 1 1 1 1) steps) τ = .ok τ' ∧
      Compare.Pairs g (fun a b => ∃ x, Is a x ∧ |x| ≤ 1 ∧ |x - b| ≤ 1 / 10 ^ 9) (σ' 0) (τ' 0) := by
  obtain ⟨σ', τ', e1, e2, hP⟩ := allenCahn_distance hcube hg (shipped_constants _) (shipped_pinned hd) (dx' := fun _ => 1) (fun _ _ => by simp [lapWeight]) (dt' := 1 / 100) (m' := 1) (E := 0)
    (Compare.shipped_calm hd) steps (σ := σ) (τ := τ) fun x hx => ⟨_, (h x hx).1, (h x hx).2, (h x hx).2, by rw [sub_self, abs_zero]⟩
  refine ⟨σ', τ', e1, e2, fun x hx => ?_⟩
  obtain ⟨v, a1, a2, _, a4⟩ := hP x hx
  refine ⟨v, a1, a2, a4.trans ?_⟩
  rw [mul_zero, zero_add]
  have hgeo : ∑ j ∈ range steps, (1 + 1 / 100 * 1 * 1 : ℝ) ^ j ≤ 100 * (101 / 100) ^ steps := by
    rw [show (1 + 1 / 100 * 1 * 1 : ℝ) = 101 / 100 by norm_num]
    have : ∀ n : Nat, ∑ j ∈ range n, (101 / 100 : ℝ) ^ j = 100 * (101 / 100) ^ n - 100 := fun n => by
      induction n with
      | zero => simp
      | succ n ih => rw [sum_range_succ, ih]; ring
    rw [this]; linarith
  have hm : ((101 : ℝ) / 100) ^ steps ≤ (101 / 100) ^ 1000 := pow_le_pow_right₀ (by norm_num) hn
  have h1 : ((101 : ℝ) / 100) ^ 100 ≤ 271 / 100 := by norm_num
  have h2 : ((101 : ℝ) / 100) ^ 1000 ≤ (271 / 100) ^ 10 := by
    rw [show 1000 = 100 * 10 from rfl, pow_mul]; exact pow_le_pow_left₀ (by norm_num) h1 10
  have h3 : ∑ j ∈ range steps, (1 + 1 / 100 * 1 * 1 : ℝ) ^ j ≤ 100 * (271 / 100) ^ 10 := hgeo.trans (mul_le_mul_of_nonneg_left (hm.trans h2) (by norm_num))
  have h4 : 0 ≤ ∑ j ∈ range steps, (1 + 1 / 100 * 1 * 1 : ℝ) ^ j := sum_nonneg fun _ _ => by positivity
  refine (mul_le_mul (shipped_stray hd) h3 h4 (by rw [ε_double]; norm_num)).trans ?_
  rw [ε_double]
  norm_num

/-- **C113.** The initial values `1.0-2.0*double(rand())/double(RAND_MAX)` of allen-cahn.cpp 19-39 are finite and within `±1`. -/
theorem initial_unit {f : Fmt} (hf : f.Good) {a b : Num f} {x y : ℝ} (ha : Is a x) (hb : Is b y) (h0 : 0 ≤ x) (h1 : x ≤ y) (hy : 0 < y) (hbig : 2 * y < 2 ^ f.emax) : Unit ((1 : Num f) - (1 + 1) * a / b) := by
  have hp : 1 ≤ f.p := by have := hf.p2; omega
  have e2 : rnd f (2 * x) = 2 * x := rnd_rep hp (rep_two_mul ha.finite.1)
  have i1 := (is_two hf).mul ha (by rw [e2, abs_of_nonneg (by linarith)]; linarith)
  rw [e2] at i1
  have r2 : rnd f 2 = 2 := by
    have := rnd_rep hp (rep_two_mul (rep_one hf))
    norm_num at this; exact this
  have q0 : 0 ≤ rnd f (2 * x / y) := rnd_nonneg (by positivity)
  have q2 : rnd f (2 * x / y) ≤ 2 := by
    have := rnd_mono hp (show 2 * x / y ≤ 2 by rw [div_le_iff₀ hy]; linarith)
    rwa [r2] at this
  have i2 := i1.div hb hy.ne' (by rw [abs_of_nonneg q0]; linarith [four_le_top hf])
  have b3 : |rnd f (1 - rnd f (2 * x / y))| ≤ 1 := by
    have u := rnd_mono hp (show 1 - rnd f (2 * x / y) ≤ 1 by linarith)
    have l := rnd_mono hp (show -1 ≤ 1 - rnd f (2 * x / y) by linarith)
    rw [rnd_neg] at l
    rw [rnd_one hf] at u l
    exact abs_le.2 ⟨l, u⟩
  exact ⟨_, (is_one hf).sub i2 (lt_of_le_of_lt b3 (one_lt_top hf)), b3⟩

/-! ## Necessity -/

/-- A number that is not finite. -/
def NotFinite {f : Fmt} (a : Num f) : Prop := ∀ x, ¬ Is a x

/-- The number `2^400`. -/
noncomputable def huge : Num double := of double (2 ^ (400 : ℤ))

theorem huge_is : Is huge (2 ^ (400 : ℤ)) := by
  have e : rnd double (2 ^ (400 : ℤ)) = 2 ^ (400 : ℤ) := rnd_rep (by decide) ⟨1, 400, by norm_num [double], by decide, by norm_num⟩
  have := of_is (f := double) (x := 2 ^ (400 : ℤ)) (by
    rw [e, abs_of_pos (Rounding.two_zpow_pos _)]
    exact zpow_lt_zpow_right₀ (by norm_num) (by decide))
  rwa [e] at this

theorem huge_cubed : timesThree huge = .bad := by
  have e : rnd double (2 ^ (400 : ℤ) * 2 ^ (400 : ℤ)) = 2 ^ (800 : ℤ) := by
    rw [← zpow_add₀ (by norm_num)]
    exact rnd_rep (by decide) ⟨1, 800, by norm_num [double], by decide, by norm_num⟩
  have i2 : Is (huge * huge) (2 ^ (800 : ℤ)) := by
    have := huge_is.mul huge_is (by
      rw [e, abs_of_pos (Rounding.two_zpow_pos _)]
      exact zpow_lt_zpow_right₀ (by norm_num) (by decide))
    rwa [e] at this
  have e3 : rnd double (2 ^ (800 : ℤ) * 2 ^ (400 : ℤ)) = 2 ^ (1200 : ℤ) := by
    rw [← zpow_add₀ (by norm_num)]
    exact rnd_rep (by decide) ⟨1, 1200, by norm_num [double], by decide, by norm_num⟩
  obtain ⟨h1, e1⟩ := i2
  obtain ⟨h2, e2⟩ := huge_is
  show huge * huge * huge = .bad
  rw [e1, e2]
  show of double (2 ^ (800 : ℤ) * 2 ^ (400 : ℤ)) = .bad
  unfold of
  rw [dif_neg]
  rintro ⟨_, h⟩
  rw [e3, abs_of_pos (Rounding.two_zpow_pos _)] at h
  have := (zpow_lt_zpow_iff_right₀ (by norm_num : (1 : ℝ) < 2)).1 h
  revert this
  decide

theorem lift_none {f : Fmt} (op : ℝ → ℝ → Num f) (a : Num f) : lift op a .bad = .bad := by
  unfold lift
  cases a <;> rfl

theorem lift_none_left {f : Fmt} (op : ℝ → ℝ → Num f) (a : Num f) : lift op .bad a = .bad := rfl

/-- **C113, necessity.** From the constant field `2^400`, a finite number, one step with the shipped constants overflows in every node. -/
theorem huge_start_overflows : ∃ σ', serialRun (Conserve.line .periodic .periodic) (allenCahnUpdate 1 (fun _ => 1) (powRhs timesThree dt 1 1 1 1) 1) (fun _ _ => huge) = .ok σ' ∧
    Compare.AllNodes (Conserve.line .periodic .periodic) NotFinite (σ' 0) := by
  obtain ⟨σ', e, h⟩ := allenCahn_one (line_room .periodic (by decide)) (fun _ => (1 : Num double)) (powRhs timesThree dt 1 1 1 1) fun _ _ => huge
  refine ⟨σ', e, fun x hx v hv => ?_⟩
  rw [h x hx] at hv
  have key : ∀ l : Num double, powRhs timesThree dt 1 1 1 1 huge l = .bad := fun l => by
    unfold powRhs
    rw [huge_cubed]
    show lift _ huge (lift _ (dt * 1) (lift _ (lift _ (-1 * huge) (lift _ 1 .bad)) (1 * l))) = .bad
    rw [lift_none, lift_none, lift_none_left, lift_none, lift_none]
  obtain ⟨_, hv⟩ := hv
  have e2 := (key _).symm.trans hv
  cases e2

/-! ## Examples -/

/-- A million steps from the field -1, 0, 1 on three periodic nodes. -/
example : ∃ σ', serialRun (Conserve.line .periodic .periodic) (allenCahnUpdate 1 (fun _ => 1) (powRhs timesThree dt 1 1 1 1) 1000000) (fun _ n => if n = 0 then -1 else if n = 1 then 0 else 1) = .ok σ' ∧
    Compare.AllNodes (Conserve.line .periodic .periodic) Unit (σ' 0) := by
  refine shipped_unit (timesThree_cube double_good) (line_room .periodic (by decide)) (by decide) _ fun x _ => ?_
  show Unit (if _ = (0 : Int) then (-1 : Num double) else if _ = (1 : Int) then 0 else 1)
  split_ifs
  · exact ⟨_, (is_one double_good).neg (by decide), by norm_num⟩
  · exact ⟨_, is_zero, by norm_num⟩
  · exact ⟨_, is_one double_good, by norm_num⟩

/-- Two ranks, one thousand steps, stale ghosts. -/
example : ∃ D', Finished 2 (mpiRun (fun _ => primCell doubleBytes) smallWorld (allenCahnUpdate 1 (fun _ => 1) (powRhs roundedCube dt 1 1 1 1) 1000)
      fun r => .ok fun k => if k = 0 then shared (fun x => if x = 0 then 1 else 0) (-1) r else fun _ => 0) D' ∧ ∀ r, Ghost.IsRank 2 r → Compare.AllNodes (smallWorld.shape r) Unit (D' r 0) := by
  refine ranks_unit (roundedCube_cube double_good) (fun _ => primCell_roundTrips _) (fun _ _ => trivial) smallWorld_ok (by decide) ?_ (shipped_constants _) (shipped_pinned (by decide)) 1000
    (σ := fun k => if k = 0 then fun x => if x = 0 then 1 else 0 else fun _ => 0) (shared_same _ (-1) rfl fun _ => rfl) fun x _ => ?_
  · exact ⟨serial_wf smallWorld_ok, rfl, by decide, fun _ _ => ⟨by simp [smallWorld, World.serial, FileIO.serialShape], by simp [smallWorld, World.serial, FileIO.serialShape]⟩, fun _ _ => by simp [smallWorld, World.serial, FileIO.serialShape],
      fun _ _ h => by simp [smallWorld, World.serial, FileIO.serialShape] at h⟩
  · show Unit (if _ = (0 : Int) then (1 : Num double) else 0)
    split_ifs
    · exact ⟨_, is_one double_good, by norm_num⟩
    · exact ⟨_, is_zero, by norm_num⟩

/-- Exact and rounded run of five hundred steps. -/
example : ∃ σ' τ', serialRun (Conserve.line .periodic .periodic) (allenCahnUpdate 1 (fun _ => 1) (powRhs timesThree dt 1 1 1 1) 500) (fun _ n => if n = 1 then 1 else 0) = .ok σ' ∧
    serialRun (Conserve.line .periodic .periodic) (allenCahnUpdate 1 (fun _ => (1 : ℝ)) (acRhs (1 / 100) 1 1 1 1) 500) (fun _ n => if n = 1 then 1 else 0) = .ok τ' ∧
    Compare.Pairs (Conserve.line .periodic .periodic) (fun a b => ∃ x, Is a x ∧ |x| ≤ 1 ∧ |x - b| ≤ 1 / 10 ^ 9) (σ' 0) (τ' 0) := by
  refine shipped_thousand (timesThree_cube double_good) (g := Conserve.line .periodic .periodic) (line_room .periodic (by decide)) (by decide) (by norm_num) fun x _ => ?_
  show Is (if _ = (1 : Int) then (1 : Num double) else 0) (if _ = (1 : Int) then (1 : ℝ) else 0) ∧ |(if _ = (1 : Int) then (1 : ℝ) else 0)| ≤ 1
  split_ifs
  · exact ⟨is_one double_good, by norm_num⟩
  · exact ⟨is_zero, by norm_num⟩

end MMSP.IeeeConfine
