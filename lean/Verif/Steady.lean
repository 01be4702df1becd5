import Verif.Rounded
import Mathlib.Analysis.SpecialFunctions.Trigonometric.Bounds
import Mathlib.Analysis.Real.Pi.Bounds
/-!
# Where the diffusion programs for beginners end

The profile of `1stDiffusion` and `MMSPDiffusion` approaches the straight line between the fixed ends; the distance is bounded for every number of iterations, in exact arithmetic
and in floating point. `MMSPDiffusion2D` has no end: for four nodes and more along a side its values grow without bound.
-/

namespace MMSP.Steady
open Rounded Rounding Real

/-- `diffusionCoefficient*dt` with `dt = dx*dx/diffusionCoefficient/4`, 1stDiffusion.cpp 16, 35, MMSPDiffusion.cpp 13, 40. -/
def factor {α : Type} [Field α] (dx d : α) : α := d * (dx * dx / d / 4)

/-- MMSPDiffusion2D.cpp 23-57: `GRID` (which is printed) and `update` after `iterate` iterations. -/
def diffusion2D {α : Type} [Field α] (length : Int) (iterate : Nat) : Outcome ((Int → α) × (Int → α)) :=
  Relax.heatRun (Relax.square length) (fun _ => 1) (3 / 10) iterate (Relax.corner length) (fun _ => 1)

/-- The straight line from 1 at the first node to 0 at the last. -/
noncomputable def ramp (nx x : Int) : ℝ := 1 - x / (nx - 1)

/-- A quarter of the second difference is taken off a product `x (N - x)`, and the sine is an eigenvector. -/
theorem sine_step (θ : ℝ) (x : ℝ) : 1 / 4 * sin (θ * (x - 1)) + 1 / 2 * sin (θ * x) + 1 / 4 * sin (θ * (x + 1)) = cos (θ / 2) ^ 2 * sin (θ * x) := by
  have h1 : θ * (x - 1) = θ * x - θ := by ring
  have h2 : θ * (x + 1) = θ * x + θ := by ring
  rw [h1, h2, sin_sub, sin_add, cos_sq, show 2 * (θ / 2) = θ by ring]
  ring

/-- The distance from the line stays below a solution of the difference inequality. -/
theorem compare {nx : Int} (hx : 2 ≤ nx) {ρ : ℝ} {s : Nat → Int → ℝ} (h0 : s 0 = Relax.half nx) (hend : ∀ n x, ¬(0 < x ∧ x < nx - 1) → s n x = Relax.half nx x)
    (hstep : ∀ n x, 0 < x → x < nx - 1 → |s (n + 1) x - Relax.heat1 nx (1 / 4) (s n) x| ≤ 3 * ρ) (n : Nat) {x : Int} (hx0 : 0 ≤ x) (hx1 : x < nx) :
    |s n x - ramp nx x| ≤ 1 / 2 * cos (π / (2 * (nx - 1))) ^ (2 * n) * sin (π * x / (nx - 1)) + 6 * ρ * (x * (nx - 1 - x)) := by
  have hN : (0 : ℝ) < (nx : ℝ) - 1 := by
    have : (2 : ℝ) ≤ nx := by exact_mod_cast hx
    linarith
  have ht : Int.tdiv nx 2 = nx / 2 := Int.tdiv_eq_ediv_of_nonneg (by omega)
  have hend' : ∀ n x, 0 ≤ x → x < nx → ¬(0 < x ∧ x < nx - 1) → |s n x - ramp nx x| ≤ 0 ∧ sin (π * x / (nx - 1)) = 0 ∧ (x : ℝ) * (nx - 1 - x) = 0 := by
    intro n x a b c
    rw [hend n x c]
    have : x = 0 ∨ x = nx - 1 := by omega
    rcases this with rfl | rfl
    · have : Relax.half nx 0 = (1 : ℝ) := if_pos (by omega)
      rw [this]; unfold ramp; simp
    · have : Relax.half nx (nx - 1) = (0 : ℝ) := if_neg (by omega)
      rw [this]; unfold ramp
      push_cast
      rw [div_self hN.ne', mul_div_cancel_right₀ _ hN.ne']
      simp
  induction n generalizing x with
  | zero =>
    rw [h0, mul_zero, pow_zero, mul_one]
    by_cases hi : 0 < x ∧ x < nx - 1
    · have hρ : 0 ≤ ρ := by have := (abs_nonneg _).trans (hstep 0 x hi.1 hi.2); linarith
      have xr : (0 : ℝ) < x := by exact_mod_cast hi.1
      have xr' : (x : ℝ) < nx - 1 := by exact_mod_cast hi.2
      have hq : 0 ≤ 6 * ρ * ((x : ℝ) * (nx - 1 - x)) := by
        have : (0 : ℝ) ≤ nx - 1 - x := by linarith
        positivity
      have key : |Relax.half nx x - ramp nx x| ≤ 1 / 2 * sin (π * x / (nx - 1)) := by
        unfold Relax.half ramp
        by_cases hh : x < Int.tdiv nx 2
        · rw [if_pos hh]
          have hle : 2 * (x : ℝ) ≤ nx - 1 := by
            have : 2 * x ≤ nx - 1 := by omega
            exact_mod_cast this
          have := mul_le_sin (x := π * x / (nx - 1)) (by positivity) (by rw [div_le_div_iff₀ hN (by norm_num)]; nlinarith [pi_pos])
          rw [abs_of_nonneg (by rw [sub_sub_cancel]; positivity), sub_sub_cancel]
          have e : 2 / π * (π * x / (nx - 1)) = 2 * (x / (nx - 1)) := by field_simp
          rw [e] at this
          linarith
        · rw [if_neg hh]
          have hle : (nx : ℝ) - 1 ≤ 2 * x := by
            have : nx - 1 ≤ 2 * x := by omega
            exact_mod_cast this
          have hd : (x : ℝ) / (nx - 1) ≤ 1 := (div_le_one hN).2 xr'.le
          have hrw : sin (π * x / (nx - 1)) = sin (π * (nx - 1 - x) / (nx - 1)) := by
            rw [← sin_pi_sub]; congr 1; field_simp
          have hz : (0 : ℝ) ≤ nx - 1 - x := by linarith
          have := mul_le_sin (x := π * (nx - 1 - x) / (nx - 1)) (by positivity) (by rw [div_le_div_iff₀ hN (by norm_num)]; nlinarith [pi_pos])
          rw [hrw, zero_sub, abs_neg, abs_of_nonneg (by linarith)]
          have e : 2 / π * (π * (nx - 1 - x) / (nx - 1)) = 2 * (1 - x / (nx - 1)) := by field_simp
          rw [e] at this
          linarith
      linarith
    · obtain ⟨a, b, c⟩ := hend' 0 x hx0 hx1 hi
      rw [h0] at a
      rw [b, c]; linarith
  | succ n ih =>
    by_cases hi : 0 < x ∧ x < nx - 1
    · have e1 := ih (x := x - 1) (by omega) (by omega)
      have e2 := ih (x := x) hx0 hx1
      have e3 := ih (x := x + 1) (by omega) (by omega)
      have hs := hstep n x hi.1 hi.2
      unfold Relax.heat1 at hs
      rw [if_pos hi] at hs
      have sine := sine_step (π / (nx - 1)) x
      rw [show π / ((nx : ℝ) - 1) / 2 = π / (2 * (nx - 1)) by field_simp] at sine
      have a1 : π * ((x - 1 : ℤ) : ℝ) / (nx - 1) = π / (nx - 1) * ((x : ℝ) - 1) := by push_cast; ring
      have a2 : π * ((x : ℤ) : ℝ) / (nx - 1) = π / (nx - 1) * (x : ℝ) := by ring
      have a3 : π * ((x + 1 : ℤ) : ℝ) / (nx - 1) = π / (nx - 1) * ((x : ℝ) + 1) := by push_cast; ring
      rw [a1] at e1
      rw [a2] at e2 ⊢
      rw [a3] at e3
      have r1 : ramp nx (x - 1) + ramp nx (x + 1) = 2 * ramp nx x := by unfold ramp; push_cast; ring
      set θ := π / ((nx : ℝ) - 1)
      set c := cos (π / (2 * ((nx : ℝ) - 1)))
      rw [show 2 * (n + 1) = 2 * n + 2 by ring, pow_add]
      set L := c ^ (2 * n)
      push_cast at e1 e3
      have b := congrArg (fun t => 1 / 2 * L * t) sine
      beta_reduce at b
      rw [abs_le] at *
      constructor <;> nlinarith [e1.1, e1.2, e2.1, e2.2, e3.1, e3.2, hs.1, hs.2]
    · obtain ⟨a, b, c⟩ := hend' (n + 1) x hx0 hx1 hi
      rw [b, c]; linarith

/-- **C96.** After `n` iterations in exact arithmetic the printed profile of `1stDiffusion` is the straight line from 1 to 0, within `1/2 cos(π/2N)^2n sin(πx/N)`. -/
theorem first_steady {nx : Int} (hx : 2 ≤ nx) {dx d : ℝ} (hdx : dx ≠ 0) (hd : d ≠ 0) (n : Nat) : ∃ s, Relax.firstRun nx dx (factor dx d) n = .ok s ∧ ∀ x, 0 ≤ x → x < nx →
    |s.1 x - ramp nx x| ≤ 1 / 2 * cos (π / (2 * (nx - 1))) ^ (2 * n) * sin (π * x / (nx - 1)) := by
  obtain ⟨s, e, h⟩ := Relax.first_correct nx dx (factor dx d) n
  refine ⟨s, e, fun x a b => ?_⟩
  rw [h, show factor dx d / (dx * dx) = 1 / 4 from Relax.first_number hdx hd]
  have := compare hx (ρ := 0) (s := fun n => (Relax.heat1 nx (1 / 4 : ℝ))^[n] (Relax.half nx)) rfl (fun n x hx => Relax.iterate_end _ _ hx n)
    (fun n x _ _ => by rw [Function.iterate_succ_apply', sub_self, abs_zero, mul_zero]) n a b
  simpa using this

/-- **C96.** `MMSPDiffusion` is one iteration behind. -/
theorem second_steady {nx : Int} (hx : 2 ≤ nx) {dx d : ℝ} (hdx : dx ≠ 0) (hd : d ≠ 0) (n : Nat) : ∃ s, Relax.secondRun nx dx (factor dx d) (n + 1) = .ok s ∧ ∀ x, 0 ≤ x → x < nx →
    |s.2 x - ramp nx x| ≤ 1 / 2 * cos (π / (2 * (nx - 1))) ^ (2 * n) * sin (π * x / (nx - 1)) := by
  obtain ⟨s, t, e, e', h⟩ := Relax.second_is_first hx dx (factor dx d) n
  obtain ⟨s', e'', h'⟩ := first_steady hx hdx hd n
  rw [e] at e''; cases e''
  exact ⟨t, e', fun x a b => by rw [h x a b]; exact h' x a b⟩

/-- One step of the program in floating point is a step of the scheme within three relative errors. -/
theorem runFl_step {p : Nat} (hp : 2 ≤ p) (nx : Int) : ∃ s : Nat → Int → ℝ, s 0 = Relax.half nx ∧ (∀ n, ∃ t, runFl p nx n = .ok (s n, t)) ∧ (∀ n x, ¬(0 < x ∧ x < nx - 1) → s n x = Relax.half nx x) ∧
    ∀ n x, 0 < x → x < nx - 1 → |s (n + 1) x - Relax.heat1 nx (1 / 4) (s n) x| ≤ 3 * unit p := by
  have hp1 : 1 ≤ p := by omega
  have all : ∀ n, ∃ s : (Int → ℝ) × (Int → ℝ), runFl p nx n = .ok s ∧ (∀ x, ¬(0 < x ∧ x < nx - 1) → s.1 x = Relax.half nx x ∧ s.2 x = Relax.half nx x) ∧ ∀ x, 0 ≤ s.1 x ∧ s.1 x ≤ 1 ∧ Rep p (s.1 x) := by
    intro n
    induction n with
    | zero => exact ⟨_, rfl, fun x _ => ⟨rfl, rfl⟩, fun x => ⟨(half_range nx x).1, (half_range nx x).2, half_rep p nx x⟩⟩
    | succ n ih =>
      obtain ⟨s, a, b, c⟩ := ih
      refine ⟨_, by rw [runFl, a, Outcome.ok_bind, coefficient hp1, passFl_eq, Outcome.ok_bind], fun x hx => ?_, fun x => ?_⟩
      · dsimp only; rw [if_neg hx]; exact ⟨(b x hx).2, (b x hx).1⟩
      · dsimp only
        by_cases hx : 0 < x ∧ x < nx - 1
        · rw [if_pos hx]
          have := nodeFl_spec hp (c x).2.2 (c (x - 1)).1 (c (x - 1)).2.1 (c x).1 (c x).2.1 (c (x + 1)).1 (c (x + 1)).2.1
          exact ⟨this.1, this.2.1, rep_fl _⟩
        · rw [if_neg hx, (b x hx).2]
          exact ⟨(half_range nx x).1, (half_range nx x).2, half_rep p nx x⟩
  choose s a b c using all
  refine ⟨fun n => (s n).1, ?_, fun n => ⟨(s n).2, a n⟩, fun n x hx => (b n x hx).1, fun n x h0 h1 => ?_⟩
  · have := a 0
    rw [runFl] at this
    have e : s 0 = (Relax.half nx, Relax.half nx) := by injection this with this; exact this.symm
    show (s 0).1 = _
    rw [e]
  · have e := a (n + 1)
    rw [runFl, a n, Outcome.ok_bind, coefficient hp1, passFl_eq, Outcome.ok_bind] at e
    injection e with e
    show |(s (n + 1)).1 x - Relax.heat1 nx (1 / 4) (s n).1 x| ≤ _
    rw [← e]
    dsimp only
    unfold Relax.heat1
    rw [if_pos ⟨h0, h1⟩, if_pos ⟨h0, h1⟩]
    exact (nodeFl_spec hp (c n x).2.2 (c n (x - 1)).1 (c n (x - 1)).2.1 (c n x).1 (c n x).2.1 (c n (x + 1)).1 (c n (x + 1)).2.1).2.2

/-- **C96.** In floating point: rounding adds at most `6 x (N - x)` relative errors to the distance from the line, however many iterations are made. -/
theorem first_steady_rounded {p : Nat} (hp : 2 ≤ p) {nx : Int} (hx : 2 ≤ nx) (n : Nat) : ∃ s, runFl p nx n = .ok s ∧ ∀ x, 0 ≤ x → x < nx →
    |s.1 x - ramp nx x| ≤ 1 / 2 * cos (π / (2 * (nx - 1))) ^ (2 * n) * sin (π * x / (nx - 1)) + 6 * unit p * (x * (nx - 1 - x)) := by
  obtain ⟨s, h0, h1, h2, h3⟩ := runFl_step hp nx
  obtain ⟨t, e⟩ := h1 n
  exact ⟨_, e, fun x a b => compare hx h0 h2 h3 n a b⟩

/-- **C96.** The program as it stands (10 nodes, 1000 iterations, doubles) prints numbers within `1e-13` of `1 - x/9`. -/
theorem first_program : ∃ s, runFl 53 10 1000 = .ok s ∧ ∀ x, 0 ≤ x → x < 10 → |s.1 x - (1 - x / 9)| ≤ 1 / 10 ^ 13 := by
  obtain ⟨s, e, h⟩ := first_steady_rounded (p := 53) (by norm_num) (nx := 10) (by norm_num) 1000
  refine ⟨s, e, fun x a b => ?_⟩
  have := h x a b
  have hr : ramp 10 x = 1 - x / 9 := by unfold ramp; norm_num
  rw [hr] at this
  refine this.trans ?_
  have hs : sin (π * x / ((10 : ℤ) - 1)) ≤ 1 := sin_le_one _
  have hcos : cos (π / (2 * (((10 : ℤ) : ℝ) - 1))) ^ 2 ≤ 9701 / 10000 := by
    have e1 : π / (2 * (((10 : ℤ) : ℝ) - 1)) = π / 18 := by norm_num
    have hpi := pi_gt_d2
    have hpi' := pi_lt_d2
    have hsin : 1730 / 10000 ≤ sin (π / 18) := by
      have h3 := sin_gt_sub_cube (x := π / 18) (by positivity)
      have : (π / 18) ^ 3 ≤ (3.15 / 18) ^ 3 := pow_le_pow_left₀ (by positivity) (by linarith) 3
      norm_num at this
      linarith
    rw [e1]
    have := sin_sq_add_cos_sq (π / 18)
    nlinarith
  have hpow : cos (π / (2 * (((10 : ℤ) : ℝ) - 1))) ^ (2 * 1000) ≤ 8 / 10 ^ 14 := by
    rw [pow_mul]
    refine (pow_le_pow_left₀ (sq_nonneg _) hcos 1000).trans ?_
    have h100 : ((9701 : ℝ) / 10000) ^ 100 ≤ 481 / 10000 := by norm_num
    rw [show 1000 = 100 * 10 by norm_num, pow_mul]
    refine (pow_le_pow_left₀ (by positivity) h100 10).trans ?_
    norm_num
  have hpow0 : 0 ≤ cos (π / (2 * (((10 : ℤ) : ℝ) - 1))) ^ (2 * 1000) := by rw [pow_mul]; positivity
  have hx : (x : ℝ) * (((10 : ℤ) : ℝ) - 1 - x) ≤ 21 := by
    push_cast; nlinarith [sq_nonneg ((x : ℝ) - 9 / 2)]
  have hu : unit 53 ≤ 1 / 2 ^ 53 := (unit_le le_rfl).trans (by norm_num)
  have hx0 : 0 ≤ (x : ℝ) * (((10 : ℤ) : ℝ) - 1 - x) := by
    have h1 : (0 : ℝ) ≤ x := by exact_mod_cast a
    have h2 : (x : ℝ) ≤ 9 := by
      have : x ≤ 9 := by omega
      exact_mod_cast this
    push_cast; nlinarith
  have t1 : 1 / 2 * cos (π / (2 * (((10 : ℤ) : ℝ) - 1))) ^ (2 * 1000) * sin (π * x / ((10 : ℤ) - 1)) ≤ 1 / 2 * (8 / 10 ^ 14) * 1 := by
    refine (mul_le_mul_of_nonneg_left hs (by positivity)).trans ?_
    linarith
  have t2 : 6 * unit 53 * ((x : ℝ) * (((10 : ℤ) : ℝ) - 1 - x)) ≤ 6 * (1 / 2 ^ 53) * 21 :=
    mul_le_mul (by linarith) hx hx0 (by norm_num)
  refine (add_le_add t1 t2).trans ?_
  norm_num

/-! ## Two dimensions -/

/-- The most rapidly alternating profile along one axis of `m` nodes. -/
noncomputable def zigzag (m : Nat) (x : Int) : ℝ := (-1) ^ x * sin (π / m * (x + 1 / 2))

theorem zigzag_step (m : Nat) (x : Int) : zigzag m (x + 1) + zigzag m (x - 1) = -(2 * cos (π / m)) * zigzag m x := by
  unfold zigzag
  rw [zpow_add_one₀ (by norm_num), zpow_sub_one₀ (by norm_num)]
  push_cast
  rw [show π / m * ((x : ℝ) + 1 + 1 / 2) = π / m * (x + 1 / 2) + π / m by ring, show π / m * ((x : ℝ) - 1 + 1 / 2) = π / m * (x + 1 / 2) - π / m by ring, sin_add, sin_sub]
  norm_num
  ring

theorem zigzag_left (m : Nat) : zigzag m (-1) = zigzag m 0 := by
  unfold zigzag
  norm_num

theorem zigzag_right {m : Nat} (hm : 0 < m) : zigzag m m = zigzag m (m - 1) := by
  have hm' : (m : ℝ) ≠ 0 := by positivity
  unfold zigzag
  rw [zpow_sub_one₀ (by norm_num)]
  push_cast
  rw [show π / m * ((m : ℝ) + 1 / 2) = π / m * (1 / 2) + π by field_simp; ring, show π / m * ((m : ℝ) - 1 + 1 / 2) = π - π / m * (1 / 2) by field_simp; ring, sin_add_pi, sin_pi_sub]
  norm_num

theorem zigzag_le (m : Nat) (x : Int) : |zigzag m x| ≤ 1 := by
  unfold zigzag
  rw [abs_mul, abs_zpow, abs_neg, abs_one, one_zpow, one_mul]
  exact abs_sin_le_one _

/-- At a clamped axis the profile is an eigenvector. -/
theorem zigzag_closed {m : Nat} {x : Int} (h0 : 0 ≤ x) (h1 : x < m) :
    zigzag m (if x + 1 < m then x + 1 else x) - 2 * zigzag m x + zigzag m (if 0 ≤ x - 1 then x - 1 else x) = -(2 + 2 * cos (π / m)) * zigzag m x := by
  have hm : 0 < m := by omega
  have e := zigzag_step m x
  have a : zigzag m (if x + 1 < m then x + 1 else x) = zigzag m (x + 1) := by
    split_ifs with h
    · rfl
    · have : x = m - 1 := by omega
      subst this
      rw [sub_add_cancel, zigzag_right hm]
  have b : zigzag m (if 0 ≤ x - 1 then x - 1 else x) = zigzag m (x - 1) := by
    split_ifs with h
    · rfl
    · have : x = 0 := by omega
      subst this
      rw [zero_sub, zigzag_left]
  rw [a, b]; linarith

/-- Twice the cosine times the sum over the first `h` nodes. -/
theorem zigzag_sum (m h : Nat) : 2 * cos (π / m / 2) * ∑ x ∈ Finset.range h, zigzag m x = -((-1) ^ h * sin (π / m * h)) := by
  induction h with
  | zero => simp
  | succ h ih =>
    rw [Finset.sum_range_succ, mul_add, ih]
    unfold zigzag
    rw [zpow_natCast, pow_succ]
    push_cast
    rw [show π / m * (h : ℝ) = π / m * (h + 1 / 2) - π / m / 2 by ring, show π / m * ((h : ℝ) + 1) = π / m * (h + 1 / 2) + π / m / 2 by ring, sin_sub, sin_add]
    ring

theorem half_sq {m : Nat} (hm : 2 ≤ m) : 1 / 4 ≤ (∑ x ∈ Finset.range (m / 2), zigzag m x) ^ 2 := by
  have hm' : (0 : ℝ) < m := by positivity
  have hm2 : (2 : ℝ) ≤ m := by exact_mod_cast hm
  have hθ : π / m ≤ π / 2 := div_le_div_of_nonneg_left pi_pos.le (by norm_num) hm2
  have hθ0 : 0 < π / m := by positivity
  have hc : 0 < cos (π / m / 2) := cos_pos_of_mem_Ioo ⟨by linarith [pi_pos], by linarith [pi_pos]⟩
  have key : cos (π / m / 2) ≤ sin (π / m * (m / 2 : Nat)) := by
    have hh : m = 2 * (m / 2) ∨ m = 2 * (m / 2) + 1 := by omega
    rcases hh with hh | hh
    · have : (m : ℝ) = 2 * ((m / 2 : Nat) : ℝ) := by exact_mod_cast hh
      have e : π / m * ((m / 2 : Nat) : ℝ) = π / 2 := by
        rw [show ((m / 2 : Nat) : ℝ) = m / 2 by linarith]; field_simp
      rw [e, sin_pi_div_two]; exact cos_le_one _
    · have : (m : ℝ) = 2 * ((m / 2 : Nat) : ℝ) + 1 := by exact_mod_cast hh
      have e : π / m * ((m / 2 : Nat) : ℝ) = π / 2 - π / m / 2 := by
        rw [show ((m / 2 : Nat) : ℝ) = (m - 1) / 2 by linarith]; field_simp
      rw [e, sin_pi_div_two_sub]
  have e := congrArg (· ^ 2) (zigzag_sum m (m / 2))
  beta_reduce at e
  rw [neg_sq, mul_pow, mul_pow, mul_pow, ← pow_mul, mul_comm (m / 2) 2, pow_mul, neg_one_sq, one_pow, one_mul] at e
  have : cos (π / m / 2) ^ 2 ≤ sin (π / m * (m / 2 : Nat)) ^ 2 := pow_le_pow_left₀ hc.le key 2
  have hc2 : 0 < cos (π / m / 2) ^ 2 := by positivity
  rw [← e] at this
  nlinarith

theorem square_position (m : Nat) {q : Int} (h0 : 0 ≤ q) : (Relax.square m).position q 0 = q / m ∧ (Relax.square m).position q 1 = q % m := by
  have e0 : (Relax.square m).xx 0 = m := by simp [Shape.xx, slice, Relax.square]
  have e1 : (Relax.square m).xx 1 = 1 := by simp [Shape.xx, slice, Relax.square]
  constructor
  · simp only [Shape.position, digit, digitRest, e0]
    rw [Int.tdiv_eq_ediv_of_nonneg h0]; simp [Relax.square]
  · simp only [Shape.position, digit, digitRest, e0, e1]
    rw [Int.tdiv_eq_ediv_of_nonneg h0, Int.tdiv_one]
    have := Int.mul_ediv_add_emod q m
    simp [Relax.square]; linarith

theorem square_nodes (m : Nat) : (Relax.square m).nodes = m * m := by
  simp [Shape.nodes, Shape.xx, slice, Relax.square]

/-- The profile on the square. -/
noncomputable def board (m : Nat) (q : Int) : ℝ := zigzag m ((Relax.square m).position q 0) * zigzag m ((Relax.square m).position q 1)

theorem board_lap {m : Nat} (hm : 0 < m) {q : Int} (h0 : 0 ≤ q) (h1 : q < (Relax.square m).nodes) :
    DensePF.lapl (Relax.square m) (fun _ => 1) (board m) q = -(4 + 4 * cos (π / m)) * board m q := by
  have hs := Relax.square_serial (n := m) (by omega)
  have hp := Shape.position_isNode hs.wf h0 h1
  have p0 : 0 ≤ (Relax.square m).position q 0 ∧ (Relax.square m).position q 0 < m := hp 0 (show 0 < 2 by decide)
  have p1 : 0 ≤ (Relax.square m).position q 1 ∧ (Relax.square m).position q 1 < m := hp 1 (show 1 < 2 by decide)
  have cb : ∀ x : Int, 0 ≤ x → x < m → checkBoundary .serial (x + 1) 0 m .dirichlet .dirichlet = (if x + 1 < m then x + 1 else x) ∧
      checkBoundary .serial (x + -1) 0 m .dirichlet .dirichlet = (if 0 ≤ x - 1 then x - 1 else x) := by
    intro x a b
    have hc := Conserve.checkBoundary_closed (x0 := 0) (x1 := m) (c := x) (b0 := .dirichlet) (b1 := .dirichlet) (Or.inr ⟨Or.inr rfl, Or.inr rfl⟩) a b
    refine ⟨?_, ?_⟩
    · rw [hc.1]; split_ifs <;> simp_all
    · rw [← sub_eq_add_neg, hc.2]; split_ifs <;> simp_all
  rw [Relax.lapl_eq_lap]
  unfold ConvexSplit.lap
  rw [show (Relax.square m).dim = 2 from rfl, Finset.sum_range_succ, Finset.sum_range_one]
  have nb0 := fun up => (Conserve.nb_spec hs (i := 0) (show 0 < 2 by decide) h0 h1 up).2.2
  have nb1 := fun up => (Conserve.nb_spec hs (i := 1) (show 1 < 2 by decide) h0 h1 up).2.2
  unfold board
  rw [nb0 true 0 (show 0 < 2 by decide), nb0 true 1 (show 1 < 2 by decide), nb0 false 0 (show 0 < 2 by decide), nb0 false 1 (show 1 < 2 by decide),
    nb1 true 0 (show 0 < 2 by decide), nb1 true 1 (show 1 < 2 by decide), nb1 false 0 (show 0 < 2 by decide), nb1 false 1 (show 1 < 2 by decide)]
  simp only [if_true, Bool.false_eq_true, if_false, show (1 : Nat) ≠ 0 from one_ne_zero, show (0 : Nat) ≠ 1 from zero_ne_one]
  have c : ∀ i : Nat, ∀ x : Int, 0 ≤ x → x < m →
      checkBoundary .serial (x + 1) ((Relax.square m).x0 i) ((Relax.square m).x1 i) ((Relax.square m).b0 i) ((Relax.square m).b1 i) = (if x + 1 < m then x + 1 else x) ∧
      checkBoundary .serial (x + -1) ((Relax.square m).x0 i) ((Relax.square m).x1 i) ((Relax.square m).b0 i) ((Relax.square m).b1 i) = (if 0 ≤ x - 1 then x - 1 else x) := fun i => cb
  rw [(c 0 _ p0.1 p0.2).1, (c 0 _ p0.1 p0.2).2, (c 1 _ p1.1 p1.2).1, (c 1 _ p1.1 p1.2).2]
  have z0 := zigzag_closed p0.1 p0.2
  have z1 := zigzag_closed p1.1 p1.2
  linear_combination zigzag m ((Relax.square m).position q 1) * z0 + zigzag m ((Relax.square m).position q 0) * z1

theorem board_le (m : Nat) (q : Int) : |board m q| ≤ 1 := by
  unfold board
  rw [abs_mul]
  have := zigzag_le m ((Relax.square m).position q 0)
  have := zigzag_le m ((Relax.square m).position q 1)
  have := abs_nonneg (zigzag m ((Relax.square m).position q 0))
  have := abs_nonneg (zigzag m ((Relax.square m).position q 1))
  nlinarith

/-- The component of a field along the profile. -/
noncomputable def along (m : Nat) (u : Int → ℝ) : ℝ := Conserve.total (Relax.square m) fun q => board m q * u q

theorem along_lap {m : Nat} (hm : 0 < m) (u : Int → ℝ) :
    along m (DensePF.lapl (Relax.square m) (fun _ => 1) u) = -(4 + 4 * cos (π / m)) * along m u := by
  have hs := Relax.square_serial (n := m) (by omega)
  unfold along
  have a := ConvexSplit.sum_by_parts hs (fun _ => (1 : ℝ)) (board m) u
  have b := ConvexSplit.sum_by_parts hs (fun _ => (1 : ℝ)) u (board m)
  have e : ConvexSplit.bonds (Relax.square m) (fun _ => (1 : ℝ)) (board m) u = ConvexSplit.bonds (Relax.square m) (fun _ => (1 : ℝ)) u (board m) := by
    unfold ConvexSplit.bonds
    refine Finset.sum_congr rfl fun i _ => ?_
    congr 1
    refine Finset.sum_congr rfl fun q _ => ?_
    ring
  rw [e, ← b] at a
  refine a.trans ?_
  unfold Conserve.total
  rw [Finset.mul_sum]
  refine Finset.sum_congr rfl fun q hq => ?_
  beta_reduce
  rw [← Relax.lapl_eq_lap, board_lap hm (by positivity) (by have := Finset.mem_range.1 hq; omega)]
  ring

theorem sum_rows {f : Nat → ℝ} (m k : Nat) : ∑ q ∈ Finset.range (k * m), f q = ∑ i ∈ Finset.range k, ∑ j ∈ Finset.range m, f (i * m + j) := by
  induction k with
  | zero => simp
  | succ k ih => rw [Nat.succ_mul, Finset.sum_range_add, ih, Finset.sum_range_succ]

/-- The initial condition has a component along the profile. -/
theorem along_corner {m : Nat} (hm : 2 ≤ m) : 1 / 4 ≤ along m (Relax.corner m) := by
  have term : ∀ i j : Nat, i < m → j < m → board m ((i * m + j : Nat) : Int) * Relax.corner m ((i * m + j : Nat) : Int) =
      if i < m / 2 ∧ j < m / 2 then zigzag m i * zigzag m j else 0 := by
    intro i j hi hj
    obtain ⟨a, b⟩ := square_position m (q := ((i * m + j : Nat) : Int)) (by positivity)
    have a' : ((i * m + j : Nat) : Int) / m = i := by
      rw [← Int.natCast_ediv, Nat.add_comm, Nat.add_mul_div_right _ _ (by omega), Nat.div_eq_of_lt hj, zero_add]
    have b' : ((i * m + j : Nat) : Int) % m = j := by
      rw [← Int.natCast_emod, Nat.add_comm, Nat.add_mul_mod_self_right, Nat.mod_eq_of_lt hj]
    rw [a'] at a
    rw [b'] at b
    unfold board Relax.corner
    rw [a, b, Int.tdiv_eq_ediv_of_nonneg (by omega)]
    simp only [mul_ite, mul_one, mul_zero]
    congr 1
    apply propext; constructor <;> intro h <;> omega
  have e : along m (Relax.corner m) = (∑ x ∈ Finset.range (m / 2), zigzag m x) ^ 2 := by
    unfold along Conserve.total
    rw [square_nodes, show ((m : Int) * m).toNat = m * m by rw [← Int.natCast_mul]; rfl, sum_rows (f := fun q : Nat => board m q * Relax.corner m q) m m, sq, Finset.sum_mul_sum]
    symm
    calc ∑ i ∈ Finset.range (m / 2), ∑ j ∈ Finset.range (m / 2), zigzag m i * zigzag m j
        = ∑ i ∈ Finset.range (m / 2), ∑ j ∈ Finset.range m, board m ((i * m + j : Nat) : Int) * Relax.corner m ((i * m + j : Nat) : Int) := by
          refine Finset.sum_congr rfl fun i hi => ?_
          have hi := Finset.mem_range.1 hi
          refine (Finset.sum_congr rfl fun j hj => ?_).trans (Finset.sum_subset (Finset.range_mono (Nat.div_le_self m 2)) fun j hj hn => ?_)
          · have hj := Finset.mem_range.1 hj
            rw [term i j (by omega) (by omega), if_pos ⟨hi, hj⟩]
          · have hj := Finset.mem_range.1 hj
            have hn := fun h => hn (Finset.mem_range.2 h)
            rw [term i j (by omega) hj, if_neg fun h => hn h.2]
      _ = _ := by
          refine Finset.sum_subset (Finset.range_mono (Nat.div_le_self m 2)) fun i hi hn => Finset.sum_eq_zero fun j hj => ?_
          have hn := fun h => hn (Finset.mem_range.2 h)
          rw [term i j (Finset.mem_range.1 hi) (Finset.mem_range.1 hj), if_neg fun h => hn h.1]
  rw [e]; exact half_sq hm

/-- The factor by which the profile grows, with alternating sign, in one step. -/
noncomputable def growth (m : Nat) : ℝ := 1 / 5 + 6 / 5 * cos (π / m)

theorem growth_gt {m : Nat} (hm : 4 ≤ m) : 1 < growth m := by
  have hm' : (4 : ℝ) ≤ m := by exact_mod_cast hm
  have h : cos (π / 4) ≤ cos (π / m) := cos_le_cos_of_nonneg_of_le_pi (by positivity) (by linarith [pi_pos]) (div_le_div_of_nonneg_left pi_pos.le (by norm_num) hm')
  rw [cos_pi_div_four] at h
  have : (1.4 : ℝ) < √2 := by rw [Real.lt_sqrt (by norm_num)]; norm_num
  unfold growth; linarith

theorem along_run {m : Nat} (hm : 0 < m) (steps : Nat) :
    ∃ s, diffusion2D (α := ℝ) m steps = .ok s ∧ along m s.1 = (-growth m) ^ steps * along m (Relax.corner m) := by
  have hs := Relax.square_serial (n := m) (by omega)
  induction steps with
  | zero => exact ⟨_, rfl, by simp⟩
  | succ k ih =>
    obtain ⟨s, e, h⟩ := ih
    refine ⟨(fun p => if 0 ≤ p ∧ p < (Relax.square m).nodes then s.1 p + 3 / 10 * DensePF.lapl (Relax.square m) (fun _ => 1) s.1 p else s.2 p, s.1), ?_, ?_⟩
    · unfold diffusion2D Relax.heatRun at e ⊢
      rw [DensePF.run, e, Outcome.ok_bind, DensePF.pass_eq hs.wf hs.ghosts _ _ _ fun i a b => Relax.heatCell_eq hs.wf hs.ghosts (Relax.reach_of_serial hs) _ _ s.1 a b _, Outcome.ok_bind]
    · have l := along_lap hm s.1
      have : along m (fun p => if 0 ≤ p ∧ p < (Relax.square m).nodes then s.1 p + 3 / 10 * DensePF.lapl (Relax.square m) (fun _ => 1) s.1 p else s.2 p) =
          along m s.1 + 3 / 10 * along m (DensePF.lapl (Relax.square m) (fun _ => 1) s.1) := by
        unfold along Conserve.total
        rw [Finset.mul_sum, ← Finset.sum_add_distrib]
        refine Finset.sum_congr rfl fun q hq => ?_
        beta_reduce
        rw [if_pos ⟨by positivity, by have := Finset.mem_range.1 hq; omega⟩]
        ring
      rw [this, l, h, pow_succ]
      unfold growth; ring

/-- **C96.** `MMSPDiffusion2D` diverges for every length from four nodes on: after `steps` iterations some node carries at least `growth ^ steps / (4 m²)` in magnitude, and `growth > 1`. -/
theorem heat2_diverges {m : Nat} (hm : 4 ≤ m) (steps : Nat) :
    1 < 1 / 5 + 6 / 5 * cos (π / m) ∧ ∃ s, diffusion2D (α := ℝ) m steps = .ok s ∧
      ∃ q : Int, 0 ≤ q ∧ q < m * m ∧ (1 / 5 + 6 / 5 * cos (π / m)) ^ steps / (4 * m ^ 2) ≤ |s.1 q| := by
  refine ⟨growth_gt hm, ?_⟩
  obtain ⟨s, e, h⟩ := along_run (by omega : 0 < m) steps
  refine ⟨s, e, ?_⟩
  by_contra hc
  have hlt : ∀ q : Int, 0 ≤ q → q < m * m → |s.1 q| < growth m ^ steps / (4 * m ^ 2) := by
    intro q a b
    by_contra h'
    exact hc ⟨q, a, b, not_lt.1 h'⟩
  have hg : 0 < growth m := by linarith [growth_gt hm]
  have h1 : |along m s.1| < (m * m : Nat) * (growth m ^ steps / (4 * m ^ 2)) := by
    have e2 : ((Relax.square m).nodes).toNat = m * m := by rw [square_nodes, ← Int.natCast_mul]; rfl
    unfold along Conserve.total
    rw [e2]
    refine (Finset.abs_sum_le_sum_abs _ _).trans_lt ?_
    calc ∑ q ∈ Finset.range (m * m), |board m q * s.1 q| < ∑ q ∈ Finset.range (m * m), growth m ^ steps / (4 * m ^ 2) := by
          refine Finset.sum_lt_sum_of_nonempty ⟨0, Finset.mem_range.2 (by positivity)⟩ fun q hq => ?_
          have := hlt q (by positivity) (by exact_mod_cast Finset.mem_range.1 hq)
          rw [abs_mul]
          have := board_le m q
          nlinarith [abs_nonneg (s.1 q), abs_nonneg (board m q)]
      _ = _ := by simp
  have hm0 : (0 : ℝ) < m := by positivity
  have h2 : ((m * m : Nat) : ℝ) * (growth m ^ steps / (4 * m ^ 2)) = growth m ^ steps * (1 / 4) := by
    push_cast; field_simp
  rw [h2, h, abs_mul, abs_pow, abs_neg, abs_of_pos hg] at h1
  have h3 := along_corner (by omega : 2 ≤ m)
  have h4 := le_abs_self (along m (Relax.corner m))
  have : growth m ^ steps * (1 / 4) ≤ growth m ^ steps * |along m (Relax.corner m)| := mul_le_mul_of_nonneg_left (by linarith) (by positivity)
  linarith

/-- **C96.** Whatever bound is set, from some iteration on the 2D program holds a value beyond it at every later iteration. -/
theorem heat2_unbounded {m : Nat} (hm : 4 ≤ m) (B : ℝ) : ∃ N : Nat, ∀ steps, N ≤ steps →
    ∃ s, diffusion2D (α := ℝ) m steps = .ok s ∧ ∃ q : Int, 0 ≤ q ∧ q < m * m ∧ B < |s.1 q| := by
  have hg := growth_gt hm
  have hm0 : (0 : ℝ) < m := by positivity
  obtain ⟨N, hN⟩ := pow_unbounded_of_one_lt (B * (4 * m ^ 2)) hg
  refine ⟨N, fun steps h => ?_⟩
  obtain ⟨-, s, e, q, a, b, c⟩ := heat2_diverges hm steps
  refine ⟨s, e, q, a, b, lt_of_lt_of_le ?_ c⟩
  rw [lt_div_iff₀ (by positivity)]
  exact hN.trans_le (pow_le_pow_right₀ hg.le h)

/-! ## The hypotheses are met -/

example : ∃ s, runFl 53 10 1000 = .ok s ∧ ∀ x, 0 ≤ x → x < 10 →
    |s.1 x - ramp 10 x| ≤ 1 / 2 * cos (π / (2 * ((10 : Int) - 1))) ^ (2 * 1000) * sin (π * x / ((10 : Int) - 1)) + 6 * unit 53 * (x * ((10 : Int) - 1 - x)) :=
  first_steady_rounded (by norm_num) (by norm_num) 1000

example : ∃ N : Nat, ∀ steps, N ≤ steps → ∃ s, diffusion2D (α := ℝ) (10 : Nat) steps = .ok s ∧
    ∃ q : Int, 0 ≤ q ∧ q < (10 : Nat) * (10 : Nat) ∧ 1000000 < |s.1 q| := heat2_unbounded (by norm_num) _

end MMSP.Steady
