import Mathlib.Data.Int.Log
import Mathlib.Data.Real.Archimedean
import Mathlib.Algebra.Order.Floor.Ring
import Mathlib.Algebra.Ring.Int.Parity
import Mathlib.Tactic.Linarith
import Mathlib.Tactic.FieldSimp
import Mathlib.Tactic.Ring
/-!
# Rounding to nearest

`fl p x` is the real number `x` rounded to `p` significant binary digits, to nearest, ties to even, without limits on the exponent: what IEEE 754 prescribes for the result of
`+ - * /` in `double` (`p = 53`) and `float` (`p = 24`) as long as there is neither overflow nor underflow.
-/

namespace MMSP.Rounding

/-- Nearest integer, the even one of two. -/
noncomputable def rne (x : ℝ) : ℤ := if x - ⌊x⌋ < 1 / 2 then ⌊x⌋ else if 1 / 2 < x - ⌊x⌋ then ⌊x⌋ + 1 else if Even ⌊x⌋ then ⌊x⌋ else ⌊x⌋ + 1

/-- The last of `p` significant digits of `x` has the weight `2 ^ ulpExp p x`. -/
noncomputable def ulpExp (p : Nat) (x : ℝ) : ℤ := Int.log 2 |x| - (p - 1)

/-- `x` rounded to `p` significant digits. -/
noncomputable def fl (p : Nat) (x : ℝ) : ℝ := if x = 0 then 0 else rne (x / 2 ^ ulpExp p x) * 2 ^ ulpExp p x

/-- Numbers with at most `p` significant digits. -/
def Rep (p : Nat) (x : ℝ) : Prop := ∃ m k : ℤ, |m| ≤ 2 ^ p ∧ x = m * 2 ^ k

theorem rne_err (x : ℝ) : |(rne x : ℝ) - x| ≤ 1 / 2 := by
  have h1 := Int.floor_le x
  have h2 := Int.lt_floor_add_one x
  unfold rne
  rw [abs_le]
  split_ifs <;> push_cast <;> constructor <;> linarith

theorem rne_int (n : ℤ) : rne (n : ℝ) = n := by unfold rne; rw [Int.floor_intCast, sub_self, if_pos (by norm_num)]

/-- The nearest integer is at least every integer that the number is at least, and likewise above. -/
theorem le_rne {n : ℤ} {x : ℝ} (h : (n : ℝ) ≤ x) : n ≤ rne x := by
  have := Int.le_floor.2 h
  unfold rne
  split_ifs <;> omega

theorem rne_le {n : ℤ} {x : ℝ} (h : x ≤ (n : ℝ)) : rne x ≤ n := by
  by_contra hn
  have h1 : n + 1 ≤ rne x := by omega
  have h2 : ((n : ℝ) + 1) ≤ rne x := by exact_mod_cast h1
  have h3 := (abs_le.1 (rne_err x)).2
  linarith

theorem rne_mono {x y : ℝ} (h : x ≤ y) : rne x ≤ rne y := by
  rcases (Int.floor_mono h).lt_or_eq with hf | hf
  · have h1 : rne x ≤ ⌊x⌋ + 1 := by unfold rne; split_ifs <;> omega
    have h2 : ⌊y⌋ ≤ rne y := by unfold rne; split_ifs <;> omega
    omega
  · unfold rne
    rw [← hf]
    split_ifs <;> first | omega | (exfalso; linarith) | skip

theorem rne_neg (x : ℝ) : rne (-x) = -rne x := by
  by_cases hx : (⌊x⌋ : ℝ) = x
  · rw [← hx, ← Int.cast_neg, rne_int, rne_int]
  · have h1 := Int.floor_le x
    have h2 := Int.lt_floor_add_one x
    have h1' : (⌊x⌋ : ℝ) < x := lt_of_le_of_ne h1 hx
    have hf : ⌊-x⌋ = -⌊x⌋ - 1 := by
      rw [Int.floor_eq_iff]; push_cast; constructor <;> linarith
    unfold rne
    rw [hf]
    push_cast
    have hev : Even (-⌊x⌋ - 1) ↔ ¬ Even ⌊x⌋ := by
      rw [Int.even_sub, even_neg]; simp
    split_ifs <;> first | omega | (exfalso; linarith) | (exfalso; tauto) | skip

theorem rne_half {n : ℤ} (h : Even n) : rne ((n : ℝ) + 1 / 2) = n := by
  have hf : ⌊(n : ℝ) + 1 / 2⌋ = n := by rw [Int.floor_eq_iff]; constructor <;> linarith
  unfold rne
  rw [hf, if_neg (by linarith), if_neg (by linarith), if_pos h]

theorem fl_zero (p : Nat) : fl p 0 = 0 := if_pos rfl

theorem fl_eq {p : Nat} {x : ℝ} (hx : x ≠ 0) : fl p x = rne (x / 2 ^ ulpExp p x) * 2 ^ ulpExp p x := if_neg hx

theorem fl_neg (p : Nat) (x : ℝ) : fl p (-x) = -fl p x := by
  by_cases hx : x = 0
  · rw [hx, neg_zero, fl_zero, neg_zero]
  · rw [fl_eq hx, fl_eq (neg_ne_zero.2 hx), show ulpExp p (-x) = ulpExp p x by unfold ulpExp; rw [abs_neg], neg_div, rne_neg]
    push_cast; ring

theorem two_zpow_pos (k : ℤ) : (0 : ℝ) < 2 ^ k := zpow_pos (by norm_num) k

/-- The digits before the rounding. -/
theorem scaled {p : Nat} {x : ℝ} (hx : x ≠ 0) : (2 : ℝ) ^ ((p : ℤ) - 1) ≤ |x| / 2 ^ ulpExp p x ∧ |x| / 2 ^ ulpExp p x < 2 ^ (p : ℤ) := by
  have hx' := abs_pos.2 hx
  have h1 := Int.zpow_log_le_self (b := 2) (by norm_num) hx'
  have h2 := Int.lt_zpow_succ_log_self (b := 2) (by norm_num) |x|
  push_cast at h1 h2
  rw [le_div_iff₀ (two_zpow_pos _), div_lt_iff₀ (two_zpow_pos _), ← zpow_add₀ (by norm_num), ← zpow_add₀ (by norm_num)]
  unfold ulpExp
  rw [show (p : ℤ) - 1 + (Int.log 2 |x| - (p - 1)) = Int.log 2 |x| by ring, show (p : ℤ) + (Int.log 2 |x| - (p - 1)) = Int.log 2 |x| + 1 by ring]
  exact ⟨h1, h2⟩

/-- The relative error of a rounding is at most `2 ^ -p`. -/
theorem fl_err {p : Nat} (x : ℝ) : |fl p x - x| ≤ 2 ^ (-(p : ℤ)) * |x| := by
  by_cases hx : x = 0
  · rw [hx, fl_zero]; simp
  · have h0 := two_zpow_pos (ulpExp p x)
    have h := rne_err (x / 2 ^ ulpExp p x)
    have e : fl p x - x = ((rne (x / 2 ^ ulpExp p x) : ℝ) - x / 2 ^ ulpExp p x) * 2 ^ ulpExp p x := by rw [fl_eq hx]; field_simp
    rw [e, abs_mul, abs_of_pos h0]
    have h1 := (scaled (p := p) hx).1
    rw [le_div_iff₀ h0] at h1
    have h2 : (2 : ℝ) ^ ulpExp p x ≤ 2 ^ (-((p : ℤ) - 1)) * |x| := by
      rw [zpow_neg, inv_mul_eq_div, le_div_iff₀ (two_zpow_pos _), mul_comm]; exact h1
    calc _ ≤ 1 / 2 * 2 ^ ulpExp p x := mul_le_mul_of_nonneg_right h h0.le
      _ ≤ 1 / 2 * (2 ^ (-((p : ℤ) - 1)) * |x|) := by linarith
      _ = 2 ^ (-(p : ℤ)) * |x| := by rw [show -((p : ℤ) - 1) = -(p : ℤ) + 1 by ring, zpow_add₀ (by norm_num)]; ring

theorem fl_nonneg {p : Nat} {x : ℝ} (h : 0 ≤ x) : 0 ≤ fl p x := by
  by_cases hx : x = 0
  · rw [hx, fl_zero]
  · rw [fl_eq hx]
    refine mul_nonneg ?_ (two_zpow_pos _).le
    have := le_rne (n := 0) (x := x / 2 ^ ulpExp p x) (by rw [Int.cast_zero]; exact div_nonneg h (two_zpow_pos _).le)
    exact_mod_cast this

theorem fl_mono_pos {p : Nat} (hp : 1 ≤ p) {x y : ℝ} (hx : 0 < x) (h : x ≤ y) : fl p x ≤ fl p y := by
  have hy : 0 < y := lt_of_lt_of_le hx h
  rw [fl_eq hx.ne', fl_eq hy.ne']
  have hl : Int.log 2 |x| ≤ Int.log 2 |y| := by rw [abs_of_pos hx, abs_of_pos hy]; exact Int.log_mono_right hx h
  have hx1 := scaled (p := p) hx.ne'
  have hy1 := scaled (p := p) hy.ne'
  rw [abs_of_pos hx] at hx1
  rw [abs_of_pos hy] at hy1
  rcases hl.lt_or_eq with hlt | heq
  · have e1 : ulpExp p x + 1 ≤ ulpExp p y := by unfold ulpExp; omega
    have a1 : rne (x / 2 ^ ulpExp p x) ≤ 2 ^ p := rne_le (by push_cast; have := hx1.2; rw [zpow_natCast] at this; exact this.le)
    have a2 : (2 : ℤ) ^ (p - 1) ≤ rne (y / 2 ^ ulpExp p y) := le_rne (by
      push_cast
      have := hy1.1
      rwa [show (p : ℤ) - 1 = ((p - 1 : Nat) : ℤ) by omega, zpow_natCast] at this)
    calc (rne (x / 2 ^ ulpExp p x) : ℝ) * 2 ^ ulpExp p x ≤ 2 ^ p * 2 ^ ulpExp p x := mul_le_mul_of_nonneg_right (by exact_mod_cast a1) (two_zpow_pos _).le
      _ = 2 ^ (p - 1) * 2 ^ (ulpExp p x + 1) := by
          rw [zpow_add₀ (by norm_num), zpow_one]
          obtain ⟨k, rfl⟩ : ∃ k, p = k + 1 := ⟨p - 1, by omega⟩
          rw [Nat.add_sub_cancel, pow_succ]; ring
      _ ≤ 2 ^ (p - 1) * 2 ^ ulpExp p y := mul_le_mul_of_nonneg_left (zpow_le_zpow_right₀ (by norm_num) e1) (by positivity)
      _ ≤ rne (y / 2 ^ ulpExp p y) * 2 ^ ulpExp p y := mul_le_mul_of_nonneg_right (by exact_mod_cast a2) (two_zpow_pos _).le
  · have e : ulpExp p x = ulpExp p y := by unfold ulpExp; rw [heq]
    rw [e]
    refine mul_le_mul_of_nonneg_right ?_ (two_zpow_pos _).le
    exact_mod_cast rne_mono (div_le_div_of_nonneg_right h (two_zpow_pos _).le)

/-- Rounding keeps the order. -/
theorem fl_mono {p : Nat} (hp : 1 ≤ p) {x y : ℝ} (h : x ≤ y) : fl p x ≤ fl p y := by
  rcases lt_trichotomy 0 x with hx | rfl | hx
  · exact fl_mono_pos hp hx h
  · rw [fl_zero]; exact fl_nonneg h
  · rcases le_or_gt 0 y with hy | hy
    · have := fl_nonneg (p := p) (neg_nonneg.2 hx.le)
      rw [fl_neg] at this
      linarith [fl_nonneg (p := p) hy]
    · have := fl_mono_pos hp (neg_pos.2 hy) (neg_le_neg h)
      rw [fl_neg, fl_neg] at this
      linarith

/-- Numbers that have no more than `p` digits are kept. -/
theorem fl_rep {p : Nat} (hp : 1 ≤ p) {x : ℝ} (h : Rep p x) : fl p x = x := by
  by_cases hx : x = 0
  · rw [hx, fl_zero]
  have key : ∀ m k : ℤ, |m| < 2 ^ p → x = m * 2 ^ k → fl p x = x := by
    intro m k hm e
    have hs := (scaled (p := p) hx).1
    rw [le_div_iff₀ (two_zpow_pos _), ← zpow_add₀ (by norm_num)] at hs
    have h1 : |x| < 2 ^ ((p : ℤ) + k) := by
      rw [e, abs_mul, abs_of_pos (two_zpow_pos k), zpow_add₀ (by norm_num), zpow_natCast]
      refine mul_lt_mul_of_pos_right ?_ (two_zpow_pos k)
      rw [← Int.cast_abs]
      exact_mod_cast hm
    have h2 := (zpow_lt_zpow_iff_right₀ (by norm_num : (1 : ℝ) < 2)).1 (lt_of_le_of_lt hs h1)
    have hk : ulpExp p x ≤ k := by omega
    have hint : x / 2 ^ ulpExp p x = ((m * 2 ^ (k - ulpExp p x).toNat : ℤ) : ℝ) := by
      generalize ulpExp p x = u at hk
      rw [div_eq_iff (two_zpow_pos _).ne', e]
      push_cast
      rw [← zpow_natCast, Int.toNat_of_nonneg (by omega), mul_assoc, ← zpow_add₀ (by norm_num), sub_add_cancel]
    rw [fl_eq hx, hint, rne_int, ← hint, div_mul_cancel₀ _ (two_zpow_pos _).ne']
  obtain ⟨m, k, hm, e⟩ := h
  rcases hm.lt_or_eq with hlt | heq
  · exact key m k hlt e
  · obtain ⟨q, rfl⟩ : ∃ q, p = q + 1 := ⟨p - 1, by omega⟩
    have h2 : m = 2 ^ q * 2 ∨ m = -2 ^ q * 2 := by
      rcases abs_choice m with h | h <;> rw [h, pow_succ] at heq
      · exact Or.inl heq
      · right; linarith
    have hq : |(2 : ℤ) ^ q| < 2 ^ (q + 1) := by rw [abs_of_pos (by positivity), pow_succ]; have : (0 : ℤ) < 2 ^ q := by positivity
                                                linarith
    rcases h2 with rfl | rfl
    · refine key (2 ^ q) (k + 1) hq ?_
      rw [e, zpow_add₀ (by norm_num), zpow_one]; push_cast; ring
    · refine key (-2 ^ q) (k + 1) (by rw [abs_neg]; exact hq) ?_
      rw [e, zpow_add₀ (by norm_num), zpow_one]; push_cast; ring

theorem rep_fl {p : Nat} (x : ℝ) : Rep p (fl p x) := by
  by_cases hx : x = 0
  · rw [hx, fl_zero]; exact ⟨0, 0, by positivity, by simp⟩
  · refine ⟨rne (x / 2 ^ ulpExp p x), ulpExp p x, ?_, fl_eq hx⟩
    have hs := (scaled (p := p) hx).2
    rw [← abs_of_pos (two_zpow_pos (ulpExp p x)), ← abs_div, zpow_natCast] at hs
    have h := abs_lt.1 hs
    rw [abs_le]
    constructor
    · exact le_rne (by push_cast; linarith)
    · exact rne_le (by push_cast; linarith)

theorem rep_int {p : Nat} {m : ℤ} (h : |m| ≤ 2 ^ p) : Rep p (m : ℝ) := ⟨m, 0, h, by simp⟩

theorem rep_nat {p n : Nat} (h : n ≤ 2 ^ p) : Rep p (n : ℝ) := ⟨n, 0, by rw [abs_of_nonneg (by positivity)]; exact_mod_cast h, by simp⟩

theorem rep_scale {p : Nat} {x : ℝ} (h : Rep p x) (j : ℤ) : Rep p (x * 2 ^ j) := by
  obtain ⟨m, k, hm, e⟩ := h
  exact ⟨m, k + j, hm, by rw [e, zpow_add₀ (by norm_num)]; ring⟩

theorem rep_one (p : Nat) : Rep p 1 := ⟨1, 0, by rw [abs_one]; exact one_le_pow₀ (by norm_num), by simp⟩

theorem rep_zero (p : Nat) : Rep p 0 := ⟨0, 0, by positivity, by simp⟩

theorem fl_one {p : Nat} (hp : 1 ≤ p) : fl p 1 = 1 := fl_rep hp (rep_one p)

/-- Half a unit in the last place above 1 is rounded down to 1. -/
theorem fl_le_one {p : Nat} (hp : 2 ≤ p) {x : ℝ} (h : x ≤ 1 + 2 ^ (-(p : ℤ))) : fl p x ≤ 1 := by
  refine le_trans (fl_mono (by omega) h) ?_
  have h0 : (0 : ℝ) < 2 ^ (-(p : ℤ)) := two_zpow_pos _
  have h1 : (2 : ℝ) ^ (-(p : ℤ)) < 1 := by
    rw [zpow_neg, zpow_natCast]; exact inv_lt_one_of_one_lt₀ (one_lt_pow₀ (by norm_num) (by omega))
  have hpos : (0 : ℝ) < 1 + 2 ^ (-(p : ℤ)) := by linarith
  have hlog : Int.log 2 |(1 : ℝ) + 2 ^ (-(p : ℤ))| = 0 := by
    rw [abs_of_pos hpos]
    have a : (0 : ℤ) ≤ Int.log 2 ((1 : ℝ) + 2 ^ (-(p : ℤ))) := (Int.zpow_le_iff_le_log (by norm_num) hpos).1 (by push_cast; rw [zpow_zero]; linarith)
    have b : Int.log 2 ((1 : ℝ) + 2 ^ (-(p : ℤ))) < 1 := (Int.lt_zpow_iff_log_lt (by norm_num) hpos).1 (by push_cast; rw [zpow_one]; linarith)
    omega
  have he : ulpExp p (1 + 2 ^ (-(p : ℤ))) = -((p : ℤ) - 1) := by unfold ulpExp; rw [hlog]; ring
  rw [fl_eq hpos.ne', he]
  obtain ⟨q, rfl⟩ : ∃ q, p = q + 2 := ⟨p - 2, by omega⟩
  have e : ((1 : ℝ) + 2 ^ (-((q + 2 : Nat) : ℤ))) / 2 ^ (-(((q + 2 : Nat) : ℤ) - 1)) = (((2 : ℤ) ^ (q + 1) : ℤ) : ℝ) + 1 / 2 := by
    rw [show -(((q + 2 : Nat) : ℤ) - 1) = -((q + 1 : Nat) : ℤ) by push_cast; ring, zpow_neg, zpow_neg, zpow_natCast, zpow_natCast, div_inv_eq_mul]
    push_cast
    rw [pow_succ 2 (q + 1)]
    field_simp
  rw [e, rne_half ⟨2 ^ q, by rw [pow_succ]; ring⟩, show -(((q + 2 : Nat) : ℤ) - 1) = -((q + 1 : Nat) : ℤ) by push_cast; ring, zpow_neg, zpow_natCast]
  push_cast
  exact le_of_eq (mul_inv_cancel₀ (by positivity))

/-- Some roundings: a third is not a number with 53 digits; 49 * fl(1/49) is below 1. -/
example : fl 2 (1 / 3) = 3 / 8 := by
  have hlog : Int.log 2 |(1 : ℝ) / 3| = -2 := by
    rw [abs_of_pos (by norm_num)]
    have a : (-2 : ℤ) ≤ Int.log 2 ((1 : ℝ) / 3) := (Int.zpow_le_iff_le_log (by norm_num) (by norm_num)).1 (by norm_num)
    have b : Int.log 2 ((1 : ℝ) / 3) < -1 := (Int.lt_zpow_iff_log_lt (by norm_num) (by norm_num)).1 (by norm_num)
    omega
  have he : ulpExp 2 ((1 : ℝ) / 3) = -3 := by unfold ulpExp; rw [hlog]; norm_num
  rw [fl_eq (by norm_num), he]
  have : ((1 : ℝ) / 3) / 2 ^ (-3 : ℤ) = 8 / 3 := by norm_num
  rw [this]
  have hf : ⌊(8 : ℝ) / 3⌋ = 2 := by rw [Int.floor_eq_iff]; norm_num
  unfold rne
  rw [hf]
  norm_num

end MMSP.Rounding
