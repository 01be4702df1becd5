import Verif.RoundNearest
import Verif.RoundConserve
/-!
# Binary floating-point formats with their smallest and largest numbers

`rnd f x` is the real number `x` rounded to nearest, ties to even, in a format of `f.p` significant digits whose last digit weighs at least `2 ^ f.e`: what IEEE 754 prescribes, including gradual
underflow. A number of type `Num f` is a finite number of the format or `bad`, which stands for both infinities and all NaNs. (In IEEE 754 a later operation may turn an infinity into a finite number
again; here `bad` stays `bad`. The theorems show that no `bad` ever appears.) The two zeros are one. No fused multiply-add, no extended precision. C and C++ use `double` and `float` of IEEE 754 on
all platforms the Makefiles of /repo are written for.
-/

namespace MMSP.Ieee

open Rounding

/-- Digits, exponent of the least digit, and the first power of two beyond the largest number. -/
structure Fmt where
  p : Nat
  e : ℤ
  emax : ℤ

/-- `double` -/
def double : Fmt := ⟨53, -1074, 1024⟩

/-- `float` -/
def single : Fmt := ⟨24, -149, 128⟩

/-- A format with at least two digits that has 1 and 2. -/
structure Fmt.Good (f : Fmt) : Prop where
  p2 : 2 ≤ f.p
  low : f.e + f.p ≤ 0
  high : 2 ≤ f.emax

theorem double_good : double.Good := ⟨by decide, by decide, by decide⟩
theorem single_good : single.Good := ⟨by decide, by decide, by decide⟩

/-- Weight of the last digit of `x`. -/
noncomputable def lastExp (f : Fmt) (x : ℝ) : ℤ := max (ulpExp f.p x) f.e

/-- `x` rounded. -/
noncomputable def rnd (f : Fmt) (x : ℝ) : ℝ := if x = 0 then 0 else rne (x / 2 ^ lastExp f x) * 2 ^ lastExp f x

/-- Numbers of the format, whatever their size. -/
def Rep (f : Fmt) (x : ℝ) : Prop := ∃ m k : ℤ, |m| ≤ 2 ^ f.p ∧ f.e ≤ k ∧ x = m * 2 ^ k

/-- The smallest number with all digits. -/
noncomputable def tiny (f : Fmt) : ℝ := 2 ^ (f.e + f.p - 1)

/-- Relative error of numbers with all digits. -/
noncomputable def ε (f : Fmt) : ℝ := 2 ^ (-(f.p : ℤ))

theorem ε_pos (f : Fmt) : 0 < ε f := two_zpow_pos _
theorem tiny_pos (f : Fmt) : 0 < tiny f := two_zpow_pos _

theorem rnd_zero (f : Fmt) : rnd f 0 = 0 := if_pos rfl

theorem rnd_eq {f : Fmt} {x : ℝ} (hx : x ≠ 0) : rnd f x = rne (x / 2 ^ lastExp f x) * 2 ^ lastExp f x := if_neg hx

theorem rnd_neg (f : Fmt) (x : ℝ) : rnd f (-x) = -rnd f x := by
  by_cases hx : x = 0
  · rw [hx, neg_zero, rnd_zero, neg_zero]
  · rw [rnd_eq hx, rnd_eq (neg_ne_zero.2 hx), show lastExp f (-x) = lastExp f x by unfold lastExp ulpExp; rw [abs_neg], neg_div, rne_neg]
    push_cast; ring

/-- The error of a rounding is at most `2 ^ -p` times the number, or times `tiny` where that is more. -/
theorem rnd_err (f : Fmt) (x : ℝ) : |rnd f x - x| ≤ ε f * max |x| (tiny f) := by
  by_cases hx : x = 0
  · rw [hx, rnd_zero, sub_zero, abs_zero]
    exact mul_nonneg (ε_pos f).le (le_max_of_le_left le_rfl)
  · have h0 := two_zpow_pos (lastExp f x)
    have h := rne_err (x / 2 ^ lastExp f x)
    have e : rnd f x - x = ((rne (x / 2 ^ lastExp f x) : ℝ) - x / 2 ^ lastExp f x) * 2 ^ lastExp f x := by rw [rnd_eq hx]; field_simp
    rw [e, abs_mul, abs_of_pos h0]
    have h2 : (2 : ℝ) ^ lastExp f x ≤ 2 * (ε f * max |x| (tiny f)) := by
      rcases max_choice (ulpExp f.p x) f.e with hm | hm
      · have h1 := (scaled (p := f.p) hx).1
        rw [le_div_iff₀ (two_zpow_pos _)] at h1
        have h3 : (2 : ℝ) ^ lastExp f x ≤ 2 * (ε f * |x|) := by
          unfold lastExp ε
          rw [hm]
          calc (2 : ℝ) ^ ulpExp f.p x = 2 * (2 ^ (-(f.p : ℤ)) * (2 ^ ((f.p : ℤ) - 1) * 2 ^ ulpExp f.p x)) := by
                rw [← mul_assoc (2 ^ (-(f.p : ℤ))), ← zpow_add₀ (by norm_num), show -(f.p : ℤ) + (f.p - 1) = -1 by ring, zpow_neg_one]; ring
            _ ≤ _ := mul_le_mul_of_nonneg_left (mul_le_mul_of_nonneg_left h1 (two_zpow_pos _).le) (by norm_num)
        exact h3.trans (mul_le_mul_of_nonneg_left (mul_le_mul_of_nonneg_left (le_max_left _ _) (ε_pos f).le) (by norm_num))
      · have h3 : (2 : ℝ) ^ lastExp f x = 2 * (ε f * tiny f) := by
          unfold lastExp ε tiny
          rw [hm, ← zpow_add₀ (by norm_num), show -(f.p : ℤ) + (f.e + f.p - 1) = f.e + -1 by ring, zpow_add₀ (by norm_num), zpow_neg_one]; ring
        rw [h3]
        exact mul_le_mul_of_nonneg_left (mul_le_mul_of_nonneg_left (le_max_right _ _) (ε_pos f).le) (by norm_num)
    calc _ ≤ 1 / 2 * 2 ^ lastExp f x := mul_le_mul_of_nonneg_right h h0.le
      _ ≤ _ := by linarith

theorem rnd_nonneg {f : Fmt} {x : ℝ} (h : 0 ≤ x) : 0 ≤ rnd f x := by
  by_cases hx : x = 0
  · rw [hx, rnd_zero]
  · rw [rnd_eq hx]
    refine mul_nonneg ?_ (two_zpow_pos _).le
    have := le_rne (n := 0) (x := x / 2 ^ lastExp f x) (by rw [Int.cast_zero]; exact div_nonneg h (two_zpow_pos _).le)
    exact_mod_cast this

/-- The digits before the rounding, with the last digit at `lastExp`. -/
theorem scaled_le {f : Fmt} {x : ℝ} (hx : x ≠ 0) : |x| / 2 ^ lastExp f x ≤ 2 ^ (f.p : ℤ) := by
  have h := (scaled (p := f.p) hx).2
  refine le_trans ?_ h.le
  refine div_le_div_of_nonneg_left (abs_nonneg x) (two_zpow_pos _) (zpow_le_zpow_right₀ (by norm_num) (le_max_left _ _))

theorem rnd_mono_pos {f : Fmt} (hp : 1 ≤ f.p) {x y : ℝ} (hx : 0 < x) (h : x ≤ y) : rnd f x ≤ rnd f y := by
  have hy : 0 < y := lt_of_lt_of_le hx h
  rw [rnd_eq hx.ne', rnd_eq hy.ne']
  have hl : Int.log 2 |x| ≤ Int.log 2 |y| := by rw [abs_of_pos hx, abs_of_pos hy]; exact Int.log_mono_right hx h
  have hu : ulpExp f.p x ≤ ulpExp f.p y := by unfold ulpExp; omega
  have hxy : lastExp f x ≤ lastExp f y := max_le_max hu le_rfl
  rcases hxy.lt_or_eq with hlt | heq
  · have ey : lastExp f y = ulpExp f.p y := by
      have h1 : f.e ≤ lastExp f x := le_max_right _ _
      unfold lastExp at hlt h1 ⊢
      omega
    have e1 : lastExp f x + 1 ≤ lastExp f y := hlt
    have hx1 := scaled_le (f := f) hx.ne'
    have hy1 := (scaled (p := f.p) hy.ne').1
    rw [abs_of_pos hx] at hx1
    rw [abs_of_pos hy] at hy1
    have a1 : rne (x / 2 ^ lastExp f x) ≤ 2 ^ f.p := rne_le (by push_cast; rwa [zpow_natCast] at hx1)
    have a2 : (2 : ℤ) ^ (f.p - 1) ≤ rne (y / 2 ^ lastExp f y) := le_rne (by
      push_cast
      rw [ey]
      rwa [show (f.p : ℤ) - 1 = ((f.p - 1 : Nat) : ℤ) by omega, zpow_natCast] at hy1)
    calc (rne (x / 2 ^ lastExp f x) : ℝ) * 2 ^ lastExp f x ≤ 2 ^ f.p * 2 ^ lastExp f x := mul_le_mul_of_nonneg_right (by exact_mod_cast a1) (two_zpow_pos _).le
      _ = 2 ^ (f.p - 1) * 2 ^ (lastExp f x + 1) := by
          rw [zpow_add₀ (by norm_num), zpow_one]
          obtain ⟨k, hk⟩ : ∃ k, f.p = k + 1 := ⟨f.p - 1, by omega⟩
          rw [hk, Nat.add_sub_cancel, pow_succ]; ring
      _ ≤ 2 ^ (f.p - 1) * 2 ^ lastExp f y := mul_le_mul_of_nonneg_left (zpow_le_zpow_right₀ (by norm_num) e1) (by positivity)
      _ ≤ rne (y / 2 ^ lastExp f y) * 2 ^ lastExp f y := mul_le_mul_of_nonneg_right (by exact_mod_cast a2) (two_zpow_pos _).le
  · rw [heq]
    refine mul_le_mul_of_nonneg_right ?_ (two_zpow_pos _).le
    exact_mod_cast rne_mono (div_le_div_of_nonneg_right h (two_zpow_pos _).le)

/-- Rounding keeps the order. -/
theorem rnd_mono {f : Fmt} (hp : 1 ≤ f.p) {x y : ℝ} (h : x ≤ y) : rnd f x ≤ rnd f y := by
  rcases lt_trichotomy 0 x with hx | rfl | hx
  · exact rnd_mono_pos hp hx h
  · rw [rnd_zero]; exact rnd_nonneg h
  · rcases le_or_gt 0 y with hy | hy
    · have := rnd_nonneg (f := f) (neg_nonneg.2 hx.le)
      rw [rnd_neg] at this
      linarith [rnd_nonneg (f := f) hy]
    · have := rnd_mono_pos hp (neg_pos.2 hy) (neg_le_neg h)
      rw [rnd_neg, rnd_neg] at this
      linarith

/-- Numbers of the format are numbers with `p` digits. -/
theorem Rep.digits {f : Fmt} {x : ℝ} (h : Rep f x) : Rounding.Rep f.p x := by
  obtain ⟨m, k, hm, _, e⟩ := h
  exact ⟨m, k, hm, e⟩

/-- Where `fl` and `rnd` have the same last digit. -/
theorem rnd_eq_fl {f : Fmt} {x : ℝ} (h : f.e ≤ ulpExp f.p x) : rnd f x = fl f.p x := by
  unfold rnd fl lastExp
  rw [max_eq_left h]

/-- Numbers of the format are kept. -/
theorem rnd_rep {f : Fmt} (hp : 1 ≤ f.p) {x : ℝ} (h : Rep f x) : rnd f x = x := by
  by_cases hx : x = 0
  · rw [hx, rnd_zero]
  rcases le_total f.e (ulpExp f.p x) with hu | hu
  · rw [rnd_eq_fl hu, fl_rep hp h.digits]
  · obtain ⟨m, k, _, hk, e⟩ := h
    have hl : lastExp f x = f.e := max_eq_right hu
    have hint : x / 2 ^ f.e = ((m * 2 ^ (k - f.e).toNat : ℤ) : ℝ) := by
      rw [div_eq_iff (two_zpow_pos _).ne', e]
      push_cast
      rw [← zpow_natCast, Int.toNat_of_nonneg (by omega), mul_assoc, ← zpow_add₀ (by norm_num), sub_add_cancel]
    rw [rnd_eq hx, hl, hint, rne_int, ← hint, div_mul_cancel₀ _ (two_zpow_pos _).ne']

theorem rep_rnd (f : Fmt) (x : ℝ) : Rep f (rnd f x) := by
  by_cases hx : x = 0
  · rw [hx, rnd_zero]; exact ⟨0, f.e, by positivity, le_rfl, by simp⟩
  · refine ⟨rne (x / 2 ^ lastExp f x), lastExp f x, ?_, le_max_right _ _, rnd_eq hx⟩
    have hs := scaled_le (f := f) hx
    rw [← abs_of_pos (two_zpow_pos (lastExp f x)), ← abs_div, zpow_natCast] at hs
    have h := abs_le.1 hs
    rw [abs_le]
    constructor
    · exact le_rne (by push_cast; linarith)
    · exact rne_le (by push_cast; linarith)

theorem rep_zero (f : Fmt) : Rep f 0 := ⟨0, f.e, by positivity, le_rfl, by simp⟩

theorem rep_neg {f : Fmt} {x : ℝ} (h : Rep f x) : Rep f (-x) := by
  obtain ⟨m, k, hm, hk, e⟩ := h
  exact ⟨-m, k, by rwa [abs_neg], hk, by rw [e]; push_cast; ring⟩

theorem rep_two_mul {f : Fmt} {x : ℝ} (h : Rep f x) : Rep f (2 * x) := by
  obtain ⟨m, k, hm, hk, e⟩ := h
  exact ⟨m, k + 1, hm, by omega, by rw [e, zpow_add₀ (by norm_num), zpow_one]; ring⟩

theorem rep_one {f : Fmt} (hf : f.Good) : Rep f 1 := ⟨1, 0, by rw [abs_one]; exact one_le_pow₀ (by norm_num), by have := hf.low; omega, by simp⟩

theorem rnd_one {f : Fmt} (hf : f.Good) : rnd f 1 = 1 := rnd_rep (by have := hf.p2; omega) (rep_one hf)

/-- Half a unit in the last place above 1 is rounded down to 1. -/
theorem rnd_le_one {f : Fmt} (hf : f.Good) {x : ℝ} (h : x ≤ 1 + ε f) : rnd f x ≤ 1 := by
  have hp : 1 ≤ f.p := by have := hf.p2; omega
  rcases le_or_gt x 1 with h1 | h1
  · have := rnd_mono hp h1
    rwa [rnd_one hf] at this
  · have hl : f.e ≤ ulpExp f.p x := by
      have : (0 : ℤ) ≤ Int.log 2 x := (Int.zpow_le_iff_le_log (by norm_num) (by linarith)).1 (by push_cast; rw [zpow_zero]; linarith)
      unfold ulpExp
      rw [abs_of_pos (by linarith)]
      have := hf.low
      omega
    rw [rnd_eq_fl hl]
    exact fl_le_one hf.p2 h

theorem tiny_le_one {f : Fmt} (hf : f.Good) : tiny f ≤ 1 := by
  unfold tiny
  exact zpow_le_one_of_nonpos₀ (by norm_num) (by have := hf.low; omega)

/-! ## Numbers with a place for what is not finite -/

/-- Finite numbers of the format. -/
def Finite (f : Fmt) (x : ℝ) : Prop := Rep f x ∧ |x| < 2 ^ f.emax

/-- A finite number of the format, or `bad`: overflow, division by zero, and what comes of them. -/
inductive Num (f : Fmt) : Type
  | fin (x : ℝ) (h : Finite f x)
  | bad

namespace Num
variable {f : Fmt}

/-- The number is finite and has this value. -/
def Is (a : Num f) (x : ℝ) : Prop := ∃ h, a = .fin x h

/-- The result of an operation. -/
noncomputable def of (f : Fmt) (x : ℝ) : Num f := open Classical in if h : Finite f (rnd f x) then .fin (rnd f x) h else .bad

/-- An operation on finite numbers. -/
noncomputable def lift (op : ℝ → ℝ → Num f) : Num f → Num f → Num f
  | .fin x _, .fin y _ => op x y
  | .fin _ _, .bad => .bad
  | .bad, _ => .bad

noncomputable instance : Zero (Num f) := ⟨of f 0⟩
noncomputable instance : One (Num f) := ⟨of f 1⟩
noncomputable instance : Add (Num f) := ⟨lift fun x y => of f (x + y)⟩
noncomputable instance : Sub (Num f) := ⟨lift fun x y => of f (x - y)⟩
noncomputable instance : Mul (Num f) := ⟨lift fun x y => of f (x * y)⟩
noncomputable instance : Div (Num f) := ⟨lift fun x y => open Classical in if y = 0 then .bad else of f (x / y)⟩
noncomputable instance : Neg (Num f) := ⟨fun | .fin x _ => of f (-x) | .bad => .bad⟩

theorem Is.finite {a : Num f} {x : ℝ} (h : Is a x) : Finite f x := h.1

theorem Is.unique {a : Num f} {x y : ℝ} (h : Is a x) (h' : Is a y) : x = y := by
  obtain ⟨h1, e1⟩ := h
  obtain ⟨h2, e2⟩ := h'
  exact (Num.fin.inj (e1.symm.trans e2))

theorem of_is {x : ℝ} (h : |rnd f x| < 2 ^ f.emax) : Is (of f x) (rnd f x) := ⟨⟨rep_rnd f x, h⟩, dif_pos _⟩

theorem Is.add {a b : Num f} {x y : ℝ} (ha : Is a x) (hb : Is b y) (h : |rnd f (x + y)| < 2 ^ f.emax) : Is (a + b) (rnd f (x + y)) := by
  obtain ⟨h1, rfl⟩ := ha
  obtain ⟨h2, rfl⟩ := hb
  exact of_is h

theorem Is.sub {a b : Num f} {x y : ℝ} (ha : Is a x) (hb : Is b y) (h : |rnd f (x - y)| < 2 ^ f.emax) : Is (a - b) (rnd f (x - y)) := by
  obtain ⟨h1, rfl⟩ := ha
  obtain ⟨h2, rfl⟩ := hb
  exact of_is h

theorem Is.mul {a b : Num f} {x y : ℝ} (ha : Is a x) (hb : Is b y) (h : |rnd f (x * y)| < 2 ^ f.emax) : Is (a * b) (rnd f (x * y)) := by
  obtain ⟨h1, rfl⟩ := ha
  obtain ⟨h2, rfl⟩ := hb
  exact of_is h

theorem Is.div {a b : Num f} {x y : ℝ} (ha : Is a x) (hb : Is b y) (hy : y ≠ 0) (h : |rnd f (x / y)| < 2 ^ f.emax) : Is (a / b) (rnd f (x / y)) := by
  obtain ⟨h1, rfl⟩ := ha
  obtain ⟨h2, rfl⟩ := hb
  have e : (Num.fin x h1 : Num f) / .fin y h2 = of f (x / y) := if_neg hy
  rw [e]
  exact of_is h

theorem Is.neg (hp : 1 ≤ f.p) {a : Num f} {x : ℝ} (ha : Is a x) : Is (-a) (-x) := by
  obtain ⟨h1, rfl⟩ := ha
  have e : rnd f (-x) = -x := rnd_rep hp (rep_neg h1.1)
  have := of_is (f := f) (x := -x) (by rw [e, abs_neg]; exact h1.2)
  rw [e] at this
  exact this

theorem one_lt_top (hf : f.Good) : (1 : ℝ) < 2 ^ f.emax := one_lt_zpow₀ (by norm_num) (by have := hf.high; omega)

theorem is_zero : Is (0 : Num f) 0 := by
  have := of_is (f := f) (x := 0) (by rw [rnd_zero, abs_zero]; exact two_zpow_pos _)
  rwa [rnd_zero] at this

theorem is_one (hf : f.Good) : Is (1 : Num f) 1 := by
  have := of_is (f := f) (x := 1) (by rw [rnd_one hf, abs_one]; exact one_lt_top hf)
  rwa [rnd_one hf] at this

end Num

/-! ## Errors of several operations -/

/-- `x` is `y` after `k` roundings of numbers up to `m`. -/
def Near (f : Fmt) (k : Nat) (x y m : ℝ) : Prop := |x - y| ≤ ((1 + ε f) ^ k - 1) * m ∧ |y| ≤ m ∧ tiny f ≤ m

namespace Near
variable {f : Fmt} {k l : Nat} {x y m x' y' m' : ℝ}

theorem grow_pos (f : Fmt) (k : Nat) : 0 ≤ (1 + ε f) ^ k - 1 := by
  have := one_le_pow₀ (show 1 ≤ 1 + ε f by linarith [ε_pos f]) (n := k)
  linarith

theorem nonneg (h : Near f k x y m) : 0 ≤ m := (abs_nonneg y).trans h.2.1

theorem exact (k : Nat) (hy : |y| ≤ m) (hm : tiny f ≤ m) : Near f k y y m := ⟨by rw [sub_self, abs_zero]; exact mul_nonneg (grow_pos f k) ((abs_nonneg y).trans hy), hy, hm⟩

theorem weaken (h : Near f k x y m) (hkl : k ≤ l) : Near f l x y m := by
  refine ⟨h.1.trans (mul_le_mul_of_nonneg_right ?_ h.nonneg), h.2⟩
  have := pow_le_pow_right₀ (show 1 ≤ 1 + ε f by linarith [ε_pos f]) hkl
  linarith

theorem wider (h : Near f k x y m) (hm : m ≤ m') : Near f k x y m' := ⟨h.1.trans (mul_le_mul_of_nonneg_left hm (grow_pos f k)), h.2.1.trans hm, h.2.2.trans hm⟩

theorem bound (h : Near f k x y m) : |x| ≤ (1 + ε f) ^ k * m := by
  have h1 : |x| ≤ |x - y| + |y| := by have := abs_add_le (x - y) y; rwa [sub_add_cancel] at this
  linarith [h.1, h.2.1]

theorem round (h : Near f k x y m) : Near f (k + 1) (rnd f x) y m := by
  refine ⟨?_, h.2⟩
  have h1 := rnd_err f x
  have hg := grow_pos f k
  have h2 : max |x| (tiny f) ≤ (1 + ε f) ^ k * m := max_le h.bound (h.2.2.trans (by nlinarith [h.nonneg]))
  have h3 : |rnd f x - y| ≤ |rnd f x - x| + |x - y| := by have := abs_add_le (rnd f x - x) (x - y); rwa [sub_add_sub_cancel] at this
  have h4 := mul_le_mul_of_nonneg_left h2 (ε_pos f).le
  rw [pow_succ]
  nlinarith [h.1]

theorem add_exactly (h : Near f k x y m) (h' : Near f k x' y' m') : Near f k (x + x') (y + y') (m + m') := by
  refine ⟨?_, (abs_add_le _ _).trans (add_le_add h.2.1 h'.2.1), by linarith [h.2.2, h'.nonneg]⟩
  rw [show x + x' - (y + y') = x - y + (x' - y') by ring, mul_add]
  exact (abs_add_le _ _).trans (add_le_add h.1 h'.1)

theorem add (h : Near f k x y m) (h' : Near f k x' y' m') : Near f (k + 1) (rnd f (x + x')) (y + y') (m + m') := (h.add_exactly h').round

theorem neg (h : Near f k x y m) : Near f k (-x) (-y) m := ⟨by rw [show -x - -y = -(x - y) by ring, abs_neg]; exact h.1, by rw [abs_neg]; exact h.2.1, h.2.2⟩

theorem sub (h : Near f k x y m) (h' : Near f k x' y' m') : Near f (k + 1) (rnd f (x - x')) (y - y') (m + m') := by
  rw [sub_eq_add_neg, sub_eq_add_neg]; exact h.add h'.neg

theorem mul (c : ℝ) (h : Near f k x y m) : Near f (k + 1) (rnd f (c * x)) (c * y) (|c| * m + tiny f) := by
  refine Near.round ⟨?_, ?_, by linarith [mul_nonneg (abs_nonneg c) h.nonneg]⟩
  · rw [← mul_sub, abs_mul]
    have := mul_le_mul_of_nonneg_left h.1 (abs_nonneg c)
    have := mul_nonneg (grow_pos f k) (tiny_pos f).le
    linarith
  · rw [abs_mul]
    linarith [mul_le_mul_of_nonneg_left h.2.1 (abs_nonneg c), tiny_pos f]

end Near

end MMSP.Ieee
