import Verif.Ieee
import Verif.BufferLemmas
/-!
# The bytes of IEEE numbers

The representation of IEEE 754: sign bit, biased exponent, digits without the leading one; little-endian. All numbers that are not finite are written as `+inf`.
-/

namespace MMSP.Ieee

open Rounding

variable {f : Fmt}

/-- Exponent field less one (0 also for subnormal numbers). -/
noncomputable def expo (f : Fmt) (x : ℝ) : Nat := open Classical in if x = 0 then 0 else (lastExp f x - f.e).toNat

/-- All digits. -/
noncomputable def digits (f : Fmt) (x : ℝ) : Nat := (rne (x / 2 ^ lastExp f x)).natAbs

/-- The bits without the sign. -/
noncomputable def bits (f : Fmt) (x : ℝ) : Nat := expo f x * 2 ^ (f.p - 1) + digits f x

/-- The first bits that are no finite number. -/
def infBits (f : Fmt) : Nat := (f.emax - f.p - f.e + 2).toNat * 2 ^ (f.p - 1)

theorem digits_value {x : ℝ} (hp : 1 ≤ f.p) (hx : Rep f x) : (digits f x : ℝ) * 2 ^ lastExp f x = |x| := by
  by_cases h0 : x = 0
  · subst h0
    have : rne 0 = 0 := by have := rne_int 0; simpa using this
    simp [digits, this]
  · have h := rnd_rep hp hx
    rw [rnd_eq h0] at h
    unfold digits
    rw [Nat.cast_natAbs, Int.cast_abs]
    conv_rhs => rw [← h]
    rw [abs_mul, abs_of_pos (two_zpow_pos _)]

theorem digits_lt {x : ℝ} (hp : 1 ≤ f.p) (hx : Rep f x) : digits f x < 2 ^ f.p := by
  have hv := digits_value hp hx
  by_cases h0 : x = 0
  · subst h0
    rw [abs_zero] at hv
    rcases mul_eq_zero.1 hv with h | h
    · have : digits f 0 = 0 := by exact_mod_cast h
      rw [this]; positivity
    · exact absurd h (two_zpow_pos _).ne'
  · have hs := (scaled (p := f.p) h0).2
    have : |x| / 2 ^ lastExp f x < 2 ^ (f.p : ℤ) :=
      lt_of_le_of_lt (div_le_div_of_nonneg_left (abs_nonneg x) (two_zpow_pos _) (zpow_le_zpow_right₀ (by norm_num) (le_max_left _ _))) hs
    rw [← hv, mul_div_assoc, div_self (two_zpow_pos _).ne', mul_one, zpow_natCast] at this
    exact_mod_cast this

/-- Numbers above the subnormal ones have a leading one. -/
theorem digits_ge {x : ℝ} (hp : 1 ≤ f.p) (hx : Rep f x) (he : 0 < expo f x) : 2 ^ (f.p - 1) ≤ digits f x := by
  have h0 : x ≠ 0 := by
    rintro rfl
    simp [expo] at he
  have hl : lastExp f x = ulpExp f.p x := by
    unfold expo at he
    rw [if_neg h0] at he
    have : f.e < lastExp f x := by omega
    unfold lastExp at this ⊢
    omega
  have hs := (scaled (p := f.p) h0).1
  rw [← hl, ← digits_value hp hx, mul_div_assoc, div_self (two_zpow_pos _).ne', mul_one, show (f.p : ℤ) - 1 = ((f.p - 1 : Nat) : ℤ) by omega, zpow_natCast] at hs
  exact_mod_cast hs

theorem bits_lt (hf : f.Good) {x : ℝ} (hx : Finite f x) : bits f x < infBits f := by
  have hp : 1 ≤ f.p := by have := hf.p2; omega
  have hd := digits_lt hp hx.1
  have he : (expo f x : ℤ) ≤ f.emax - f.p - f.e := by
    have hlow := hf.low
    have hhigh := hf.high
    unfold expo
    by_cases h0 : x = 0
    · rw [if_pos h0]; push_cast; omega
    · rw [if_neg h0]
      have hlog : Int.log 2 |x| < f.emax := (Int.lt_zpow_iff_log_lt (b := 2) (by norm_num) (abs_pos.2 h0)).1 (by push_cast; exact hx.2)
      have : lastExp f x ≤ f.emax - f.p := by
        unfold lastExp ulpExp
        refine max_le ?_ ?_ <;> omega
      have h1 : f.e ≤ lastExp f x := le_max_right _ _
      omega
  unfold bits infBits
  have e2 : 2 ^ f.p = 2 * 2 ^ (f.p - 1) := by
    obtain ⟨k, hk⟩ : ∃ k, f.p = k + 1 := ⟨f.p - 1, by omega⟩
    rw [hk, Nat.add_sub_cancel, pow_succ]; ring
  have e3 : (expo f x + 2) * 2 ^ (f.p - 1) ≤ (f.emax - f.p - f.e + 2).toNat * 2 ^ (f.p - 1) := Nat.mul_le_mul_right _ (by omega)
  rw [add_mul] at e3
  omega

/-- Finite numbers of the same size have the same bits, others do not. -/
theorem bits_inj (hf : f.Good) {x y : ℝ} (hx : Rep f x) (hy : Rep f y) (h : bits f x = bits f y) : |x| = |y| := by
  have hp : 1 ≤ f.p := by have := hf.p2; omega
  have e2 : 2 ^ f.p = 2 * 2 ^ (f.p - 1) := by
    obtain ⟨k, hk⟩ : ∃ k, f.p = k + 1 := ⟨f.p - 1, by omega⟩
    rw [hk, Nat.add_sub_cancel, pow_succ]; ring
  have key : ∀ {u v : ℝ}, Rep f u → Rep f v → bits f u = bits f v → ¬ expo f u < expo f v := fun {u v} hu hv he hlt => by
    have a := digits_lt hp hu
    have b := digits_ge hp hv (by omega)
    unfold bits at he
    have : (expo f u + 1) * 2 ^ (f.p - 1) ≤ expo f v * 2 ^ (f.p - 1) := Nat.mul_le_mul_right _ hlt
    rw [add_mul] at this
    omega
  have he : expo f x = expo f y := le_antisymm (not_lt.1 (key hy hx h.symm)) (not_lt.1 (key hx hy h))
  have hd : digits f x = digits f y := by
    unfold bits at h
    rw [he] at h
    omega
  rw [← digits_value hp hx, ← digits_value hp hy, hd]
  by_cases h0 : digits f y = 0
  · rw [h0]; simp
  · have nz : ∀ {u : ℝ}, Rep f u → digits f u ≠ 0 → u ≠ 0 := fun {u} hu hne e => by
      have := digits_value hp hu
      rw [e, abs_zero] at this
      rcases mul_eq_zero.1 this with h | h
      · exact hne (by rw [e]; exact_mod_cast h)
      · exact absurd h (two_zpow_pos _).ne'
    have hx0 := nz hx (hd ▸ h0)
    have hy0 := nz hy h0
    unfold expo at he
    rw [if_neg hx0, if_neg hy0] at he
    have h1 : f.e ≤ lastExp f x := le_max_right _ _
    have h2 : f.e ≤ lastExp f y := le_max_right _ _
    rw [show lastExp f x = lastExp f y by omega]

namespace Num

/-- The bits of a number in `w` bytes. -/
noncomputable def code (w : Nat) : Num f → Nat
  | .bad => infBits f
  | .fin x _ => open Classical in if x < 0 then 2 ^ (8 * w - 1) + bits f x else bits f x

theorem code_lt (hf : f.Good) {w : Nat} (hw : 1 ≤ w) (hi : infBits f < 2 ^ (8 * w - 1)) (a : Num f) : code w a < 256 ^ w := by
  have e : 256 ^ w = 2 * 2 ^ (8 * w - 1) := by
    rw [show (256 : Nat) = 2 ^ 8 by norm_num, ← pow_mul, ← pow_succ', show 8 * w - 1 + 1 = 8 * w by omega]
  rw [e]
  match a with
  | .bad => simp only [code]; omega
  | .fin x h =>
    have := bits_lt hf h
    simp only [code]
    split_ifs <;> omega

theorem code_inj (hf : f.Good) {w : Nat} (hi : infBits f < 2 ^ (8 * w - 1)) {a b : Num f} (h : code w a = code w b) : a = b := by
  match a, b with
  | .bad, .bad => rfl
  | .bad, .fin y hy =>
    have := bits_lt hf hy
    simp only [code] at h
    split_ifs at h <;> omega
  | .fin x hx, .bad =>
    have := bits_lt hf hx
    simp only [code] at h
    split_ifs at h <;> omega
  | .fin x hx, .fin y hy =>
    have bx := bits_lt hf hx
    have by' := bits_lt hf hy
    have key : x = y := by
      simp only [code] at h
      split_ifs at h with h1 h2 h2
      · have := bits_inj hf hx.1 hy.1 (by omega)
        rw [abs_of_neg h1, abs_of_neg h2] at this
        linarith
      · omega
      · omega
      · have := bits_inj hf hx.1 hy.1 h
        rwa [abs_of_nonneg (not_lt.1 h1), abs_of_nonneg (not_lt.1 h2)] at this
    subst key
    rfl

/-- A format as `w` bytes. -/
noncomputable def bytes (f : Fmt) (hf : f.Good) (w : Nat) (hw : 1 ≤ w) (hi : infBits f < 2 ^ (8 * w - 1)) : Codec (Num f) where
  width := w
  enc a := leBytes w (code w a)
  dec b := open Classical in if h : ∃ a : Num f, leBytes w (code w a) = b then h.choose else .bad
  enc_length a := leBytes_length _ _
  dec_enc a := by
    have h : ∃ b : Num f, leBytes w (code w b) = leBytes w (code w a) := ⟨a, rfl⟩
    rw [dif_pos h]
    have e := congrArg ofLe h.choose_spec
    rw [ofLe_leBytes (code_lt hf hw hi _), ofLe_leBytes (code_lt hf hw hi _)] at e
    exact code_inj hf hi e

theorem bytes_enc {hf : f.Good} {w : Nat} {hw : 1 ≤ w} {hi : infBits f < 2 ^ (8 * w - 1)} (a : Num f) : (bytes f hf w hw hi).enc a = leBytes w (code w a) := rfl

end Num

/-- The eight bytes of a `double`. -/
noncomputable def doubleBytes : Codec (Num double) := Num.bytes double double_good 8 (by norm_num) (by decide +kernel)

/-- The four bytes of a `float`. -/
noncomputable def singleBytes : Codec (Num single) := Num.bytes single single_good 4 (by norm_num) (by decide +kernel)

theorem lastExp_one : lastExp double 1 = -52 := by
  unfold lastExp ulpExp
  rw [abs_one, show Int.log 2 (1 : ℝ) = 0 by simp, show double.p = 53 from rfl, show double.e = -1074 from rfl]
  norm_num

theorem expo_one : expo double 1 = 1022 := by
  unfold expo
  rw [if_neg one_ne_zero, lastExp_one, show double.e = -1074 from rfl]
  decide

theorem digits_one : digits double 1 = 4503599627370496 := by
  unfold digits
  rw [lastExp_one, show (1 : ℝ) / 2 ^ (-52 : ℤ) = ((4503599627370496 : ℤ) : ℝ) by norm_num, rne_int]
  norm_num

theorem code_one : Num.code 8 (1 : Num double) = 4607182418800017408 := by
  obtain ⟨h, e⟩ := Num.is_one double_good
  rw [e, Num.code, if_neg (by norm_num), bits, expo_one, digits_one, show double.p - 1 = 52 from rfl]
  norm_num

/-- The bytes of `1.0`. -/
theorem one_bytes : doubleBytes.enc 1 = [0, 0, 0, 0, 0, 0, 0xf0, 0x3f] := by
  unfold doubleBytes
  rw [Num.bytes_enc, code_one]
  decide +kernel

end MMSP.Ieee
