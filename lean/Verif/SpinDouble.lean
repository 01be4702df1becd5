import Verif.SpinSampling
import Verif.MonteCarloRest
/-!
# The Ising and Potts examples in doubles (C124)

C94 takes `exp` and `double(rand())/double(RAND_MAX)` as exact. In `double`s the energy changes are still exact, and for each of them the test `r<exp(-dE/kT)` comes out differently
for at most one of the `RAND_MAX+1` numbers that `rand()` can return; so the examples in `double`s sample the same distributions, up to another `2 n / (RAND_MAX+1)`.
-/

namespace MMSP.SpinDouble

open Finset MMSP.Spin MMSP.Sampling MMSP.SpinSampling Ieee Num MonteCarlo

/-! ## The programs in doubles -/

/-- The test `r<exp(-dE/kT)` with `r = double(rand())/double(RAND_MAX)` in doubles: `ising.cpp` 114-118, `potts.cpp` 115-119. `exp` is a parameter. -/
noncomputable def hotIeee (exp : Num double → Num double) (kT : Num double) (M : Nat) (dE : ℚ) (k : Nat) : Bool :=
  open Classical in decide (less (of double k / of double M) (exp (-(of double ((dE : ℚ) : ℝ)) / kT)))

/-- `kT`, `ising.cpp` 57: 0.50 in two dimensions, 0.75 otherwise. -/
noncomputable def isingT (dim : Nat) : Num double := if dim = 2 then of double (1 / 2) else of double (3 / 4)

/-- `kT`, `potts.cpp` 58: 0.75 in three dimensions, 0.50 otherwise. -/
noncomputable def pottsT (dim : Nat) : Num double := if dim = 3 then of double (3 / 4) else of double (1 / 2)

/-- `sum`, `ising.cpp` 76-110, and `dE`, `potts.cpp` 77-111, accumulated in doubles. -/
noncomputable def sumDouble (bd : Build) (g : Shape) (data : Int → Int) (axes : List Nat) (x : Nat → Int) (spin1 spin2 : Int) : Outcome (Num double) :=
  boxFold (fun a y => (Stencil.gridAt bd g data y).bind fun spin => .ok (a + of double (change spin1 spin2 spin : Int))) axes x (of double (-1))

/-- `-0.5*J*sum-H*(spin2-spin1)` with `J = 2.0`, `H = 1.0` in doubles: `ising.cpp` 55-56, 111. -/
noncomputable def isingEnergyDouble (sum : Num double) (spin1 spin2 : Int) : Num double := of double (-1 / 2) * of double 2 * sum - of double 1 * of double ((spin2 - spin1 : Int) : ℝ)

/-- `dE *= J` with `J = 1.0` in doubles: `potts.cpp` 57, 112. -/
noncomputable def pottsEnergyDouble (sum : Num double) : Num double := sum * of double 1

/-- What is assumed of the `exp` of the mathematical library: for arguments up to 0 it is off by at most `2 ^ -46`. -/
def Accurate (exp : Num double → Num double) : Prop := ∀ a x, Is a x → x ≤ 0 → ∃ y, Is (exp a) y ∧ |y - Real.exp x| ≤ 1 / 2 ^ 46

/-! ## Energies are exact -/

theorem small_int {m : ℤ} (h : |m| ≤ 2 ^ 39) : Rep double (m : ℝ) ∧ |rnd double (m : ℝ)| < 2 ^ double.emax := by
  have := half_int (m := 2 * m) (by rw [abs_mul, abs_two]; omega)
  rwa [show (((2 * m : ℤ) : ℝ) / 2) = (m : ℝ) by push_cast; ring] at this

theorem add_int {a b : Num double} {m n : ℤ} (ha : Is a m) (hb : Is b n) (h : |m + n| ≤ 2 ^ 39) : Is (a + b) ((m + n : ℤ) : ℝ) := by
  obtain ⟨h1, h2⟩ := small_int h
  have e : (m : ℝ) + n = ((m + n : ℤ) : ℝ) := by push_cast; ring
  have := ha.add hb (by rw [e]; exact h2)
  rwa [e, rnd_rep double_p h1] at this

theorem sub_int {a b : Num double} {m n : ℤ} (ha : Is a m) (hb : Is b n) (h : |m - n| ≤ 2 ^ 39) : Is (a - b) ((m - n : ℤ) : ℝ) := by
  obtain ⟨h1, h2⟩ := small_int h
  have e : (m : ℝ) - n = ((m - n : ℤ) : ℝ) := by push_cast; ring
  have := ha.sub hb (by rw [e]; exact h2)
  rwa [e, rnd_rep double_p h1] at this

theorem mul_int {a b : Num double} {m n : ℤ} (ha : Is a m) (hb : Is b n) (h : |m * n| ≤ 2 ^ 39) : Is (a * b) ((m * n : ℤ) : ℝ) := by
  obtain ⟨h1, h2⟩ := small_int h
  have e : (m : ℝ) * n = ((m * n : ℤ) : ℝ) := by push_cast; ring
  have := ha.mul hb (by rw [e]; exact h2)
  rwa [e, rnd_rep double_p h1] at this

theorem change_le (a b s : Int) : |change a b s| ≤ 1 := by
  unfold change
  split_ifs <;> simp

/-- **C124.** Accumulated in doubles, the sums of `ising.cpp` and `potts.cpp` have no rounding error. -/
theorem sum_exact {bd : Build} {g : Shape} {d : Int → Int} {axes : List Nat} (hn : axes.Nodup) (hl : (offsets axes).length ≤ 2 ^ 30) {x : Nat → Int} {a b s : Int}
    (h : energySum bd g d axes x a b = .ok s) : ∃ e, sumDouble bd g d axes x a b = .ok e ∧ Is e (s : ℝ) ∧ |s| ≤ 2 ^ 31 := by
  unfold energySum at h
  unfold sumDouble
  rw [boxFold_eq _ hn] at h ⊢
  have key : ∀ (L : List (Nat → Int)) (c : Int) (e : Num double), |c| + L.length ≤ 2 ^ 31 → Is e (c : ℝ) → ∀ s,
      L.foldlM (fun t o => (Stencil.gridAt bd g d (shift x o)).bind fun spin => Outcome.ok (t + change a b spin)) c = .ok s →
      ∃ e', L.foldlM (fun t o => (Stencil.gridAt bd g d (shift x o)).bind fun spin => Outcome.ok (t + of double (change a b spin : Int))) e = .ok e' ∧ Is e' (s : ℝ) ∧ |s| ≤ 2 ^ 31 := by
    intro L
    induction L with
    | nil => intro c e hc he s hs; cases hs; exact ⟨e, rfl, he, by simpa using hc⟩
    | cons o L ih =>
      intro c e hc he s hs
      rw [List.foldlM_cons] at hs ⊢
      rw [List.length_cons] at hc
      push_cast at hc
      cases hg : Stencil.gridAt bd g d (shift x o) with
      | ok spin =>
        rw [hg, Outcome.ok_bind, Outcome.bind_eq, Outcome.ok_bind] at hs
        rw [Outcome.ok_bind, Outcome.bind_eq, Outcome.ok_bind]
        have h1 := change_le a b spin
        have h2 := abs_add_le c (change a b spin)
        exact ih _ _ (by omega) (add_int he (of_int (by omega)) (by omega)) s hs
      | _ => rw [hg] at hs; cases hs
  refine key (offsets axes) (-1) _ (by rw [abs_neg, abs_one]; omega) ?_ s h
  have := of_int (m := -1) (by norm_num)
  exact_mod_cast this

/-- **C124.** So have the energy changes of the Ising example. -/
theorem ising_exact {e : Num double} {s a b : Int} (he : Is e (s : ℝ)) (hs : |s| ≤ 2 ^ 31) (hab : |b - a| ≤ 2 ^ 31) :
    Is (isingEnergyDouble e a b) ((isingEnergy s a b : ℚ) : ℝ) := by
  have i1 : Is (of double (-1 / 2)) (((-1 : ℤ) : ℝ) / 2) := by have := of_half (m := -1) (by norm_num); push_cast at this ⊢; exact this
  have i2 : Is (of double 2) ((2 : ℤ) : ℝ) := by have := of_int (m := 2) (by norm_num); push_cast at this ⊢; exact this
  have i3 : Is (of double (-1 / 2) * of double 2) ((-1 : ℤ) : ℝ) := by
    obtain ⟨h1, h2⟩ := small_int (m := -1) (by norm_num)
    have e : ((-1 : ℤ) : ℝ) / 2 * ((2 : ℤ) : ℝ) = ((-1 : ℤ) : ℝ) := by push_cast; ring
    have := i1.mul i2 (by rw [e]; exact h2)
    rwa [e, rnd_rep double_p h1] at this
  have i4 := mul_int i3 he (by rw [neg_one_mul, abs_neg]; omega)
  have i5 : Is (of double 1) ((1 : ℤ) : ℝ) := by have := of_int (m := 1) (by norm_num); push_cast at this ⊢; exact this
  have i6 := mul_int i5 (of_int (m := b - a) (by omega)) (by rw [one_mul]; omega)
  have h3 := abs_sub (-1 * s) (1 * (b - a))
  rw [neg_one_mul, abs_neg, one_mul] at h3
  have i7 := sub_int i4 i6 (by rw [neg_one_mul, one_mul]; omega)
  unfold isingEnergyDouble
  convert i7 using 1
  unfold isingEnergy
  push_cast
  ring

/-- **C124.** And those of the Potts example. -/
theorem potts_exact {e : Num double} {s : Int} (he : Is e (s : ℝ)) (hs : |s| ≤ 2 ^ 31) : Is (pottsEnergyDouble e) (s : ℝ) := by
  have i5 : Is (of double 1) ((1 : ℤ) : ℝ) := by have := of_int (m := 1) (by norm_num); push_cast at this ⊢; exact this
  have := mul_int he i5 (by rw [mul_one]; omega)
  rwa [mul_one] at this

theorem is_of {a : Num double} {x : ℝ} (h : Is a x) : a = of double x := by
  obtain ⟨h1, rfl⟩ := h
  have e := rnd_rep double_p h1.1
  obtain ⟨h2, e2⟩ := of_is (f := double) (x := x) (by rw [e]; exact h1.2)
  rw [e2]
  congr 1
  exact e.symm

/-- **C124.** The test made with the energy change that the Ising example accumulates in doubles is `hotIeee` at the exact energy change. -/
theorem ising_test {bd : Build} {g : Shape} {d : Int → Int} {axes : List Nat} (hn : axes.Nodup) (hl : (offsets axes).length ≤ 2 ^ 30) {x : Nat → Int} {a b s : Int}
    (hab : |b - a| ≤ 2 ^ 31) (h : energySum bd g d axes x a b = .ok s) (exp : Num double → Num double) (kT : Num double) (M k : Nat) :
    ∃ e, sumDouble bd g d axes x a b = .ok e ∧
      (hotIeee exp kT M (isingEnergy s a b) k = true ↔ less (of double k / of double M) (exp (-(isingEnergyDouble e a b) / kT))) := by
  obtain ⟨e, h1, h2, h3⟩ := sum_exact hn hl h
  refine ⟨e, h1, ?_⟩
  rw [is_of (ising_exact h2 h3 hab)]
  exact @decide_eq_true_iff _ (Classical.propDecidable _)

/-- **C124.** So is the one of the Potts example. -/
theorem potts_test {bd : Build} {g : Shape} {d : Int → Int} {axes : List Nat} (hn : axes.Nodup) (hl : (offsets axes).length ≤ 2 ^ 30) {x : Nat → Int} {a b s : Int}
    (h : energySum bd g d axes x a b = .ok s) (exp : Num double → Num double) (kT : Num double) (M k : Nat) :
    ∃ e, sumDouble bd g d axes x a b = .ok e ∧ (hotIeee exp kT M s k = true ↔ less (of double k / of double M) (exp (-(pottsEnergyDouble e) / kT))) := by
  obtain ⟨e, h1, h2, h3⟩ := sum_exact hn hl h
  refine ⟨e, h1, ?_⟩
  rw [is_of (potts_exact h2 h3), show (s : ℝ) = (((s : ℤ) : ℚ) : ℝ) by push_cast; rfl]
  exact @decide_eq_true_iff _ (Classical.propDecidable _)

/-! ## The test differs for at most one number -/

theorem exp_lipschitz {u v : ℝ} (hu : u ≤ 0) (hv : v ≤ 0) : |Real.exp u - Real.exp v| ≤ |u - v| := by
  have key : ∀ a b : ℝ, b ≤ 0 → a ≤ b → |Real.exp a - Real.exp b| ≤ |a - b| := by
    intro a b hb hab
    rw [abs_of_nonpos (by linarith [Real.exp_le_exp.2 hab]), abs_of_nonpos (by linarith)]
    have e : Real.exp a = Real.exp b * Real.exp (a - b) := by rw [← Real.exp_add]; congr 1; ring
    have h1 := Real.add_one_le_exp (a - b)
    have h2 : Real.exp b ≤ 1 := by rw [← Real.exp_zero]; exact Real.exp_le_exp.2 hb
    have h3 := Real.exp_pos b
    have h4 : Real.exp (a - b) ≤ 1 := by rw [← Real.exp_zero]; exact Real.exp_le_exp.2 (by linarith)
    rw [e]
    nlinarith
  rcases le_total u v with h | h
  · exact key u v hv h
  · rw [abs_sub_comm, abs_sub_comm u]; exact key v u hu h

/-- If the test in doubles comes out differently, the number drawn is next to the threshold. -/
theorem differs_near {exp : Num double → Num double} (hexp : Accurate exp) {kT : Num double} {t : ℝ} (ht : Is kT t) (h1 : 1 / 2 ≤ t) {M : Nat} (hM0 : 0 < M)
    (hM : M ≤ 2 ^ 39) {m : ℤ} (m0 : 0 < m) (m1 : m ≤ 64) {k : Nat} (hk : k ≤ M) (hd : hotIeee exp kT M m k ≠ hot M t m k) : |(k : ℝ) / M - Real.exp (-(m : ℝ) / t)| ≤ 1 / 2 ^ 44 := by
  have tp : 0 < t := by linarith
  have hm0 : (1 : ℝ) ≤ m := by exact_mod_cast m0
  have hm1 : (m : ℝ) ≤ 64 := by exact_mod_cast m1
  have hε := IeeeConfine.ε_double
  have htiny := IeeeConfine.tiny_double
  have htop := IeeeConfine.top_double
  -- the energy
  have i1 := (of_int (m := m) (by rw [abs_of_pos m0]; omega)).neg double_p
  have q0 : -(m : ℝ) / t ≤ 0 := div_nonpos_of_nonpos_of_nonneg (by linarith) tp.le
  have q1 : -128 ≤ -(m : ℝ) / t := by rw [le_div_iff₀ tp]; linarith
  have r0 : rnd double (-(m : ℝ) / t) ≤ 0 := by have := rnd_mono double_p q0; rwa [rnd_zero] at this
  have r1 : |rnd double (-(m : ℝ) / t) - -(m : ℝ) / t| ≤ 1 / 2 ^ 46 := by
    refine (rnd_err double _).trans ?_
    have : max |-(m : ℝ) / t| (tiny double) ≤ 128 := max_le (abs_le.2 ⟨q1, by linarith⟩) (htiny.trans (by norm_num))
    rw [hε]
    calc (1 / 9007199254740992 : ℝ) * max |-(m : ℝ) / t| (tiny double) ≤ 1 / 9007199254740992 * 128 := mul_le_mul_of_nonneg_left this (by norm_num)
      _ ≤ _ := by norm_num
  have i2 := i1.div ht tp.ne' (by
    refine lt_of_lt_of_le ?_ htop
    have := abs_le.1 r1
    have : (1 : ℝ) / 2 ^ 46 ≤ 1 := by norm_num
    have : (130 : ℝ) < 2 ^ 100 := by norm_num
    rw [abs_of_nonpos r0]
    linarith [abs_le.1 r1])
  obtain ⟨P, hP, hPe⟩ := hexp _ _ i2 r0
  have hlip := exp_lipschitz r0 q0
  -- the random number
  have hMr : (0 : ℝ) < M := by exact_mod_cast hM0
  have i3 : Is (of double (k : ℝ)) (k : ℝ) := by have := of_int (m := (k : ℤ)) (by rw [abs_of_nonneg (by omega)]; omega); exact_mod_cast this
  have i4 : Is (of double (M : ℝ)) (M : ℝ) := by have := of_int (m := (M : ℤ)) (by rw [abs_of_nonneg (by omega)]; omega); exact_mod_cast this
  have k0 : 0 ≤ (k : ℝ) / M := by positivity
  have k1 : (k : ℝ) / M ≤ 1 := by rw [div_le_one hMr]; exact_mod_cast hk
  have r2 : |rnd double ((k : ℝ) / M) - (k : ℝ) / M| ≤ 1 / 2 ^ 46 := by
    refine (rnd_err double _).trans ?_
    have : max |(k : ℝ) / M| (tiny double) ≤ 1 := max_le (by rw [abs_of_nonneg k0]; exact k1) (htiny.trans (by norm_num))
    rw [hε]
    calc (1 / 9007199254740992 : ℝ) * max |(k : ℝ) / M| (tiny double) ≤ 1 / 9007199254740992 * 1 := mul_le_mul_of_nonneg_left this (by norm_num)
      _ ≤ _ := by norm_num
  have i5 := i3.div i4 hMr.ne' (by
    refine lt_of_lt_of_le ?_ htop
    rw [abs_of_nonneg (rnd_nonneg k0)]
    have : (1 : ℝ) / 2 ^ 46 ≤ 1 := by norm_num
    have : (130 : ℝ) < 2 ^ 100 := by norm_num
    linarith [abs_le.1 r2])
  have hl : hotIeee exp kT M m k = true ↔ rnd double ((k : ℝ) / M) < P := by
    unfold hotIeee
    refine Iff.trans (@decide_eq_true_iff _ (Classical.propDecidable _)) ?_
    constructor
    · rintro ⟨x, y, hx, hy, hlt⟩
      rw [Rat.cast_intCast] at hy
      rw [i5.unique hx, hP.unique hy]
      exact hlt
    · intro h
      exact ⟨_, _, i5, by rw [Rat.cast_intCast]; exact hP, h⟩
  have hr : hot M t m k = true ↔ (k : ℝ) / M < Real.exp (-(m : ℝ) / t) := by
    unfold SpinSampling.hot
    rw [decide_eq_true_iff, Rat.cast_intCast]
  have a1 := abs_le.1 r1
  have a2 := abs_le.1 r2
  have a3 := abs_le.1 hPe
  have a4 := abs_le.1 (hlip.trans r1)
  have e44 : (1 : ℝ) / 2 ^ 44 = 4 * (1 / 2 ^ 46) := by norm_num
  rw [e44, abs_le]
  by_cases h : rnd double ((k : ℝ) / M) < P
  · have : ¬ (k : ℝ) / M < Real.exp (-(m : ℝ) / t) := fun h' => hd (by rw [hl.2 h, hr.2 h'])
    constructor <;> linarith
  · have : (k : ℝ) / M < Real.exp (-(m : ℝ) / t) := by
      by_contra h'
      apply hd
      rw [Bool.eq_false_iff.2 fun h2 => h (hl.1 h2), Bool.eq_false_iff.2 fun h2 => h' (hr.1 h2)]
    constructor <;> linarith

/-- **C124.** For a given energy change the test in doubles and the exact one differ for at most one of the numbers that `rand()` can return. -/
theorem differs_once {exp : Num double → Num double} (hexp : Accurate exp) {kT : Num double} {t : ℝ} (ht : Is kT t) (h1 : 1 / 2 ≤ t) {M : Nat} (hM0 : 0 < M)
    (hM : M ≤ 2 ^ 39) {m : ℤ} (m0 : 0 < m) (m1 : m ≤ 64) {k k' : Nat} (hk : k ≤ M) (hk' : k' ≤ M) (hd : hotIeee exp kT M m k ≠ hot M t m k)
    (hd' : hotIeee exp kT M m k' ≠ hot M t m k') : k = k' := by
  have a := abs_le.1 (differs_near hexp ht h1 hM0 hM m0 m1 hk hd)
  have b := abs_le.1 (differs_near hexp ht h1 hM0 hM m0 m1 hk' hd')
  have hMr : (0 : ℝ) < M := by exact_mod_cast hM0
  have hM1 : (M : ℝ) ≤ 2 ^ 39 := by exact_mod_cast hM
  have key : ∀ i j : Nat, i < j → (j : ℝ) / M - (i : ℝ) / M ≤ 2 * (1 / 2 ^ 44) → False := by
    intro i j hij h
    have h3 : (i : ℝ) + 1 ≤ j := by exact_mod_cast hij
    rw [← sub_div, div_le_iff₀ hMr] at h
    have h4 : 2 * (1 / 2 ^ 44) * (M : ℝ) ≤ 2 * (1 / 2 ^ 44) * 2 ^ 39 := mul_le_mul_of_nonneg_left hM1 (by norm_num)
    have h5 : (2 : ℝ) * (1 / 2 ^ 44) * 2 ^ 39 < 1 := by norm_num
    linarith
  rcases Nat.lt_trichotomy k k' with h | h | h
  · exact (key k k' h (by linarith)).elim
  · exact h
  · exact (key k' k h (by linarith)).elim

/-! ## Two walks with the same draws -/

section
variable {Ω D : Type} [Fintype Ω] [Fintype D] [Nonempty D] {step step' : Ω → D → Ω}

theorem walks_two (n : Nat) (a b : Ω) : ∑ c, |walk step n a c - walk step n b c| ≤ 2 := by
  calc ∑ c, |walk step n a c - walk step n b c| ≤ ∑ c, (walk step n a c + walk step n b c) :=
        Finset.sum_le_sum fun c _ => abs_le.2 ⟨by linarith [walk_nonneg step n a c, walk_nonneg step n b c], by linarith [walk_nonneg step n a c, walk_nonneg step n b c]⟩
    _ = 2 := by rw [Finset.sum_add_distrib, walk_total, walk_total]; norm_num

/-- If a step differs for a share of at most `δ` of the draws, the distributions after `n` steps differ by at most `2 n δ` in total. -/
theorem walks_close {δ : ℝ} (h : ∀ a, share (fun r => step a r ≠ step' a r) ≤ δ) (n : Nat) (a : Ω) : ∑ b, |walk step n a b - walk step' n a b| ≤ n * (2 * δ) := by
  induction n generalizing a with
  | zero => simp [walk_zero]
  | succ n ih =>
    have hD : (0 : ℝ) < Fintype.card D := by exact_mod_cast Fintype.card_pos
    have one : ∀ r, ∑ b, |walk step n (step a r) b - walk step' n (step' a r) b| ≤ n * (2 * δ) + 2 * ind (step a r ≠ step' a r) := by
      intro r
      by_cases e : step a r = step' a r
      · rw [ind_neg (not_not.2 e), mul_zero, add_zero, ← e]; exact ih _
      · rw [ind_pos e, mul_one]
        calc ∑ b, |walk step n (step a r) b - walk step' n (step' a r) b|
            ≤ ∑ b, (|walk step n (step a r) b - walk step' n (step a r) b| + |walk step' n (step a r) b - walk step' n (step' a r) b|) :=
              Finset.sum_le_sum fun b _ => abs_sub_le _ _ _
          _ ≤ _ := by rw [Finset.sum_add_distrib]; exact add_le_add (ih _) (walks_two n _ _)
    calc ∑ b, |walk step (n + 1) a b - walk step' (n + 1) a b|
        ≤ ∑ b, (∑ r, |walk step n (step a r) b - walk step' n (step' a r) b|) / Fintype.card D := by
          refine Finset.sum_le_sum fun b _ => ?_
          rw [walk_cons, walk_cons, ← sub_div, ← Finset.sum_sub_distrib, abs_div, abs_of_pos hD]
          exact div_le_div_of_nonneg_right (Finset.abs_sum_le_sum_abs _ _) hD.le
      _ = (∑ r, ∑ b, |walk step n (step a r) b - walk step' n (step' a r) b|) / Fintype.card D := by rw [← Finset.sum_div, Finset.sum_comm]
      _ ≤ (∑ r : D, (n * (2 * δ) + 2 * ind (step a r ≠ step' a r))) / Fintype.card D := div_le_div_of_nonneg_right (Finset.sum_le_sum fun r _ => one r) hD.le
      _ = n * (2 * δ) + 2 * share (fun r => step a r ≠ step' a r) := by
          rw [share_eq, Finset.sum_add_distrib, Finset.sum_const, nsmul_eq_mul, Finset.card_univ, ← Finset.mul_sum, add_div, mul_div_cancel_left₀ _ hD.ne', mul_div_assoc]
      _ ≤ _ := by push_cast; linarith [h a]

end

theorem share_slices {P : Type} [Fintype P] [Nonempty P] {K : Type} [Fintype K] [Nonempty K] {Q : P → K → Prop} {δ : ℝ} (h : ∀ p, share (Q p) ≤ δ) : share (fun r : P × K => Q r.1 r.2) ≤ δ := by
  have hP : (0 : ℝ) < Fintype.card P := by exact_mod_cast Fintype.card_pos
  have hK : (0 : ℝ) < Fintype.card K := by exact_mod_cast Fintype.card_pos
  rw [share_eq, Fintype.sum_prod_type, Fintype.card_prod, div_le_iff₀ (by push_cast; positivity)]
  have h1 : ∀ p, ∑ k, ind (Q p k) ≤ δ * Fintype.card K := by
    intro p
    have := h p
    rwa [share_eq, div_le_iff₀ hK] at this
  calc ∑ p, ∑ k, ind (Q p k) ≤ ∑ _p : P, δ * Fintype.card K := Finset.sum_le_sum fun p _ => h1 p
    _ = _ := by rw [Finset.sum_const, nsmul_eq_mul, Finset.card_univ]; push_cast; ring

theorem share_once {M : Nat} {Q : Fin (M + 1) → Prop} (h : ∀ k k', Q k → Q k' → k = k') : share Q ≤ 1 / (M + 1) := by
  classical
  unfold share
  rw [Fintype.card_fin]
  push_cast
  refine div_le_div_of_nonneg_right ?_ (by positivity)
  have : #{k | Q k} ≤ 1 := Finset.card_le_one.2 fun a ha b hb => h a b (Finset.mem_filter.1 ha).2 (Finset.mem_filter.1 hb).2
  exact_mod_cast this

/-! ## Attempts as choices -/

/-- The attempt decides between the configuration it is given and another one by `dE<=0.0` or the test, with an energy change that is a small integer. -/
def Chooses {Ω A P : Type} (code : Ω → A) (f : (ℚ → Nat → Bool) → A → P → Nat → Outcome A) : Prop :=
  ∀ a p, ∃ m : ℤ, m ≤ 64 ∧ ∃ b, ∀ h k, f h (code a) p k = .ok (code (if (m : ℚ) ≤ 0 ∨ h m k = true then b else a))

section
variable {Ω A P : Type} [Fintype Ω] [Fintype P] [Nonempty P] {code : Ω → A} {f : (ℚ → Nat → Bool) → A → P → Nat → Outcome A} {M : Nat}

/-- The step of the walk that the program makes with the test `h`. -/
noncomputable def chosen (hc : Chooses code f) (h : ℚ → Nat → Bool) (a : Ω) (r : P × Fin (M + 1)) : Ω :=
  if ((hc a r.1).choose : ℚ) ≤ 0 ∨ h (hc a r.1).choose r.2 = true then (hc a r.1).choose_spec.2.choose else a

omit [Fintype Ω] [Fintype P] [Nonempty P] in
theorem chosen_spec (hc : Chooses code f) (h : ℚ → Nat → Bool) (a : Ω) (r : P × Fin (M + 1)) : f h (code a) r.1 r.2 = .ok (code (chosen hc h a r)) :=
  (hc a r.1).choose_spec.2.choose_spec h r.2

/-- Probability that `n` attempts with the test `h` lead from `a` to `b`. -/
noncomputable def chance (f : (ℚ → Nat → Bool) → A → P → Nat → Outcome A) (code : Ω → A) (M : Nat) (h : ℚ → Nat → Bool) (n : Nat) (a b : Ω) : ℝ :=
  share fun rs : Fin n → P × Fin (M + 1) => (List.ofFn rs).foldlM (fun d r => f h d r.1 r.2) (code a) = .ok (code b)

omit [Fintype Ω] [Nonempty P] in
theorem chance_walk (hc : Chooses code f) (hinj : Function.Injective code) (h : ℚ → Nat → Bool) (n : Nat) (a b : Ω) : chance f code M h n a b = walk (chosen (M := M) hc h) n a b := by
  unfold chance walk
  refine share_congr fun rs => ?_
  rw [fold_array (f := fun d (r : P × Fin (M + 1)) => f h d r.1 r.2) (chosen_spec hc h)]
  constructor
  · intro e; injection e with e; exact hinj e
  · intro e; rw [e]

/-- The test in doubles changes the distribution after `n` attempts by at most `2 n / (RAND_MAX+1)`. -/
theorem chance_close (hc : Chooses code f) (hinj : Function.Injective code) {exp : Num double → Num double} (hexp : Accurate exp) {kT : Num double} {t : ℝ} (ht : Is kT t)
    (h1 : 1 / 2 ≤ t) (hM0 : 0 < M) (hM : M ≤ 2 ^ 39) (n : Nat) (a : Ω) :
    ∑ b, |chance f code M (hotIeee exp kT M) n a b - chance f code M (hot M t) n a b| ≤ n * (2 / (M + 1)) := by
  simp only [chance_walk hc hinj]
  have := walks_close (step := chosen (M := M) hc (hotIeee exp kT M)) (step' := chosen hc (hot M t)) (δ := 1 / (M + 1)) (fun a => share_slices
    (Q := fun p k => chosen hc (hotIeee exp kT M) a (p, k) ≠ chosen hc (hot M t) a (p, k)) fun p => share_once fun k k' hk hk' => ?_) n a
  · rwa [mul_one_div] at this
  · have key : ∀ k : Fin (M + 1), chosen hc (hotIeee exp kT M) a (p, k) ≠ chosen hc (hot M t) a (p, k) →
        0 < (hc a p).choose ∧ hotIeee exp kT M (hc a p).choose k ≠ hot M t (hc a p).choose k := by
      intro k hne
      unfold chosen at hne
      dsimp only at hne
      refine ⟨?_, fun e => hne (by rw [e])⟩
      by_contra h0
      have h3 : ((hc a p).choose : ℚ) ≤ 0 := by exact_mod_cast not_lt.1 h0
      rw [if_pos (Or.inl h3), if_pos (Or.inl h3)] at hne
      exact hne rfl
    exact Fin.ext (differs_once hexp ht h1 hM0 hM (key k hk).1 (hc a p).choose_spec.1 (by omega) (by omega) (key k hk).2 (key k' hk').2)

end

/-! ## Ising and Potts -/

theorem box_27 {dim : Nat} (h : dim ≤ 3) : (offsets (List.range dim)).length ≤ 27 := by
  interval_cases dim <;> simp [List.range_succ, offsets]

theorem sum_le {axes : List Nat} (h : (offsets axes).length ≤ 27) (F : (Nat → Int) → Int) (hF : ∀ o, |F o| ≤ 1) : |((offsets axes).map F).sum| ≤ 27 := by
  have key : ∀ L : List (Nat → Int), |(L.map F).sum| ≤ L.length := by
    intro L
    induction L with
    | nil => simp
    | cons o L ih =>
      rw [List.map_cons, List.sum_cons, List.length_cons]
      have := abs_add_le (F o) (L.map F).sum
      have := hF o
      push_cast
      omega
  have := key (offsets axes)
  omega

section
variable {g : Shape}

/-- One attempted flip of the Ising example, with the numbers drawn for the site and for the test. -/
def isingAttempt {M : Nat} (g : Shape) (h : ℚ → Nat → Bool) (d : Int → Int) (p : Fin (M + 1)) (k : Nat) : Outcome (Int → Int) := isingFlip .serial g h d (p.1, k)

theorem ising_chooses (ht : Torus g) (hd : g.dim ≤ 3) (M : Nat) : Chooses (array spin (N := g.nodes.toNat)) (isingAttempt (M := M) g) := by
  intro σ p
  have hpos := nodes_pos ht
  have hm := Nat.mod_lt p.1 hpos
  set m : Fin g.nodes.toNat := ⟨p.1 % g.nodes.toNat, hm⟩ with hmdef
  set s : Int := -1 + ((offsets (List.range g.dim)).map fun o => change (array spin σ ((m : Nat) : Int)) (-array spin σ ((m : Nat) : Int)) (array spin σ (nbr g o ((m : Nat) : Int)))).sum with hs
  have hsum : energySum .serial g (array spin σ) (List.range g.dim) (g.position ((m : Nat) : Int)) (array spin σ ((m : Nat) : Int)) (-array spin σ ((m : Nat) : Int)) = .ok s :=
    boxSum_eq ht List.nodup_range (array spin σ) (change _ _) (by omega) (by have := m.2; omega) (-1)
  have hs27 := sum_le (box_27 hd) (fun o => change (array spin σ ((m : Nat) : Int)) (-array spin σ ((m : Nat) : Int)) (array spin σ (nbr g o ((m : Nat) : Int)))) fun o => change_le _ _ _
  have hv : array spin σ ((m : Nat) : Int) = spin (σ m) := array_at spin σ m
  have hv1 : array spin σ ((m : Nat) : Int) = 1 ∨ array spin σ ((m : Nat) : Int) = -1 := by rw [hv]; cases σ m <;> decide
  have hle := abs_le.1 hs27
  refine ⟨-s - (-array spin σ ((m : Nat) : Int) - array spin σ ((m : Nat) : Int)), by omega, Function.update σ m (!σ m), fun h k => ?_⟩
  obtain ⟨s', e0, e⟩ := isingFlip_at ht h (array spin σ) (p.1, k)
  have e1 : s' = s := by
    have := e0.symm.trans hsum
    injection this
  subst e1
  have hE : isingEnergy s (array spin σ ((m : Nat) : Int)) (-array spin σ ((m : Nat) : Int)) = ((-s - (-array spin σ ((m : Nat) : Int) - array spin σ ((m : Nat) : Int)) : ℤ) : ℚ) := by
    unfold isingEnergy; push_cast; ring
  have e2 : isingAttempt g h (array spin σ) p k = .ok (if isingEnergy s (array spin σ ((m : Nat) : Int)) (-array spin σ ((m : Nat) : Int)) ≤ 0 ∨
      h (isingEnergy s (array spin σ ((m : Nat) : Int)) (-array spin σ ((m : Nat) : Int))) k = true
      then Function.update (array spin σ) ((m : Nat) : Int) (-array spin σ ((m : Nat) : Int)) else array spin σ) := e
  have hup : Function.update (array spin σ) ((m : Nat) : Int) (-array spin σ ((m : Nat) : Int)) = array spin (Function.update σ m (!σ m)) := by
    rw [hv, ← spin_not, array_update]
  rw [e2, hE, hup]
  split_ifs <;> rfl

/-- Probability that `n` attempted flips of the Ising example in doubles lead from `σ` to `τ`. -/
noncomputable def isingChanceIeee (g : Shape) (exp : Num double → Num double) (M : Nat) (n : Nat) (σ τ : Fin g.nodes.toNat → Bool) : ℝ :=
  share fun rs : Fin n → Fin (M + 1) × Fin (M + 1) => isingRun .serial g (hotIeee exp (isingT g.dim) M) (isingDraws rs) (array spin σ) = .ok (array spin τ)

theorem ising_chance (M : Nat) (h : ℚ → Nat → Bool) (n : Nat) (σ τ : Fin g.nodes.toNat → Bool) :
    share (fun rs : Fin n → Fin (M + 1) × Fin (M + 1) => isingRun .serial g h (isingDraws rs) (array spin σ) = .ok (array spin τ)) =
      chance (isingAttempt (M := M) g) (array spin) M h n σ τ := by
  unfold chance
  refine share_congr fun rs => ?_
  unfold isingRun isingDraws
  rw [show (List.ofFn fun i => ((rs i).1.1, (rs i).2.1)) = (List.ofFn rs).map fun r => (r.1.1, r.2.1) by rw [List.map_ofFn]; rfl, List.foldlM_map]
  rfl

/-- The value of `kT` in the Ising example. -/
noncomputable def isingTemp (dim : Nat) : ℝ := if dim = 2 then 1 / 2 else 3 / 4

/-- The value of `kT` in the Potts example. -/
noncomputable def pottsTemp (dim : Nat) : ℝ := if dim = 3 then 3 / 4 else 1 / 2

theorem three_quarters : Is (of double (3 / 4)) (3 / 4) := by
  have hr : Rep double (3 / 4) := ⟨3, -2, by decide, by decide, by norm_num⟩
  have := of_is (f := double) (x := 3 / 4) (by
    rw [rnd_rep double_p hr]
    refine lt_of_lt_of_le ?_ IeeeConfine.top_double
    norm_num)
  rwa [rnd_rep double_p hr] at this

theorem one_half : Is (of double (1 / 2)) (1 / 2) := by have := of_half (m := 1) (by norm_num); push_cast at this; exact this

/-- **C124.** The temperatures in the files are exact. -/
theorem temp_exact (dim : Nat) : Is (isingT dim) (isingTemp dim) ∧ Is (pottsT dim) (pottsTemp dim) := by
  unfold isingT isingTemp pottsT pottsTemp
  constructor
  · split_ifs; exact one_half; exact three_quarters
  · split_ifs; exact three_quarters; exact one_half

/-- **C124.** The Ising example in doubles and with exact arithmetic: after `n` attempts the distributions differ by at most `2 n / (RAND_MAX+1)` in total. -/
theorem ising_close (ht : Torus g) (hd : g.dim ≤ 3) {exp : Num double → Num double} (hexp : Accurate exp) {M : Nat} (hM0 : 0 < M) (hM : M ≤ 2 ^ 39) (n : Nat)
    (σ : Fin g.nodes.toNat → Bool) : ∑ τ, |isingChanceIeee g exp M n σ τ - isingChance g M (isingTemp g.dim) n σ τ| ≤ n * (2 / (M + 1)) := by
  unfold isingChanceIeee isingChance
  simp only [ising_chance]
  exact chance_close (ising_chooses ht hd M) (fun _ _ h => array_inj spin_inj h) hexp (temp_exact g.dim).1 (by unfold isingTemp; split_ifs <;> norm_num)
    hM0 hM n σ

/-- **C124.** The Ising example in doubles approaches the Gibbs distribution from any configuration, up to `4 n / (RAND_MAX+1)`. -/
theorem ising_ieee_samples (ht : Torus g) (hside : ∀ j < g.dim, 2 ≤ g.x1 j - g.x0 j) (hd : g.dim ≤ 3) {exp : Num double → Num double} (hexp : Accurate exp) {M : Nat} (hM0 : 0 < M)
    (hM : M ≤ 2 ^ 39) (hN : g.nodes.toNat ≤ M + 1) :
    ∃ (K : Nat) (ρ : ℝ), 0 < K ∧ 0 < ρ ∧ ρ < 1 ∧
      ∀ n σ, ∑ τ, |isingChanceIeee g exp M n σ τ - gibbs (isingTemp g.dim) (isingE g) (fun _ => 1) τ| ≤ 2 * ρ ^ (n / K) + n * (4 / (M + 1)) := by
  obtain ⟨K, ρ, h1, h2, h3, h⟩ := ising_samples ht hside hM0 hN (kT := isingTemp g.dim) (by unfold isingTemp; split_ifs <;> norm_num)
  refine ⟨K, ρ, h1, h2, h3, fun n σ => ?_⟩
  calc ∑ τ, |isingChanceIeee g exp M n σ τ - gibbs (isingTemp g.dim) (isingE g) (fun _ => 1) τ|
      ≤ ∑ τ, (|isingChanceIeee g exp M n σ τ - isingChance g M (isingTemp g.dim) n σ τ| + |isingChance g M (isingTemp g.dim) n σ τ - gibbs (isingTemp g.dim) (isingE g) (fun _ => 1) τ|) :=
        Finset.sum_le_sum fun τ _ => abs_sub_le _ _ _
    _ ≤ n * (2 / (M + 1)) + (2 * ρ ^ (n / K) + n * (2 / (M + 1))) := by
        rw [Finset.sum_add_distrib]
        exact add_le_add (ising_close ht hd hexp hM0 hM n σ) (h n σ)
    _ = _ := by ring

/-- One attempted change of the Potts example, with the numbers drawn for site, spin and test. -/
def pottsAttempt {M : Nat} (g : Shape) (h : ℚ → Nat → Bool) (d : Int → Int) (p : Fin (M + 1) × Fin (M + 1)) (k : Nat) : Outcome (Int → Int) := pottsFlip .serial g h d (p.1.1, p.2.1, k)

theorem potts_chooses (ht : Torus g) (M : Nat) : Chooses (array colour (N := g.nodes.toNat)) (pottsAttempt (M := M) g) := by
  intro σ p
  have hpos := nodes_pos ht
  have hm := Nat.mod_lt p.1.1 hpos
  set m : Fin g.nodes.toNat := ⟨p.1.1 % g.nodes.toNat, hm⟩ with hmdef
  set v : Fin 20 := ⟨p.2.1 % 20, Nat.mod_lt _ (by decide)⟩ with hv
  obtain ⟨s, hs, hle⟩ : ∃ s, pottsSum .serial g (array colour σ) (g.position ((m : Nat) : Int)) (array colour σ ((m : Nat) : Int)) (p.2.1 % 20 : Nat) = .ok s ∧ s ≤ 64 := by
    unfold pottsSum
    have h := fun {axes : List Nat} (hn : axes.Nodup) =>
      boxSum_eq ht hn (array colour σ) (change (array colour σ (m.1 : Nat)) (p.2.1 % 20 : Nat)) (n := (m.1 : Nat)) (by omega) (by have := m.2; omega) (-1)
    have hb := fun {axes : List Nat} (hl : (offsets axes).length ≤ 27) =>
      abs_le.1 (sum_le hl (fun o => change (array colour σ (m.1 : Nat)) (p.2.1 % 20 : Nat) (array colour σ (nbr g o ((m : Nat) : Int)))) fun o => change_le _ _ _)
    split_ifs
    · exact ⟨_, h (by decide), by have := hb (axes := [0]) (by simp [offsets]); omega⟩
    · exact ⟨_, h (by decide), by have := hb (axes := [0, 1, 2]) (by simp [offsets]); omega⟩
    · exact ⟨_, rfl, by decide⟩
  refine ⟨s, hle, Function.update σ m v, fun h k => ?_⟩
  have e := pottsFlip_eq ht h (array colour σ) (p.1.1, p.2.1, k) (m := m.1) rfl hs
  have hup : Function.update (array colour σ) ((m : Nat) : Int) ((p.2.1 % 20 : Nat) : Int) = array colour (Function.update σ m v) := by
    rw [← array_update colour σ m v, hv]; rfl
  unfold pottsAttempt
  rw [e]
  dsimp only
  rw [hup]
  split_ifs <;> rfl

/-- Probability that `n` attempted changes of the Potts example in doubles lead from `σ` to `τ`. -/
noncomputable def pottsChanceIeee (g : Shape) (exp : Num double → Num double) (M : Nat) (n : Nat) (σ τ : Fin g.nodes.toNat → Fin 20) : ℝ :=
  share fun rs : Fin n → (Fin (M + 1) × Fin (M + 1)) × Fin (M + 1) => pottsRun .serial g (hotIeee exp (pottsT g.dim) M) (pottsDraws rs) (array colour σ) = .ok (array colour τ)

theorem potts_chance (M : Nat) (h : ℚ → Nat → Bool) (n : Nat) (σ τ : Fin g.nodes.toNat → Fin 20) :
    share (fun rs : Fin n → (Fin (M + 1) × Fin (M + 1)) × Fin (M + 1) => pottsRun .serial g h (pottsDraws rs) (array colour σ) = .ok (array colour τ)) =
      chance (pottsAttempt (M := M) g) (array colour) M h n σ τ := by
  unfold chance
  refine share_congr fun rs => ?_
  unfold pottsRun pottsDraws
  rw [show (List.ofFn fun i => ((rs i).1.1.1, (rs i).1.2.1, (rs i).2.1)) = (List.ofFn rs).map fun r => (r.1.1.1, r.1.2.1, r.2.1) by rw [List.map_ofFn]; rfl, List.foldlM_map]
  rfl

/-- **C124.** The Potts example in doubles and with exact arithmetic. -/
theorem potts_close (ht : Torus g) {exp : Num double → Num double} (hexp : Accurate exp) {M : Nat} (hM0 : 0 < M) (hM : M ≤ 2 ^ 39) (n : Nat)
    (σ : Fin g.nodes.toNat → Fin 20) : ∑ τ, |pottsChanceIeee g exp M n σ τ - pottsChance g M (pottsTemp g.dim) n σ τ| ≤ n * (2 / (M + 1)) := by
  unfold pottsChanceIeee pottsChance
  simp only [potts_chance]
  exact chance_close (potts_chooses ht M) (fun _ _ h => array_inj colour_inj h) hexp (temp_exact g.dim).2 (by unfold pottsTemp; split_ifs <;> norm_num)
    hM0 hM n σ

/-- **C124.** The Potts example in doubles approaches the distribution of C94 from any configuration, up to `4 n / (RAND_MAX+1)`. -/
theorem potts_ieee_samples (ht : Torus g) (hside : ∀ j < g.dim, 2 ≤ g.x1 j - g.x0 j) {exp : Num double → Num double} (hexp : Accurate exp) {M : Nat} (hQ : 20 ≤ M + 1)
    (hM : M ≤ 2 ^ 39) (hN : g.nodes.toNat ≤ M + 1) :
    ∃ (K : Nat) (ρ : ℝ), 0 < K ∧ 0 < ρ ∧ ρ < 1 ∧
      ∀ n σ, ∑ τ, |pottsChanceIeee g exp M n σ τ - gibbs (pottsTemp g.dim) (pottsE g) (spinWeight g M) τ| ≤ 2 * ρ ^ (n / K) + n * (4 / (M + 1)) := by
  obtain ⟨K, ρ, h1, h2, h3, h⟩ := potts_samples ht hside hN hQ (kT := pottsTemp g.dim) (by unfold pottsTemp; split_ifs <;> norm_num)
  refine ⟨K, ρ, h1, h2, h3, fun n σ => ?_⟩
  calc ∑ τ, |pottsChanceIeee g exp M n σ τ - gibbs (pottsTemp g.dim) (pottsE g) (spinWeight g M) τ|
      ≤ ∑ τ, (|pottsChanceIeee g exp M n σ τ - pottsChance g M (pottsTemp g.dim) n σ τ| + |pottsChance g M (pottsTemp g.dim) n σ τ - gibbs (pottsTemp g.dim) (pottsE g) (spinWeight g M) τ|) :=
        Finset.sum_le_sum fun τ _ => abs_sub_le _ _ _
    _ ≤ n * (2 / (M + 1)) + (2 * ρ ^ (n / K) + n * (2 / (M + 1))) := by
        rw [Finset.sum_add_distrib]
        exact add_le_add (potts_close ht hexp (by omega) hM n σ) (h n σ)
    _ = _ := by ring

end

/-! ## Instances -/

/-- **C124.** The assumption holds of the best possible `exp`. -/
theorem bestExp_accurate : Accurate bestExp := by
  rintro a x ⟨hx, rfl⟩ h
  have h0 := Real.exp_pos x
  have h1 : Real.exp x ≤ 1 := by rw [← Real.exp_zero]; exact Real.exp_le_exp.2 h
  have he : |rnd double (Real.exp x) - Real.exp x| ≤ 1 / 2 ^ 46 := by
    refine (rnd_err double _).trans ?_
    have : max |Real.exp x| (tiny double) ≤ 1 := max_le (by rw [abs_of_pos h0]; exact h1) (IeeeConfine.tiny_double.trans (by norm_num))
    rw [IeeeConfine.ε_double]
    calc (1 / 9007199254740992 : ℝ) * max |Real.exp x| (tiny double) ≤ 1 / 9007199254740992 * 1 := mul_le_mul_of_nonneg_left this (by norm_num)
      _ ≤ _ := by norm_num
  refine ⟨rnd double (Real.exp x), of_is ?_, he⟩
  refine lt_of_lt_of_le ?_ IeeeConfine.top_double
  rw [abs_of_nonneg (rnd_nonneg h0.le)]
  have : (1 : ℝ) / 2 ^ 46 ≤ 1 := by norm_num
  have : (130 : ℝ) < 2 ^ 100 := by norm_num
  linarith [abs_le.1 he]

-- the 256×256 grid of the examples with the usual RAND_MAX
example (n : Nat) (σ : Fin (square 256).nodes.toNat → Bool) :
    ∑ τ, |isingChanceIeee (square 256) bestExp 2147483647 n σ τ - isingChance (square 256) 2147483647 (isingTemp (square 256).dim) n σ τ| ≤ n * (2 / ((2147483647 : Nat) + 1)) :=
  ising_close (square_torus (by decide)) (by decide) bestExp_accurate (by decide) (by decide) n σ

example : ∃ e, sumDouble .serial (square 4) (fun p => if p = 5 then -1 else 1) (List.range 2) ((square 4).position (5 : Nat)) (-1) 1 = .ok e ∧ Is e ((-8 : Int) : ℝ) ∧ |(-8 : Int)| ≤ 2 ^ 31 :=
  sum_exact (s := -8) List.nodup_range (by decide) (by decide +kernel)

end MMSP.SpinDouble
