import Verif.MonteCarloRanksProps
import Verif.IeeeConfine
import Mathlib.Analysis.Complex.ExponentialBounds
/-!
# Monte Carlo grain growth at the temperature in the file, and where it comes to rest (C123)

`kT` in `examples/coarsening/grain_growth/isotropic/Monte_Carlo/graingrowth.cpp` 357 (`anisotropic/Monte_Carlo/graingrowth.cpp` 361) is `1.3803288e-23 * 273.0`, Boltzmann's
constant in J/K times a temperature, while an energy change is a multiple of 1/2: in `double`s `exp(-dE/kT)` is 0 for every positive `dE`, and `r < 0` is never true. So the program
is the one without thermal activation, and a configuration in which every site has more like neighbours than neighbours of any one other grain never changes again.
-/

namespace MMSP.MonteCarlo

open Stencil Finset Spin Ieee Num

/-! ## The acceptance test in doubles -/

/-- `kT`, `isotropic/Monte_Carlo/graingrowth.cpp` 357 and `anisotropic/Monte_Carlo/graingrowth.cpp` 361: two literals, each rounded to a double, and their rounded product. -/
noncomputable def kT : Num double := of double (13803288 / 10 ^ 30) * of double 273

/-- `<` on doubles. -/
def less (a b : Num double) : Prop := ∃ x y, Is a x ∧ Is b y ∧ x < y

/-- The test `r < exp(-dE / kT)` with `r = double(rand()) / double(RAND_MAX)`, `isotropic/Monte_Carlo/graingrowth.cpp` 356-361, `anisotropic/Monte_Carlo/graingrowth.cpp` 360-365.
`exp` is a parameter, `n` is what `rand()` returns. -/
noncomputable def hotDouble (exp : Num double → Num double) (randMax : Nat) (dE : ℚ) (n : Nat) : Bool :=
  open Classical in decide (less (of double n / of double randMax) (exp (-(of double ((dE : ℚ) : ℝ)) / kT)))

/-- `dE`, `isotropic/Monte_Carlo/graingrowth.cpp` 322-353, accumulated in doubles. -/
noncomputable def energyDouble (bd : Build) (g : Shape) (lo hi : Nat → Int) (data : Int → Int) (x : Nat → Int) (spin1 spin2 : Int) : Outcome (Num double) :=
  open Classical in
  boxFold (fun s y => if skipped g.dim lo hi x y then .ok s else (gridAt bd g data y).bind fun spin => .ok (s + of double (1 / 2) * of double (change spin1 spin2 spin)))
    (List.range g.dim) x 0

/-- What is assumed of the `exp` of the mathematical library: where the true value is less than half the smallest positive double, it returns 0. -/
def Underflows (exp : Num double → Num double) : Prop := ∀ a x, Is a x → x ≤ -746 → Is (exp a) 0

theorem double_p : 1 ≤ double.p := by decide

theorem half_int {m : ℤ} (h : |m| ≤ 2 ^ 40) : Rep double (m / 2) ∧ |rnd double (m / 2)| < 2 ^ double.emax := by
  have hr : Rep double (m / 2) := ⟨m, -1, h.trans (by decide), by decide, by rw [zpow_neg_one]; ring⟩
  refine ⟨hr, ?_⟩
  rw [rnd_rep double_p hr]
  refine lt_of_lt_of_le ?_ IeeeConfine.top_double
  rw [abs_div, abs_two]
  have h1 : |(m : ℝ)| ≤ 2 ^ 40 := by exact_mod_cast h
  calc |(m : ℝ)| / 2 ≤ 2 ^ 40 / 2 := by linarith
    _ < 2 ^ 100 := by norm_num

theorem of_half {m : ℤ} (h : |m| ≤ 2 ^ 40) : Is (of double ((m : ℝ) / 2)) ((m : ℝ) / 2) := by
  obtain ⟨h1, h2⟩ := half_int h
  have := of_is h2
  rwa [rnd_rep double_p h1] at this

theorem of_int {m : ℤ} (h : |m| ≤ 2 ^ 39) : Is (of double (m : ℝ)) (m : ℝ) := by
  have := of_half (m := 2 * m) (by rw [abs_mul, abs_two]; omega)
  rwa [show (((2 * m : ℤ) : ℝ) / 2) = (m : ℝ) by push_cast; ring] at this

theorem rnd_close {x : ℝ} (h : 1 / 2 ^ 100 ≤ x) : |rnd double x - x| ≤ x / 1000 := by
  have h1 := rnd_err double x
  have h0 : 0 < x := lt_of_lt_of_le (by positivity) h
  rw [abs_of_pos h0, max_eq_left (IeeeConfine.tiny_double.trans h), IeeeConfine.ε_double] at h1
  refine h1.trans ?_
  rw [div_mul_eq_mul_div, one_mul]
  exact div_le_div_of_nonneg_left h0.le (by norm_num) (by norm_num)

/-- **C123.** `kT` is a finite positive double between 3.6e-21 and 4e-21. -/
theorem kT_is : ∃ t, Is kT t ∧ 36 / 10 ^ 22 ≤ t ∧ t ≤ 40 / 10 ^ 22 := by
  have a := abs_le.1 (rnd_close (x := 13803288 / 10 ^ 30) (by norm_num))
  have ha := of_is (f := double) (x := 13803288 / 10 ^ 30) (by
    refine lt_of_lt_of_le ?_ IeeeConfine.top_double
    rw [abs_of_nonneg (rnd_nonneg (by norm_num))]
    have : (13803288 / 10 ^ 30 : ℝ) ≤ 1 := by norm_num
    have : (2 : ℝ) ≤ 2 ^ 100 := by norm_num
    linarith [a.2])
  have hb := of_int (m := 273) (by norm_num)
  push_cast at hb
  set c := rnd double (13803288 / 10 ^ 30) with hc
  have c0 : (13803288 / 10 ^ 30 : ℝ) * (999 / 1000) ≤ c := by linarith [a.1]
  have c1 : c ≤ (13803288 / 10 ^ 30 : ℝ) * (1001 / 1000) := by linarith [a.2]
  have b0 : (37 / 10 ^ 22 : ℝ) ≤ c * 273 := by
    have : (37 / 10 ^ 22 : ℝ) ≤ (13803288 / 10 ^ 30 : ℝ) * (999 / 1000) * 273 := by norm_num
    linarith
  have b1 : c * 273 ≤ (38 / 10 ^ 22 : ℝ) := by
    have : (13803288 / 10 ^ 30 : ℝ) * (1001 / 1000) * 273 ≤ (38 / 10 ^ 22 : ℝ) := by norm_num
    linarith
  have b := abs_le.1 (rnd_close (x := c * 273) (le_trans (by norm_num) b0))
  have t0 : (36 / 10 ^ 22 : ℝ) ≤ rnd double (c * 273) := by
    have e : (36 / 10 ^ 22 : ℝ) ≤ 37 / 10 ^ 22 * (999 / 1000) := by norm_num
    linarith [b.1]
  have t1 : rnd double (c * 273) ≤ (40 / 10 ^ 22 : ℝ) := by
    have e : (38 / 10 ^ 22 : ℝ) * (1001 / 1000) ≤ 40 / 10 ^ 22 := by norm_num
    linarith [b.2]
  refine ⟨_, ha.mul hb ?_, t0, t1⟩
  refine lt_of_lt_of_le ?_ IeeeConfine.top_double
  rw [abs_of_nonneg (le_trans (by norm_num) t0)]
  exact lt_of_le_of_lt t1 (by norm_num)

theorem of_nonneg {x y : ℝ} (h : 0 ≤ x) (hy : Is (of double x) y) : 0 ≤ y := by
  unfold of at hy
  split_ifs at hy with hf
  · obtain ⟨h1, e⟩ := hy
    have := Num.fin.inj e
    rw [← this]
    exact rnd_nonneg h
  · obtain ⟨h1, e⟩ := hy
    cases e

theorem div_nonneg' {a b : Num double} {z : ℝ} (ha : ∀ x, Is a x → 0 ≤ x) (hb : ∀ x, Is b x → 0 ≤ x) (hz : Is (a / b) z) : 0 ≤ z := by
  cases a with
  | bad => obtain ⟨_, e⟩ := hz; cases e
  | fin x hx =>
    cases b with
    | bad => obtain ⟨_, e⟩ := hz; cases e
    | fin y hy =>
      have h1 := ha x ⟨hx, rfl⟩
      have h2 := hb y ⟨hy, rfl⟩
      by_cases h0 : y = 0
      · have e : (Num.fin x hx : Num double) / .fin y hy = .bad := if_pos h0
        rw [e] at hz
        obtain ⟨_, e⟩ := hz
        cases e
      · have e : (Num.fin x hx : Num double) / .fin y hy = of double (x / y) := if_neg h0
        rw [e] at hz
        exact of_nonneg (div_nonneg h1 h2) hz

/-- **C123.** A positive energy change is never accepted, whatever `rand()` returns, 0 included. -/
theorem never_hot {exp : Num double → Num double} (hexp : Underflows exp) (randMax : Nat) {m : ℤ} (h0 : 0 < m) (h1 : m ≤ 2 ^ 20) (n : Nat) :
    hotDouble exp randMax ((m : ℚ) / 2) n = false := by
  unfold hotDouble
  rw [decide_eq_false_iff_not]
  rintro ⟨x, y, hx, hy, hlt⟩
  have hx0 : 0 ≤ x := div_nonneg' (fun _ h => of_nonneg (Nat.cast_nonneg _) h) (fun _ h => of_nonneg (Nat.cast_nonneg _) h) hx
  obtain ⟨t, ht, t0, t1⟩ := kT_is
  have tp : 0 < t := lt_of_lt_of_le (by norm_num) t0
  have hd := of_half (m := m) (by rw [abs_of_pos h0]; exact h1.trans (by norm_num))
  rw [show ((m : ℝ) / 2) = (((m : ℚ) / 2 : ℚ) : ℝ) by push_cast; ring] at hd
  have hn := hd.neg double_p
  have hm1 : (1 : ℝ) ≤ m := by exact_mod_cast h0
  have hm2 : (m : ℝ) ≤ 2 ^ 20 := by exact_mod_cast h1
  have q1 : -((((m : ℚ) / 2 : ℚ) : ℝ)) / t ≤ -746 := by
    push_cast
    rw [div_le_iff₀ tp]
    have : (746 * (40 / 10 ^ 22) : ℝ) ≤ 1 / 2 := by norm_num
    nlinarith
  have q2 : -(2 : ℝ) ^ 99 ≤ -((((m : ℚ) / 2 : ℚ) : ℝ)) / t := by
    push_cast
    rw [le_div_iff₀ tp]
    have h3 : (2 : ℝ) ^ 20 / 2 ≤ 2 ^ 99 * (36 / 10 ^ 22) := by norm_num
    have h4 : (2 : ℝ) ^ 99 * (36 / 10 ^ 22) ≤ 2 ^ 99 * t := mul_le_mul_of_nonneg_left t0 (by positivity)
    linarith
  have r1 : rnd double (-((((m : ℚ) / 2 : ℚ) : ℝ)) / t) ≤ -746 := by
    have := rnd_mono double_p q1
    rwa [rnd_rep double_p (x := -746) ⟨-746, 0, by decide, by decide, by norm_num⟩] at this
  have r2 : -(2 : ℝ) ^ 99 ≤ rnd double (-((((m : ℚ) / 2 : ℚ) : ℝ)) / t) := by
    have := rnd_mono double_p q2
    rwa [rnd_rep double_p (x := -2 ^ 99) ⟨-1, 99, by decide, by decide, by norm_num⟩] at this
  have hq := hn.div ht tp.ne' (by
    refine lt_of_lt_of_le ?_ IeeeConfine.top_double
    rw [abs_of_nonpos (le_trans r1 (by norm_num))]
    have : (2 : ℝ) ^ 99 < 2 ^ 100 := by norm_num
    linarith)
  have := (hexp _ _ hq r1).unique hy
  linarith

/-- The `exp` that rounds the true value to the nearest double. -/
noncomputable def bestExp : Num double → Num double
  | .fin x _ => of double (Real.exp x)
  | .bad => .bad

/-- **C123.** The assumption holds of the best possible `exp`. -/
theorem bestExp_underflows : Underflows bestExp := by
  rintro a x ⟨hx, rfl⟩ h
  have hl : Real.exp x < 2 ^ (-1075 : ℤ) := by
    rw [← Real.rpow_intCast, Real.rpow_def_of_pos (by norm_num), Real.exp_lt_exp]
    have := Real.log_two_lt_d9
    push_cast
    linarith
  have h0 := Real.exp_pos x
  have e : rnd double (Real.exp x) = 0 := by
    have hle : lastExp double (Real.exp x) = -1074 := by
      unfold lastExp
      refine max_eq_right ?_
      have : Int.log 2 |Real.exp x| < -1075 := by
        rw [abs_of_pos h0]
        exact (Int.lt_zpow_iff_log_lt (by norm_num) h0).1 (by exact_mod_cast hl)
      show Rounding.ulpExp 53 (Real.exp x) ≤ -1074
      unfold Rounding.ulpExp
      omega
    rw [rnd_eq h0.ne', hle]
    have hr : Rounding.rne (Real.exp x / 2 ^ (-1074 : ℤ)) = 0 := by
      have h2 : Real.exp x / 2 ^ (-1074 : ℤ) < 1 / 2 := by
        rw [div_lt_iff₀ (by positivity)]
        refine hl.trans_eq ?_
        rw [show (-1075 : ℤ) = -1 + -1074 by norm_num, zpow_add₀ (by norm_num), zpow_neg_one]
        norm_num
      have h3 := abs_le.1 (Rounding.rne_err (Real.exp x / 2 ^ (-1074 : ℤ)))
      have h4 : 0 < Real.exp x / 2 ^ (-1074 : ℤ) := by positivity
      have h5 : (Rounding.rne (Real.exp x / 2 ^ (-1074 : ℤ)) : ℝ) < 1 := by linarith
      have h6 : (-1 : ℝ) < (Rounding.rne (Real.exp x / 2 ^ (-1074 : ℤ)) : ℝ) := by linarith
      have h7 : Rounding.rne (Real.exp x / 2 ^ (-1074 : ℤ)) < 1 := by exact_mod_cast h5
      have h8 : -1 < Rounding.rne (Real.exp x / 2 ^ (-1074 : ℤ)) := by exact_mod_cast h6
      omega
    rw [hr, Int.cast_zero, zero_mul]
  have := of_is (f := double) (x := Real.exp x) (by rw [e, abs_zero]; positivity)
  rw [e] at this
  exact this

/-- In exact arithmetic a `rand()` of 0 would be accepted at every energy change. -/
theorem exact_accepts (dE t : ℝ) (randMax : Nat) : ((0 : Nat) : ℝ) / randMax < Real.exp (-dE / t) := by
  rw [Nat.cast_zero, zero_div]
  exact Real.exp_pos _

/-! ## Energy changes as counts of neighbours -/

section
variable {bd : Build} {g : Shape} {lo hi : Nat → Int}

open Classical in
/-- The number of sites around `x` in the global domain, `x` itself not included, that have spin `v`. -/
noncomputable def kin (g : Shape) (lo hi : Nat → Int) (d : Int → Int) (x : Nat → Int) (v : Int) : Nat :=
  ((offsets (List.range g.dim)).filter fun o => (∃ i, i < g.dim ∧ o i ≠ 0) ∧ (∀ i < g.dim, lo i ≤ x i + o i ∧ x i + o i < hi i) ∧ d (g.rawOffset (shift x o)) = v).length

theorem kin_le (hd : g.dim ≤ 3) (d : Int → Int) (x : Nat → Int) (v : Int) : kin g lo hi d x v ≤ 27 := by
  classical
  unfold kin
  refine (List.length_filter_le _ _).trans ?_
  generalize g.dim = k at hd
  interval_cases k <;> simp [List.range_succ, offsets]

open Classical in
theorem change_sum {a b : Int} (hab : a ≠ b) (d : Int → Int) (x : Nat → Int) :
    ((offsets (List.range g.dim)).map fun o => if Adm g lo hi x o then 1 / 2 * ((change a b (d (g.rawOffset (shift x o))) : Int) : ℚ) else 0).sum =
      (((kin g lo hi d x a : ℤ) - kin g lo hi d x b : ℤ) : ℚ) / 2 := by
  unfold kin
  generalize offsets (List.range g.dim) = L
  induction L with
  | nil => simp
  | cons o L ih =>
    rw [List.map_cons, List.sum_cons, ih, List.filter_cons, List.filter_cons]
    by_cases h : Adm g lo hi x o
    · rw [if_pos h]
      obtain ⟨h1, h2⟩ := adm_iff.1 h
      generalize d (g.rawOffset (shift x o)) = s
      have hs : ∀ v, (decide ((∃ i, i < g.dim ∧ o i ≠ 0) ∧ (∀ i < g.dim, lo i ≤ x i + o i ∧ x i + o i < hi i) ∧ s = v)) = decide (s = v) := by
        intro v
        rw [decide_eq_decide]
        exact ⟨fun h => h.2.2, fun h => ⟨h1, h2, h⟩⟩
      rw [hs, hs]
      unfold change
      by_cases e1 : s = a
      · have e2 : s ≠ b := fun e => hab (e1.symm.trans e)
        simp [e1, hab]
        ring
      · by_cases e2 : s = b
        · simp [e2, Ne.symm hab]
          ring
        · simp [e1, e2]
    · rw [if_neg h, zero_add]
      have hs : ∀ v, (decide ((∃ i, i < g.dim ∧ o i ≠ 0) ∧ (∀ i < g.dim, lo i ≤ x i + o i ∧ x i + o i < hi i) ∧ d (g.rawOffset (shift x o)) = v)) = false := by
        intro v
        rw [decide_eq_false_iff_not]
        exact fun h' => h (adm_iff.2 ⟨h'.1, h'.2.1⟩)
      rw [hs, hs]
      simp

/-- **C123.** The energy change of giving `x` another spin is half the number of neighbours of the old spin less half the number of neighbours of the new. -/
theorem energy_kin (hl : Local bd g lo hi) {x : Nat → Int} (hx : g.IsNode x) (d : Int → Int) {a b : Int} (hab : a ≠ b) :
    energyChange bd g lo hi d x a b = .ok ((((kin g lo hi d x a : ℤ) - kin g lo hi d x b : ℤ) : ℚ) / 2) := by
  classical
  rw [energyChange_eq hl hx]
  congr 1
  exact change_sum hab d x

/-- **C123.** Accumulated in doubles, the energy change has no rounding error. -/
theorem energy_double (hl : Local bd g lo hi) (hd : g.dim ≤ 3) {x : Nat → Int} (hx : g.IsNode x) (d : Int → Int) {a b : Int} (hab : a ≠ b) :
    ∃ e, energyDouble bd g lo hi d x a b = .ok e ∧ Is e ((((kin g lo hi d x a : ℤ) - kin g lo hi d x b : ℤ) : ℝ) / 2) := by
  classical
  unfold energyDouble
  rw [boxFold_eq _ List.nodup_range]
  have key : ∀ (L : List (Nat → Int)) (s : Num double) (m : ℤ), (∀ o ∈ L, Spin.Near o) → |m| + L.length ≤ 2 ^ 30 → Is s ((m : ℝ) / 2) →
      ∃ e, L.foldlM (fun (s : Num double) o => if skipped g.dim lo hi x (shift x o) then Outcome.ok s else
          (gridAt bd g d (shift x o)).bind fun spin => .ok (s + of double (1 / 2) * of double (change a b spin))) s = .ok e ∧
        Is e (((m + (L.map fun o => if Adm g lo hi x o then change a b (d (g.rawOffset (shift x o))) else 0).sum : ℤ) : ℝ) / 2) := by
    intro L
    induction L with
    | nil => intro s m _ _ hs; exact ⟨s, rfl, by simpa using hs⟩
    | cons o L ih =>
      intro s m hL hm hs
      rw [List.length_cons] at hm
      push_cast at hm
      rw [List.foldlM_cons, List.map_cons, List.sum_cons]
      by_cases h : skipped g.dim lo hi x (shift x o)
      · rw [if_pos h, if_neg (by simpa [Adm] using h), Outcome.bind_eq, Outcome.ok_bind, zero_add]
        exact ih s m (fun o' h' => hL o' (by simp [h'])) (by omega) hs
      · rw [if_neg h, if_pos (by simpa [Adm] using h), (plain_at hl hx (hL o (by simp)) h d).2.2, Outcome.ok_bind, Outcome.bind_eq, Outcome.ok_bind, ← add_assoc]
        generalize hc : change a b (d (g.rawOffset (shift x o))) = c
        have hc1 : |c| ≤ 1 := by
          rw [← hc]; unfold change
          split_ifs <;> simp
        have hab' := abs_add_le m c
        refine ih _ (m + c) (fun o' h' => hL o' (by simp [h'])) (by omega) ?_
        have i1 := of_half (m := 1) (by norm_num)
        have i2 := of_int (m := c) (by omega)
        obtain ⟨p1, p2⟩ := half_int (m := c) (by omega)
        obtain ⟨p3, p4⟩ := half_int (m := m + c) (by omega)
        rw [Int.cast_one] at i1
        have i3 := i1.mul i2 (by rw [show (1 : ℝ) / 2 * c = c / 2 by ring]; exact p2)
        rw [show (1 : ℝ) / 2 * c = c / 2 by ring, rnd_rep double_p p1] at i3
        have e : (m : ℝ) / 2 + c / 2 = ((m + c : ℤ) : ℝ) / 2 := by push_cast; ring
        have i4 := hs.add i3 (by rw [e]; exact p4)
        rwa [e, rnd_rep double_p p3] at i4
  have hlen : (offsets (List.range g.dim)).length ≤ 27 := by
    generalize g.dim = k at hd
    interval_cases k <;> simp [List.range_succ, offsets]
  obtain ⟨e, h1, h2⟩ := key (offsets (List.range g.dim)) 0 0 (fun o ho => ((mem_offsets List.nodup_range).1 ho).1) (by simp; omega) (by simpa using is_zero)
  refine ⟨e, h1, ?_⟩
  have hsum := change_sum (g := g) (lo := lo) (hi := hi) hab d x
  have h3 : ((offsets (List.range g.dim)).map fun o => if Adm g lo hi x o then 1 / 2 * ((change a b (d (g.rawOffset (shift x o))) : Int) : ℚ) else 0).sum =
      1 / 2 * (((offsets (List.range g.dim)).map fun o => if Adm g lo hi x o then change a b (d (g.rawOffset (shift x o))) else 0).sum : ℤ) := by
    generalize offsets (List.range g.dim) = L
    induction L with
    | nil => simp
    | cons o L ih =>
      rw [List.map_cons, List.sum_cons, List.map_cons, List.sum_cons, ih]
      split_ifs
      · push_cast; ring
      · push_cast; ring
  rw [hsum] at h3
  have h4 : ((offsets (List.range g.dim)).map fun o => if Adm g lo hi x o then change a b (d (g.rawOffset (shift x o))) else 0).sum =
      (kin g lo hi d x a : ℤ) - kin g lo hi d x b := by
    have : (((kin g lo hi d x a : ℤ) - kin g lo hi d x b : ℤ) : ℚ) = (((offsets (List.range g.dim)).map fun o =>
        if Adm g lo hi x o then change a b (d (g.rawOffset (shift x o))) else 0).sum : ℤ) := by linarith
    exact_mod_cast this.symm
  rw [h4, zero_add] at h2
  exact_mod_cast h2

/-! ## Rest -/

/-- No half-integral energy change from 1/2 to 13 1/2 is ever accepted. -/
def Cold (hot : ℚ → Nat → Bool) : Prop := ∀ m : Nat, 0 < m → m ≤ 27 → ∀ n, hot ((m : ℚ) / 2) n = false

/-- **C123.** The test of the program, with the `kT` in the file, is cold. -/
theorem shipped_cold {exp : Num double → Num double} (hexp : Underflows exp) (randMax : Nat) : Cold (hotDouble exp randMax) := by
  intro m h0 h1 n
  have := never_hot hexp randMax (m := m) (by omega) (by omega) n
  rwa [Int.cast_natCast] at this

/-- Every site that can be selected has more like neighbours than neighbours of any one other spin. -/
def Settled (g : Shape) (lo hi : Nat → Int) (select : (Nat → Int) → Nat → Bool) (d : Int → Int) : Prop :=
  ∀ x, g.IsNode x → (∃ n, select x n = true) → ∀ v, v ≠ d (g.rawOffset x) → 0 < kin g lo hi d x v → kin g lo hi d x v < kin g lo hi d x (d (g.rawOffset x))

theorem kin_pos {d : Int → Int} {x o : Nat → Int} (ho : o ∈ offsets (List.range g.dim)) (ha : Adm g lo hi x o) : 0 < kin g lo hi d x (d (g.rawOffset (shift x o))) := by
  classical
  unfold kin
  rw [List.length_pos_iff_exists_mem]
  exact ⟨o, List.mem_filter.2 ⟨ho, decide_eq_true ⟨(adm_iff.1 ha).1, (adm_iff.1 ha).2, rfl⟩⟩⟩

theorem cold_le (hl : Local bd g lo hi) (hd : g.dim ≤ 3) {hot : ℚ → Nat → Bool} (hh : Cold hot) {x : Nat → Int} (hx : g.IsNode x) {d : Int → Int} {a b : Int} (hab : a ≠ b) {dE : ℚ}
    (hE : energyChange bd g lo hi d x a b = .ok dE) {n : Nat} (h : dE ≤ 0 ∨ hot dE n = true) : kin g lo hi d x a ≤ kin g lo hi d x b := by
  rw [energy_kin hl hx d hab] at hE
  injection hE with hE
  by_contra hlt
  have h27 := kin_le (lo := lo) (hi := hi) hd d x a
  rcases h with h | h
  · rw [← hE] at h
    have : (((kin g lo hi d x a : ℤ) - kin g lo hi d x b : ℤ) : ℚ) ≤ 0 := by linarith
    have : (kin g lo hi d x a : ℤ) - kin g lo hi d x b ≤ 0 := by exact_mod_cast this
    omega
  · have e : dE = ((kin g lo hi d x a - kin g lo hi d x b : Nat) : ℚ) / 2 := by
      rw [← hE, Nat.cast_sub (by omega)]
      push_cast; ring
    rw [e, hh _ (by omega) (by omega)] at h
    cases h

theorem attempt_unselected (select : (Nat → Int) → Nat → Bool) (hot : ℚ → Nat → Bool) (sub : Nat) (d : Int → Int) (r : Draw)
    (h : select (site g (r.1 % (numCells g).toNat : Nat) sub) r.2.1 ≠ true) :
    attempt bd g lo hi select hot sub d r = .ok none ∨ attempt bd g lo hi select hot sub d r = .ok (some d) := by
  unfold attempt
  dsimp only
  by_cases ho : siteOutside g (site g (r.1 % (numCells g).toNat : Nat) sub)
  · exact Or.inl (if_pos ho)
  · rw [if_neg ho, if_pos h]; exact Or.inr rfl

theorem settled_attempt (hl : Local bd g lo hi) (hd : g.dim ≤ 3) {select : (Nat → Int) → Nat → Bool} {hot : ℚ → Nat → Bool} (hh : Cold hot) {d : Int → Int}
    (hs : Settled g lo hi select d) (sub : Nat) (r : Draw) : attempt bd g lo hi select hot sub d r = .ok none ∨ attempt bd g lo hi select hot sub d r = .ok (some d) := by
  by_cases hsel : select (site g (r.1 % (numCells g).toNat : Nat) sub) r.2.1 = true
  swap
  · exact attempt_unselected select hot sub d r hsel
  by_cases ho : siteOutside g (site g (r.1 % (numCells g).toNat : Nat) sub)
  · left; unfold attempt; exact if_pos ho
  have hx : g.IsNode (site g (r.1 % (numCells g).toNat : Nat) sub) := fun i hi' => by
    by_contra hc; exact ho ⟨i, hi', by omega⟩
  right
  rw [attempt_eq hl select hot sub d r rfl hx]
  generalize site g (r.1 % (numCells g).toNat : Nat) sub = x at *
  congr 2
  have : flipTo g.dim lo hi select hot x (fun o => d (g.rawOffset (shift x o))) (d (g.rawOffset x)) r.2 = none := by
    classical
    unfold flipTo
    rw [if_neg (not_not.2 hsel)]
    dsimp only
    split_ifs with h1
    · rfl
    · split
      · rfl
      · rename_i v hv
        have hmem := List.mem_of_getElem? hv
        rw [List.mem_map] at hmem
        obtain ⟨o, ho', rfl⟩ := hmem
        rw [List.mem_filter, decide_eq_true_iff] at ho'
        have key : ∀ h2 : d (g.rawOffset x) ≠ d (g.rawOffset (shift x o)), ∀ dE, energyChange bd g lo hi d x (d (g.rawOffset x)) (d (g.rawOffset (shift x o))) = .ok dE →
            ¬ (dE ≤ 0 ∨ hot dE r.2.2.2 = true) := by
          intro h2 dE hE h
          have h5 := hs x hx ⟨_, hsel⟩ _ (Ne.symm h2) (kin_pos ho'.1 ho'.2)
          have h6 := cold_le hl hd hh hx h2 hE h
          omega
        have hE := energyChange_eq hl hx d (d (g.rawOffset x)) (d (g.rawOffset (shift x o)))
        have e : ((offsets (List.range g.dim)).map fun o' => if Adm g lo hi x o' then
            1 / 2 * ((change (d (g.rawOffset x)) (d (g.rawOffset (shift x o))) (d (g.rawOffset (shift x o'))) : Int) : ℚ) else 0).sum =
            ((offsets (List.range g.dim)).map fun o' => if ¬ skipped g.dim lo hi x (shift x o') then
            1 / 2 * ((change (d (g.rawOffset x)) (d (g.rawOffset (shift x o))) (d (g.rawOffset (shift x o'))) : Int) : ℚ) else 0).sum := by
          congr 1
          exact List.map_congr_left fun o' _ => by unfold Adm; congr
        rw [e] at hE
        split_ifs with h2 h3 h4
        · exact absurd (Or.inl h3) (key h2 _ hE)
        · exact absurd (Or.inr h4) (key h2 _ hE)
        · rfl
        · rfl
  rw [this]

/-- **C123.** When the spins are at rest: no attempt changes anything, whatever is drawn, exactly if every site that can be selected has more like neighbours than neighbours of any
one other spin. -/
theorem rest_iff (hl : Local bd g lo hi) (hdim : g.dim = 2 ∨ g.dim = 3) {select : (Nat → Int) → Nat → Bool} (hsel : ∀ x y n, (∀ j < g.dim, x j = y j) → select x n = select y n)
    {hot : ℚ → Nat → Bool} (hh : Cold hot) (d : Int → Int) :
    Settled g lo hi select d ↔ ∀ sub, sub < numSublattices g.dim → ∀ r d', attempt bd g lo hi select hot sub d r = .ok (some d') → d' = d := by
  classical
  constructor
  · intro hs sub _ r d' h
    rcases settled_attempt hl (by omega) hh hs sub r with e | e
    · rw [h] at e; cases e
    · rw [h] at e; cases e; rfl
  · intro h x hx ⟨n, hn⟩ v hv hpos
    by_contra hge
    obtain ⟨sub, hsub, hcol⟩ := exists_colour hdim x
    obtain ⟨c, hc, hsite⟩ := node_drawn hl.wf hdim hx hcol
    have hcm : c % (numCells g).toNat = c := Nat.mod_eq_of_lt (by omega)
    have hkin := hpos
    unfold kin at hkin
    rw [List.length_pos_iff_exists_mem] at hkin
    obtain ⟨o, hmo⟩ := hkin
    rw [List.mem_filter, decide_eq_true_iff] at hmo
    obtain ⟨ho, h1, h2, h3⟩ := hmo
    have hadm : Adm g lo hi x o := adm_iff.2 ⟨h1, h2⟩
    set y := site g (c : Nat) sub with hy
    have hyx : ∀ j < g.dim, y j = x j := hsite
    have hynode : g.IsNode y := fun j hj => by rw [hyx j hj]; exact hx j hj
    have hyo : ∀ o, g.rawOffset (shift y o) = g.rawOffset (shift x o) := fun o => rawOffset_congr fun j hj => by unfold shift; rw [hyx j hj]
    have hy0 : g.rawOffset y = g.rawOffset x := rawOffset_congr hyx
    have hadmy : Adm g lo hi y o := adm_iff.2 ⟨h1, fun i hi' => by rw [hyx i hi']; exact h2 i hi'⟩
    -- the place of the neighbour in the list
    have hmem : d (g.rawOffset (shift y o)) ∈ ((offsets (List.range g.dim)).filter fun o => ¬ skipped g.dim lo hi y (shift y o)).map fun o => d (g.rawOffset (shift y o)) :=
      List.mem_map.2 ⟨o, List.mem_filter.2 ⟨ho, decide_eq_true hadmy⟩, rfl⟩
    obtain ⟨k, hk, hke⟩ := List.getElem_of_mem hmem
    have hatt := attempt_eq hl select hot sub d (c, n, k, 0) (x := y) (by rw [hy]; dsimp only; rw [hcm]) hynode
    have hflip : flipTo g.dim lo hi select hot y (fun o => d (g.rawOffset (shift y o))) (d (g.rawOffset y)) (n, k, 0) = some v := by
      unfold flipTo
      have hsy : select y n = true := by rw [hsel y x n hyx]; exact hn
      rw [if_neg (not_not.2 hsy)]
      dsimp only
      have hcount : ¬ (((offsets (List.range g.dim)).filter fun o => ¬ skipped g.dim lo hi y (shift y o)).map fun o => d (g.rawOffset (shift y o))).countP (· == d (g.rawOffset y)) =
          (((offsets (List.range g.dim)).filter fun o => ¬ skipped g.dim lo hi y (shift y o)).map fun o => d (g.rawOffset (shift y o))).length := by
        intro e
        rw [List.countP_eq_length] at e
        have := e _ hmem
        rw [beq_iff_eq, hyo, h3, hy0] at this
        exact hv this
      rw [if_neg hcount, Nat.mod_eq_of_lt hk, List.getElem?_eq_getElem hk, hke]
      dsimp only
      have hne : d (g.rawOffset y) ≠ d (g.rawOffset (shift y o)) := by rw [hyo, h3, hy0]; exact Ne.symm hv
      rw [if_pos hne]
      have hE := energy_kin hl hynode d hne
      rw [energyChange_eq hl hynode] at hE
      injection hE with hE
      have hkk : ∀ v, kin g lo hi d y v = kin g lo hi d x v := by
        intro v
        unfold kin
        congr 1
        refine List.filter_congr fun o' _ => ?_
        rw [decide_eq_decide, hyo]
        refine and_congr_right fun _ => and_congr_left fun _ => ?_
        exact forall_congr' fun i => forall_congr' fun hi' => by rw [hyx i hi']
      have hle : ((offsets (List.range g.dim)).map fun o' => if ¬ skipped g.dim lo hi y (shift y o') then
          1 / 2 * ((change (d (g.rawOffset y)) (d (g.rawOffset (shift y o))) (d (g.rawOffset (shift y o'))) : Int) : ℚ) else 0).sum ≤ 0 := by
        have e : ((offsets (List.range g.dim)).map fun o' => if ¬ skipped g.dim lo hi y (shift y o') then
          1 / 2 * ((change (d (g.rawOffset y)) (d (g.rawOffset (shift y o))) (d (g.rawOffset (shift y o'))) : Int) : ℚ) else 0).sum =
            (((kin g lo hi d y (d (g.rawOffset y)) : ℤ) - kin g lo hi d y (d (g.rawOffset (shift y o))) : ℤ) : ℚ) / 2 := by
            refine Eq.trans ?_ hE
            congr 1
            exact List.map_congr_left fun o' _ => by unfold Adm; congr
        rw [e, hkk, hkk, hyo, h3, hy0]
        have : ((kin g lo hi d x (d (g.rawOffset x)) : ℤ) - kin g lo hi d x v : ℤ) ≤ 0 := by omega
        have : (((kin g lo hi d x (d (g.rawOffset x)) : ℤ) - kin g lo hi d x v : ℤ) : ℚ) ≤ 0 := by exact_mod_cast this
        linarith
      split_ifs
      rw [hyo, h3]
    rw [hflip] at hatt
    have e := congrFun (h sub hsub _ _ hatt) (g.rawOffset y)
    dsimp only at e
    rw [Function.update_self, hy0] at e
    exact hv e

theorem settled_pass (hl : Local bd g lo hi) (hd : g.dim ≤ 3) {select : (Nat → Int) → Nat → Bool} {hot : ℚ → Nat → Bool} (hh : Cold hot) {d : Int → Int}
    (hs : Settled g lo hi select d) (sub k : Nat) (draws : List Draw) {d' : Int → Int} (h : pass bd g lo hi select hot sub k draws d = .ok (some d')) : d' = d := by
  induction draws generalizing k with
  | nil =>
    cases k with
    | zero => rw [pass] at h; cases h; rfl
    | succ k => rw [pass] at h; cases h
  | cons r rs ih =>
    cases k with
    | zero => rw [pass] at h; cases h; rfl
    | succ k =>
      rw [pass] at h
      rcases settled_attempt hl hd hh hs sub r with e | e
      · rw [e, Outcome.ok_bind] at h; exact ih (k + 1) h
      · rw [e, Outcome.ok_bind] at h; exact ih k h

theorem cold_pass_descends (hg : g.Wf) (hd : g.dim ≤ 3) (select : (Nat → Int) → Nat → Bool) {hot : ℚ → Nat → Bool} (hh : Cold hot) (sub k : Nat) (draws : List Draw) (d : Int → Int)
    {d' : Int → Int} (h : pass bd g g.x0 g.x1 select hot sub k draws d = .ok (some d')) : boundaries g d' ≤ boundaries g d := by
  have hl := local_serial bd hg
  induction draws generalizing k d with
  | nil =>
    cases k with
    | zero => rw [pass] at h; cases h; exact le_refl _
    | succ k => rw [pass] at h; cases h
  | cons r rs ih =>
    cases k with
    | zero => rw [pass] at h; cases h; exact le_refl _
    | succ k =>
      rw [pass] at h
      rcases attempt_cases hl select hot sub d r with ⟨-, e⟩ | ⟨-, d1, e, hd'⟩
      · rw [e, Outcome.ok_bind] at h; exact ih (k + 1) d h
      · rw [e, Outcome.ok_bind] at h
        refine le_trans (ih k d1 h) ?_
        rcases hd' with rfl | ⟨x, o, hx, -, -, -, hne, rfl, dE, hE, hle⟩
        · exact le_refl _
        · obtain ⟨dE', hE', hb⟩ := energy_spec (bd := bd) hg hx d (d (g.rawOffset (shift x o)))
          have hk := cold_le hl hd hh hx (Ne.symm hne) hE hle
          rw [hE] at hE'
          cases hE'
          rw [energy_kin hl hx d (Ne.symm hne)] at hE
          injection hE with hE
          have h0 : dE ≤ 0 := by
            rw [← hE]
            have : ((kin g g.x0 g.x1 d x (d (g.rawOffset x)) : ℤ) - kin g g.x0 g.x1 d x (d (g.rawOffset (shift x o))) : ℤ) ≤ 0 := by omega
            have : (((kin g g.x0 g.x1 d x (d (g.rawOffset x)) : ℤ) - kin g g.x0 g.x1 d x (d (g.rawOffset (shift x o))) : ℤ) : ℚ) ≤ 0 := by exact_mod_cast this
            linarith
          have : ((boundaries g (Function.update d (g.rawOffset x) (d (g.rawOffset (shift x o)))) - boundaries g d : Int) : ℚ) ≤ 0 := by rw [hb]; linarith
          have : boundaries g (Function.update d (g.rawOffset x) (d (g.rawOffset (shift x o)))) - boundaries g d ≤ 0 := by exact_mod_cast this
          omega

/-- **C123.** The program as shipped, serially: no run ever increases the number of unlike neighbour pairs. -/
theorem shipped_descends (hg : g.Wf) (hd : g.dim ≤ 3) {exp : Num double → Num double} (hexp : Underflows exp) (randMax : Nat) (select : (Nat → Int) → Nat → Bool)
    (draws : Nat → Nat → List Draw) (steps : Nat) (d : Int → Int) :
    ∃ o, update g g.x0 g.x1 select (hotDouble exp randMax) draws steps d = .ok o ∧ ∀ d', o = some d' → boundaries g d' ≤ boundaries g d :=
  update_invariant hg select _ draws steps (P := fun d' => boundaries g d' ≤ boundaries g d)
    (fun sub k rs d1 _ h1 h => le_trans (cold_pass_descends hg hd select (shipped_cold hexp randMax) sub k rs d1 h) h1) (le_refl _)

/-- **C123.** The program as shipped, serially: settled spins stay as they are, for any number of steps. -/
theorem shipped_rests (hg : g.Wf) (hd : g.dim ≤ 3) {exp : Num double → Num double} (hexp : Underflows exp) (randMax : Nat) {select : (Nat → Int) → Nat → Bool} {d : Int → Int}
    (hs : Settled g g.x0 g.x1 select d) (draws : Nat → Nat → List Draw) (steps : Nat) :
    ∃ o, update g g.x0 g.x1 select (hotDouble exp randMax) draws steps d = .ok o ∧ ∀ d', o = some d' → d' = d :=
  update_invariant hg select _ draws steps (P := fun d' => d' = d)
    (fun sub k rs d1 _ h1 h => by subst h1; exact settled_pass (local_serial .serial hg) hd (shipped_cold hexp randMax) hs sub k rs h) rfl

end

section
open Ghost ParallelRun Decomp
variable {w : World} {np : Nat} {select : (Nat → Int) → Nat → Bool} {c : Cell Int}

/-- **C123.** The program as shipped, on any number of processes. -/
theorem shipped_ranks (hc : RoundTrips c) (h : LatticeOk w np select) {exp : Num double → Num double} (hexp : Underflows exp) (randMax : Nat)
    (draws : Int → Nat → Nat → List Draw) (steps : Nat) {S S' : Int → Outcome (RankSt Int)} {D0 : Int → Int → Int} (hS : Running np S D0) (hv : AllValid c w.toSetup np D0)
    {σ : Int → Int} (hσ : ∀ r, IsRank np r → ∀ x, (w.shape r).IsNode x → cellAt (w.shape r) (D0 r) x = cellAt w.serial σ x)
    (hrun : updateRanks c w np select (hotDouble exp randMax) draws steps S = some S') :
    ∃ D σ', Running np S' D ∧ AllSynced w np D σ' ∧ boundaries w.serial σ' ≤ boundaries w.serial σ ∧ (Settled w.serial w.g0 w.g1 select σ → σ' = σ) := by
  obtain ⟨D, σ', hR, hY, hser⟩ := ranks_serialise _ hc h (List.Perm.refl _) draws steps hS hv hσ hrun
  have hd : w.serial.dim ≤ 3 := by have e : w.serial.dim = w.d := rfl; have := h.dim; omega
  have hcold := shipped_cold hexp randMax
  refine ⟨D, σ', hR, hY, ?_, fun hs => ?_⟩
  · exact updateWith_invariant (serial_wf h.world) select _ _ _ steps (P := fun d' => boundaries w.serial d' ≤ boundaries w.serial σ)
      (fun sub k rs d1 _ h1 hp => le_trans (cold_pass_descends (serial_wf h.world) hd select hcold sub k rs d1 hp) h1) (le_refl _) hser
  · exact updateWith_invariant (serial_wf h.world) select _ _ _ steps (P := fun d' => d' = σ)
      (fun sub k rs d1 _ h1 hp => by subst h1; exact settled_pass (local_serial .serial (serial_wf h.world)) hd hcold hs sub k rs hp) rfl hser

end

/-! ## A flat boundary -/

/-- Two grains on either side of the plane between `x a = m - 1` and `x a = m`. -/
def Flat (g : Shape) (a : Nat) (m : Int) (u v : Int) (d : Int → Int) : Prop := ∀ x, g.IsNode x → d (g.rawOffset x) = if x a < m then u else v

/-- **C123.** Grain growth stops: two grains that meet in a plane, each at least two layers thick, in a box with at least two nodes along some other axis, are settled. -/
theorem flat_settled {g : Shape} {a : Nat} (ha : a < g.dim) {m u v : Int} (h0 : g.x0 a + 2 ≤ m) (h1 : m + 2 ≤ g.x1 a) {b : Nat} (hb : b < g.dim) (hba : b ≠ a)
    (hw : 2 ≤ g.x1 b - g.x0 b) (select : (Nat → Int) → Nat → Bool) {d : Int → Int} (hf : Flat g a m u v d) : Settled g g.x0 g.x1 select d := by
  classical
  intro x hx _ s hs hpos
  -- the spins at the sites around
  have hspin : ∀ o, (∀ i < g.dim, g.x0 i ≤ x i + o i ∧ x i + o i < g.x1 i) → d (g.rawOffset (shift x o)) = if x a + o a < m then u else v := by
    intro o h
    exact hf (shift x o) fun i hi => h i hi
  have hhere := hf x hx
  unfold kin at hpos ⊢
  rw [List.length_pos_iff_exists_mem] at hpos
  obtain ⟨q, hq⟩ := hpos
  rw [List.mem_filter, decide_eq_true_iff] at hq
  obtain ⟨hqo, -, hq2, hq3⟩ := hq
  rw [hspin q hq2] at hq3
  rw [hhere] at hs ⊢
  have hnear := ((mem_offsets List.nodup_range).1 hqo).1
  have hqa := hnear a
  -- `x` is next to the plane: the sign of the way across
  have hnd := offsets_nodup (axes := List.range g.dim) List.nodup_range
  let mir : (Nat → Int) → (Nat → Int) := fun o => Function.update o a (-(o a))
  let A := (offsets (List.range g.dim)).filter fun o => (∃ i, i < g.dim ∧ o i ≠ 0) ∧ (∀ i < g.dim, g.x0 i ≤ x i + o i ∧ x i + o i < g.x1 i) ∧ d (g.rawOffset (shift x o)) = s
  let B := (offsets (List.range g.dim)).filter fun o => (∃ i, i < g.dim ∧ o i ≠ 0) ∧ (∀ i < g.dim, g.x0 i ≤ x i + o i ∧ x i + o i < g.x1 i) ∧
    d (g.rawOffset (shift x o)) = if x a < m then u else v
  show A.length < B.length
  have hxa := hx a ha
  have hxb := hx b hb
  -- a site beside `x` along `b`
  obtain ⟨t, ht, htb⟩ : ∃ t : Int, (t = 1 ∨ t = -1) ∧ g.x0 b ≤ x b + t ∧ x b + t < g.x1 b := by
    by_cases h : x b + 1 < g.x1 b
    · exact ⟨1, Or.inl rfl, by omega, by omega⟩
    · exact ⟨-1, Or.inr rfl, by omega, by omega⟩
  let side : Nat → Int := Function.update (fun _ => 0) b t
  have hside_b : side b = t := Function.update_self ..
  have hside : ∀ j, j ≠ b → side j = 0 := fun j hj => Function.update_of_ne hj ..
  have hsideB : side ∈ B := by
    refine List.mem_filter.2 ⟨(mem_offsets List.nodup_range).2 ⟨fun j => ?_, fun j hj => ?_⟩, decide_eq_true ⟨⟨b, hb, by rw [hside_b]; omega⟩, ?_⟩⟩
    · by_cases e : j = b
      · rw [e, hside_b]; omega
      · rw [hside j e]; omega
    · exact hside j fun e => hj (by rw [e]; exact List.mem_range.2 hb)
    · have hin : ∀ i < g.dim, g.x0 i ≤ x i + side i ∧ x i + side i < g.x1 i := by
        intro i hi
        by_cases e : i = b
        · rw [e, hside_b]; exact htb
        · rw [hside i e]; have := hx i hi; omega
      refine ⟨hin, ?_⟩
      rw [hspin side hin, hside a (Ne.symm hba), add_zero]
  have hA : ∀ o ∈ A, o a ≠ 0 ∧ mir o ∈ B := by
    intro o ho
    obtain ⟨ho1, ho2⟩ := List.mem_filter.1 ho
    rw [decide_eq_true_iff] at ho2
    obtain ⟨-, hin, hsp⟩ := ho2
    rw [hspin o hin] at hsp
    obtain ⟨hn, hz⟩ := (mem_offsets List.nodup_range).1 ho1
    have hoa := hn a
    have hina := hin a ha
    have hmira : mir o a = -(o a) := Function.update_self ..
    have hmir : ∀ j, j ≠ a → mir o j = o j := fun j hj => Function.update_of_ne hj ..
    have hne : o a ≠ 0 := by
      intro e
      rw [e, add_zero] at hsp
      exact hs hsp.symm
    have hcross : ¬ (x a + o a < m ↔ x a < m) := by
      intro e
      apply hs
      rw [← hsp]
      split_ifs <;> omega
    refine ⟨hne, List.mem_filter.2 ⟨(mem_offsets List.nodup_range).2 ⟨fun j => ?_, fun j hj => ?_⟩, decide_eq_true ⟨⟨a, ha, by rw [hmira]; omega⟩, ?_⟩⟩⟩
    · by_cases e : j = a
      · rw [e, hmira]; omega
      · rw [hmir j e]; exact hn j
    · by_cases e : j = a
      · exact absurd (List.mem_range.2 ha) (e ▸ hj)
      · rw [hmir j e]; exact hz j hj
    · have hin' : ∀ i < g.dim, g.x0 i ≤ x i + mir o i ∧ x i + mir o i < g.x1 i := by
        intro i hi
        by_cases e : i = a
        · rw [e, hmira]; omega
        · rw [hmir i e]; exact hin i hi
      refine ⟨hin', ?_⟩
      rw [hspin _ hin', hmira]
      split_ifs <;> omega
  have hinj : ∀ o o', mir o = mir o' → o = o' := by
    intro o o' e
    funext j
    by_cases h : j = a
    · have := congrFun e a
      simp only [mir, Function.update_self] at this
      rw [h]; omega
    · have := congrFun e j
      simp only [mir, Function.update_of_ne h] at this
      exact this
  have hnotin : side ∉ A.map mir := by
    rw [List.mem_map]
    rintro ⟨o, ho, e⟩
    have h1 := (hA o ho).1
    have h2 := congrFun e a
    rw [hside a (Ne.symm hba)] at h2
    simp only [mir, Function.update_self] at h2
    omega
  have hnodup : (side :: A.map mir).Nodup := by
    rw [List.nodup_cons]
    exact ⟨hnotin, (hnd.filter _).map fun _ _ e => hinj _ _ e⟩
  have hsub : side :: A.map mir ⊆ B := by
    intro o ho
    rcases List.mem_cons.1 ho with rfl | ho
    · exact hsideB
    · obtain ⟨o', ho', rfl⟩ := List.mem_map.1 ho
      exact (hA o' ho').2
  have := (hnodup.subperm hsub).length_le
  rw [List.length_cons, List.length_map] at this
  omega

/-- **C123.** So the program as shipped never moves a flat boundary. -/
theorem flat_forever {g : Shape} (hg : g.Wf) (hd : g.dim ≤ 3) {exp : Num double → Num double} (hexp : Underflows exp) (randMax : Nat) (select : (Nat → Int) → Nat → Bool)
    {a : Nat} (ha : a < g.dim) {m u v : Int} (h0 : g.x0 a + 2 ≤ m) (h1 : m + 2 ≤ g.x1 a) {b : Nat} (hb : b < g.dim) (hba : b ≠ a)
    (hw : 2 ≤ g.x1 b - g.x0 b) {d : Int → Int} (hf : Flat g a m u v d) (draws : Nat → Nat → List Draw) (steps : Nat) :
    ∃ o, update g g.x0 g.x1 select (hotDouble exp randMax) draws steps d = .ok o ∧ ∀ d', o = some d' → Flat g a m u v d' := by
  obtain ⟨o, e, h⟩ := shipped_rests hg hd hexp randMax (flat_settled ha h0 h1 hb hba hw select hf) draws steps
  exact ⟨o, e, fun d' h' => by rw [h d' h']; exact hf⟩

/-! ## Instances -/

-- `rand()` of 0 and an energy change of 1/2
example : hotDouble bestExp 2147483647 (1 / 2) 0 = false := by
  have := never_hot bestExp_underflows 2147483647 (m := 1) (by norm_num) (by norm_num) 0
  simpa using this

example : ∃ o, update plate plate.x0 plate.x1 (fun _ _ => true) (hotDouble bestExp 2147483647) (fun _ _ => []) 5 speck = .ok o ∧
    ∀ d', o = some d' → boundaries plate d' ≤ boundaries plate speck := shipped_descends plate_wf (by decide) bestExp_underflows _ _ _ _ _

/-- Two grains in the 4×3 grid, the boundary between columns 1 and 2. -/
def twoGrains (p : Int) : Int := if p < 6 then 1 else 2

theorem twoGrains_flat : Flat plate 0 2 1 2 twoGrains := by
  intro x hx
  have e : plate.rawOffset x = x 0 * 3 + x 1 := by
    simp [plate, Shape.rawOffset, encode, Shape.sx, Shape.s0, Shape.s1, slice, Finset.sum_range_succ]
  have h0 := hx 0 (by decide)
  have h1 := hx 1 (by decide)
  simp only [plate] at h0 h1
  norm_num at h0 h1
  unfold twoGrains
  rw [e]
  split_ifs <;> omega

example : Settled plate plate.x0 plate.x1 (fun _ _ => true) twoGrains :=
  flat_settled (a := 0) (by decide) (by decide) (by decide) (b := 1) (by decide) (by decide) (by decide) _ twoGrains_flat

-- the speck is not settled
example : ¬ Settled plate plate.x0 plate.x1 (fun _ _ => true) speck := by
  intro h
  have hr := (rest_iff (local_serial .serial plate_wf) (Or.inl rfl) (fun _ _ _ _ => rfl) (hot := fun _ _ => false) (fun _ _ _ _ => rfl) speck).1 h 3 (by decide) (0, 0, 0, 0)
  have h1 : (attempt .serial plate plate.x0 plate.x1 (fun _ _ => true) (fun _ _ => false) 3 speck (0, 0, 0, 0)).bind (fun o => .ok (o.map fun d => d 4)) = .ok (some 1) := by decide +kernel
  generalize attempt .serial plate plate.x0 plate.x1 (fun _ _ => true) (fun _ _ => false) 3 speck (0, 0, 0, 0) = out at hr h1
  cases out with
  | ok o =>
    cases o with
    | none => cases h1
    | some d' =>
      have e := hr d' rfl
      subst e
      revert h1
      decide
  | _ => cases h1

section
open Ghost ParallelRun Decomp

-- a 4×4 grid of stripes on two ranks
example : ∃ S', updateRanks intCell square4 2 (fun _ _ => true) (hotDouble bestExp 2147483647) firstCell 3 (fun r => .ok ⟨fun p => p / 6 - 1 + 2 * r, 0⟩) = some S' ∧
    ∃ D σ', Running 2 S' D ∧ AllSynced square4 2 D σ' ∧ boundaries square4.serial σ' ≤ boundaries square4.serial stripes := by
  have hS : Running 2 (fun r => Outcome.ok (⟨fun p => p / 6 - 1 + 2 * r, 0⟩ : RankSt Int)) (fun r p => p / 6 - 1 + 2 * r) := fun r _ => ⟨0, rfl⟩
  have hv : AllValid intCell square4.toSetup 2 (fun r p => p / 6 - 1 + 2 * r) := by
    intro r hr o h0 h1
    have hc : (square4.toSetup.shape r).cells ≤ 24 := by
      have h2 := hr.1
      have h3 := hr.2
      have hr' : r = 0 ∨ r = 1 := by omega
      rcases hr' with rfl | rfl <;> decide +kernel
    have h2 := hr.1
    have h3 := hr.2
    show -2 ^ 31 ≤ o / 6 - 1 + 2 * r ∧ o / 6 - 1 + 2 * r < 2 ^ 31
    omega
  have hσ : ∀ r, IsRank 2 r → ∀ x, (square4.shape r).IsNode x → cellAt (square4.shape r) (fun p => p / 6 - 1 + 2 * r) x = cellAt square4.serial stripes x := by
    intro r hr x hx
    have h2 := hr.1
    have h3 := hr.2
    have e1 : square4.serial.rawOffset x = x 0 * 4 + x 1 := by
      simp [square4, World.serial, FileIO.serialShape, Shape.rawOffset, encode, Shape.sx, Shape.s0, Shape.s1, slice, Finset.sum_range_succ]
    have e2 : ∀ g : Shape, g.dim = 2 → g.ghosts = 1 → g.x1 1 = 4 → g.x0 1 = 0 → g.rawOffset x = (x 0 - (g.x0 0 - 1)) * 6 + (x 1 + 1) := by
      intro g h1 h2 h3 h4
      simp [Shape.rawOffset, encode, Shape.sx, Shape.s0, Shape.s1, slice, Finset.sum_range_succ, h1, h2, h3, h4]
    have hr' : r = 0 ∨ r = 1 := by omega
    have h1 : (square4.shape r).x1 1 = 4 ∧ (square4.shape r).x0 1 = 0 ∧ (square4.shape r).x0 0 = 2 * r := by
      rcases hr' with rfl | rfl <;> decide +kernel
    have h4 := hx 1 (show 1 < 2 by decide)
    unfold cellAt stripes
    rw [e1, e2 _ rfl rfl h1.1 h1.2.1]
    dsimp only
    rw [h1.2.2]
    omega
  have hen : ∀ step < 3, ∀ sub < numSublattices square4.d, ∀ r, IsRank 2 r → Enough square4 sub r (firstCell r step sub) := by
    intro step _ sub hsub r hr
    have h2 := hr.1
    have h3 := hr.2
    have hr' : r = 0 ∨ r = 1 := by omega
    have hsub : sub < 4 := hsub
    unfold Enough firstCell
    rcases hr' with rfl | rfl <;> revert sub <;> decide +kernel
  have hret := (ranks_return_iff (hotDouble bestExp 2147483647) intCell_roundTrips square4_ok firstCell 3 hS hv hσ).2 hen
  obtain ⟨S', hS'⟩ := Option.isSome_iff_exists.1 hret
  obtain ⟨D, σ', h1, h2, h3, -⟩ := shipped_ranks intCell_roundTrips square4_ok bestExp_underflows _ firstCell 3 hS hv hσ hS'
  exact ⟨S', hS', D, σ', h1, h2, h3⟩

end

end MMSP.MonteCarlo
