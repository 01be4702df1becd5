import Mathlib.Analysis.SpecialFunctions.Pow.Real
import Mathlib.Analysis.SpecialFunctions.Log.Basic
import Mathlib.Analysis.Complex.ExponentialBounds
import Verif.Noise
import Verif.RelaxProps
/-!
# Property C70: Gaussian noise
-/

namespace MMSP.Noise

section
variable {α : Type} [Field α] [LinearOrder α]

/-- Attempt number `k` of a search beginning at call `n` hits the disk without its centre. -/
def Hit (L : Lib α) (n k : Nat) : Prop :=
  0 < uniform L (n + 2 * k) ^ 2 + uniform L (n + 2 * k + 1) ^ 2 ∧ uniform L (n + 2 * k) ^ 2 + uniform L (n + 2 * k + 1) ^ 2 ≤ 1

theorem hit_zero (L : Lib α) (n : Nat) :
    Hit L n 0 ↔ ¬(uniform L n * uniform L n + uniform L (n + 1) * uniform L (n + 1) ≤ 0 ∨ uniform L n * uniform L n + uniform L (n + 1) * uniform L (n + 1) > 1) := by
  unfold Hit
  simp only [Nat.mul_zero, Nat.add_zero, sq, not_or, not_le, not_lt, gt_iff_lt]

theorem hit_succ (L : Lib α) (n k : Nat) : Hit L (n + 2) k ↔ Hit L n (k + 1) := by
  unfold Hit
  rw [show n + 2 + 2 * k = n + 2 * (k + 1) by omega]

/-- The search returns the first hit. -/
theorem pick_first (L : Lib α) {fuel n m : Nat} {p : α × α × α} (h : pick L fuel n = some (p, m)) :
    ∃ k < fuel, Hit L n k ∧ (∀ j < k, ¬ Hit L n j) ∧ m = n + 2 * k + 2 ∧
      p = (uniform L (n + 2 * k), uniform L (n + 2 * k + 1), uniform L (n + 2 * k) ^ 2 + uniform L (n + 2 * k + 1) ^ 2) := by
  induction fuel generalizing n with
  | zero => cases h
  | succ fuel ih =>
    unfold pick at h
    dsimp only at h
    split_ifs at h with hc
    · obtain ⟨k, hk, h1, h2, h3, h4⟩ := ih h
      refine ⟨k + 1, by omega, (hit_succ L n k).1 h1, fun j hj => ?_, by omega, ?_⟩
      · cases j with
        | zero => rw [hit_zero]; exact not_not.2 hc
        | succ j => rw [← hit_succ]; exact h2 j (by omega)
      · rw [h4, show n + 2 + 2 * k = n + 2 * (k + 1) by omega]
    · cases h
      refine ⟨0, by omega, (hit_zero L n).2 hc, fun j hj => by omega, rfl, ?_⟩
      simp only [Nat.mul_zero, Nat.add_zero, sq]

theorem pick_none (L : Lib α) {fuel n : Nat} : pick L fuel n = none ↔ ∀ k < fuel, ¬ Hit L n k := by
  induction fuel generalizing n with
  | zero => exact ⟨fun _ k hk => by omega, fun _ => rfl⟩
  | succ fuel ih =>
    unfold pick
    dsimp only
    split_ifs with hc
    · rw [ih]
      constructor
      · intro h k hk
        cases k with
        | zero => rw [hit_zero]; exact not_not.2 hc
        | succ k => rw [← hit_succ]; exact h k (by omega)
      · intro h k hk
        rw [hit_succ]; exact h _ (by omega)
    · exact ⟨fun h => (by cases h), fun h => absurd ((hit_zero L n).2 hc) (h 0 (Nat.succ_pos _))⟩

/-- **C70.** `gaussian` never returns exactly when nothing is saved and no later pair of random numbers falls into the disk. -/
theorem gaussian_hangs_iff (L : Lib α) (ave std : α) (s : State α) : (∀ fuel, gaussian L fuel ave std s = none) ↔ s.saved = false ∧ ∀ k, ¬ Hit L s.calls k := by
  unfold gaussian
  cases hs : s.saved with
  | true => simp
  | false =>
    simp only [Bool.false_eq_true, if_false, Option.bind_eq_none_iff, true_and]
    constructor
    · intro h k hk
      cases hp : pick L (k + 1) s.calls with
      | none => exact (pick_none L).1 hp k (by omega) hk
      | some q => exact absurd (h (k + 1) q hp) (by simp)
    · intro h fuel q hq
      rw [(pick_none L).2 fun k _ => h k] at hq
      cases hq

/-- **C70.** Two calls on end use one hit: the first returns the first coordinate, the second the other one without drawing; both scaled by the same factor. -/
theorem gaussian_pair (L : Lib α) (fuel fuel' : Nat) (ave std ave' std' : α) {s s1 : State α} {a : α} (hs : s.saved = false) (h : gaussian L fuel ave std s = some (a, s1)) :
    ∃ k, Hit L s.calls k ∧ (∀ j < k, ¬ Hit L s.calls j) ∧
      let x := uniform L (s.calls + 2 * k)
      let y := uniform L (s.calls + 2 * k + 1)
      let d := L.sqrt (-2 * L.log (x ^ 2 + y ^ 2) / (x ^ 2 + y ^ 2))
      a = ave + d * x * std ∧ ∃ s2, gaussian L fuel' ave' std' s1 = some (ave' + d * y * std', s2) ∧ s2.saved = false ∧ s2.calls = s.calls + 2 * k + 2 := by
  unfold gaussian at h
  rw [hs] at h
  simp only [Bool.false_eq_true, if_false] at h
  obtain ⟨⟨p, n⟩, h1, h2⟩ := Option.bind_eq_some_iff.1 h
  obtain ⟨k, -, hk, hj, hn, hp⟩ := pick_first L h1
  dsimp only at h2
  obtain ⟨ha, hs1⟩ := Prod.mk.inj (Option.some.inj h2)
  refine ⟨k, hk, hj, ?_⟩
  dsimp only
  subst hp
  dsimp only at ha hs1
  refine ⟨ha.symm, ?_⟩
  subst hs1
  exact ⟨_, rfl, rfl, hn⟩

/-- **C70.** Spinodal decomposition is model B with all coefficients 1 and mobility `1/(2 dV)`. -/
theorem spinodal_is_modelB (g : Shape) (dx : Nat → α) (dt dV : α) (noise : Nat → Int → α) (n : Nat) (s : Conserve.Fields α) :
    spinodal g dx dt dV noise n s = Conserve.update g dx (fun t i phi l => Conserve.modelBPotential 1 1 1 phi l (noise t i)) (dt * (1 / (2 * dV))) n s := by
  unfold spinodal
  have e1 : dt / (2 * dV) = dt * (1 / (2 * dV)) := by ring
  have e2 : (fun (t : Nat) (i : Int) (phi l : α) => spinodalPotential phi l (noise t i)) = fun t i phi l => Conserve.modelBPotential 1 1 1 phi l (noise t i) := by
    funext t i phi l
    unfold spinodalPotential Conserve.modelBPotential
    ring
  rw [e1, e2]

/-- **C70.** On closed grids the spinodal example conserves its order parameter, whatever the noise. -/
theorem spinodal_conserves {g : Shape} (hs : Conserve.Serial g) (dx : Nat → α) (dt dV : α) (noise : Nat → Int → α) (n : Nat) (s : Conserve.Fields α) :
    ∃ s', spinodal g dx dt dV noise n s = .ok s' ∧ Conserve.total g s'.old = Conserve.total g s.old := Conserve.update_conserves hs dx _ _ n s

end

/-! ## Bounds -/

section
open Real

/-- The library is the one of exact arithmetic, `rand()` keeps to its range, and `RAND_MAX` is odd (as required of `2^k - 1`). -/
structure Good (L : Lib ℝ) : Prop where
  low : ∀ n, 0 ≤ L.rand n
  high : ∀ n, L.rand n ≤ L.randMax
  pos : 0 < L.randMax
  odd : L.randMax % 2 = 1
  sqrt : L.sqrt = Real.sqrt
  log : L.log = Real.log

theorem uniform_eq {L : Lib ℝ} (h : Good L) (n : Nat) : uniform L n = ((2 * L.rand n - L.randMax : Int) : ℝ) / L.randMax := by
  have : (L.randMax : ℝ) ≠ 0 := by exact_mod_cast h.pos.ne'
  unfold uniform
  push_cast
  field_simp

theorem uniform_range {L : Lib ℝ} (h : Good L) (n : Nat) : -1 ≤ uniform L n ∧ uniform L n ≤ 1 := by
  have hm : (0 : ℝ) < L.randMax := by exact_mod_cast h.pos
  have a : (0 : ℝ) ≤ L.rand n := by exact_mod_cast h.low n
  have b : (L.rand n : ℝ) ≤ L.randMax := by exact_mod_cast h.high n
  rw [uniform_eq h, le_div_iff₀ hm, div_le_iff₀ hm]
  push_cast
  constructor <;> linarith

/-- An odd `RAND_MAX` keeps the numbers away from 0. -/
theorem uniform_sq {L : Lib ℝ} (h : Good L) (n : Nat) : 1 / (L.randMax : ℝ) ^ 2 ≤ uniform L n ^ 2 := by
  have hm : (0 : ℝ) < L.randMax := by exact_mod_cast h.pos
  have h1 : (1 : Int) ≤ (2 * L.rand n - L.randMax) ^ 2 := by
    have ho := h.odd
    have : 2 * L.rand n - L.randMax ≠ 0 := by omega
    have := Int.one_le_abs this
    rw [← sq_abs]
    nlinarith
  have h2 : (1 : ℝ) ≤ ((2 * L.rand n - L.randMax : Int) : ℝ) ^ 2 := by exact_mod_cast h1
  rw [uniform_eq h, div_pow]
  gcongr

/-- **C70.** With an odd `RAND_MAX` the centre is never hit: the test `r<=0.0` is never true. -/
theorem centre_never_hit {L : Lib ℝ} (h : Good L) (n : Nat) : 2 / (L.randMax : ℝ) ^ 2 ≤ uniform L n ^ 2 + uniform L (n + 1) ^ 2 ∧ 0 < uniform L n ^ 2 + uniform L (n + 1) ^ 2 := by
  have hm : (0 : ℝ) < L.randMax := by exact_mod_cast h.pos
  have a := uniform_sq h n
  have b := uniform_sq h (n + 1)
  have c : 0 < 1 / (L.randMax : ℝ) ^ 2 := by positivity
  have e : 2 / (L.randMax : ℝ) ^ 2 = 1 / (L.randMax : ℝ) ^ 2 + 1 / (L.randMax : ℝ) ^ 2 := by ring
  constructor <;> linarith

/-- The largest possible deviation, squared. -/
noncomputable def reach (L : Lib ℝ) : ℝ := 2 * Real.log ((L.randMax : ℝ) ^ 2 / 2)

theorem radius {x y : ℝ} (h0 : 0 < x ^ 2 + y ^ 2) (h1 : x ^ 2 + y ^ 2 ≤ 1) :
    (Real.sqrt (-2 * Real.log (x ^ 2 + y ^ 2) / (x ^ 2 + y ^ 2)) * x) ^ 2 + (Real.sqrt (-2 * Real.log (x ^ 2 + y ^ 2) / (x ^ 2 + y ^ 2)) * y) ^ 2 = -2 * Real.log (x ^ 2 + y ^ 2) := by
  have hl : Real.log (x ^ 2 + y ^ 2) ≤ 0 := Real.log_nonpos h0.le h1
  have hq : 0 ≤ -2 * Real.log (x ^ 2 + y ^ 2) / (x ^ 2 + y ^ 2) := div_nonneg (by linarith) h0.le
  rw [mul_pow, mul_pow, Real.sq_sqrt hq, ← mul_add]
  exact div_mul_cancel₀ _ h0.ne'

/-- What the static variables always satisfy: a saved number is within reach. -/
def Inv (L : Lib ℝ) (s : State ℝ) : Prop := s.saved = true → s.v ^ 2 ≤ reach L

theorem gaussian_inv {L : Lib ℝ} (h : Good L) {fuel : Nat} {ave std a : ℝ} {s s1 : State ℝ} (hi : Inv L s) (e : gaussian L fuel ave std s = some (a, s1)) :
    Inv L s1 ∧ (a - ave) ^ 2 ≤ reach L * std ^ 2 := by
  cases hs : s.saved with
  | true =>
    unfold gaussian at e
    rw [hs, if_pos rfl] at e
    obtain ⟨ea, es⟩ := Prod.mk.inj (Option.some.inj e)
    subst ea es
    refine ⟨fun h => (by cases h), ?_⟩
    rw [add_sub_cancel_left, mul_pow]
    exact mul_le_mul_of_nonneg_right (hi hs) (sq_nonneg _)
  | false =>
    have hp := e
    obtain ⟨k, hk, -, ha, s2, e2, -, -⟩ := gaussian_pair L fuel 0 ave std 0 1 hs e
    rw [h.sqrt, h.log] at ha e2
    set x := uniform L (s.calls + 2 * k)
    set y := uniform L (s.calls + 2 * k + 1)
    have hr := radius hk.1 hk.2
    have hm : (0 : ℝ) < L.randMax := by exact_mod_cast h.pos
    have hc : -2 * Real.log (x ^ 2 + y ^ 2) ≤ reach L := by
      have h1 := Real.log_le_log (by positivity) (centre_never_hit h (s.calls + 2 * k)).1
      have h2 : Real.log (2 / (L.randMax : ℝ) ^ 2) = -Real.log ((L.randMax : ℝ) ^ 2 / 2) := by rw [← Real.log_inv, inv_div]
      rw [h2] at h1
      unfold reach
      linarith
    have sv : s1.saved = true := by
      unfold gaussian at hp
      rw [hs] at hp
      simp only [Bool.false_eq_true, if_false] at hp
      obtain ⟨q, -, hq⟩ := Option.bind_eq_some_iff.1 hp
      rw [← (Prod.mk.inj (Option.some.inj hq)).2]
    unfold gaussian at e2
    rw [sv, if_pos rfl] at e2
    have hv := (Prod.mk.inj (Option.some.inj e2)).1
    rw [zero_add, zero_add, mul_one, mul_one] at hv
    constructor
    · intro _
      rw [hv]
      have := sq_nonneg (Real.sqrt (-2 * Real.log (x ^ 2 + y ^ 2) / (x ^ 2 + y ^ 2)) * x)
      linarith
    · rw [ha, add_sub_cancel_left, mul_pow]
      refine mul_le_mul_of_nonneg_right ?_ (sq_nonneg _)
      have := sq_nonneg (Real.sqrt (-2 * Real.log (x ^ 2 + y ^ 2) / (x ^ 2 + y ^ 2)) * y)
      linarith

/-- **C70.** The normal distribution is cut off: of any number of calls, no number deviates from the mean by more than `std` times the square root of `2 log(RAND_MAX²/2)`. -/
theorem series_bounded {L : Lib ℝ} (h : Good L) {fuel : Nat} {ave std : ℝ} {n : Nat} {s s1 : State ℝ} {xs : List ℝ} (hi : Inv L s)
    (e : series L fuel ave std n s = some (xs, s1)) :
    xs.length = n ∧ ∀ x ∈ xs, (x - ave) ^ 2 ≤ reach L * std ^ 2 := by
  induction n generalizing s s1 xs with
  | zero =>
    obtain ⟨ea, -⟩ := Prod.mk.inj (Option.some.inj e)
    subst ea
    exact ⟨rfl, fun x hx => by cases hx⟩
  | succ n ih =>
    unfold series at e
    obtain ⟨⟨x, s2⟩, e1, e⟩ := Option.bind_eq_some_iff.1 e
    obtain ⟨⟨ys, s3⟩, e2, e⟩ := Option.bind_eq_some_iff.1 e
    obtain ⟨ea, -⟩ := Prod.mk.inj (Option.some.inj e)
    subst ea
    obtain ⟨i2, b⟩ := gaussian_inv h hi e1
    obtain ⟨l, c⟩ := ih i2 e2
    exact ⟨by simp [l], List.forall_mem_cons.2 ⟨b, c⟩⟩

/-- glibc: `RAND_MAX` is `2^31 - 1`; the cut-off is below 9.2 standard deviations. -/
theorem reach_glibc {L : Lib ℝ} (h : L.randMax = 2 ^ 31 - 1) : reach L ≤ (92 / 10) ^ 2 := by
  unfold reach
  have h1 : Real.log ((L.randMax : ℝ) ^ 2 / 2) ≤ Real.log (2 ^ 61) := by
    rw [h]
    refine Real.log_le_log (by norm_num) (by norm_num)
  rw [Real.log_pow] at h1
  have := Real.log_two_lt_d9
  push_cast at h1
  linarith

/-- **C70.** Model A with the parameters of the example and glibc's `rand()`, on grids with spacing 1: starting within [-5/2, 5/2] (the example starts from 0) no value ever leaves
that interval, for any random numbers and any number of steps. -/
theorem modelA_glibc {g : Shape} (hg : g.Wf) (h0 : g.ghosts = 0) (hr : SparsePF.Reach .serial g) (hd : g.dim ≤ 3) {L : Lib ℝ} (h : Good L) (hm : L.randMax = 2 ^ 31 - 1) {fuel : Nat} (steps : Nat)
    {s s1 : State ℝ} (hi : Inv L s) {xs : List ℝ} (e : series L fuel 0 (Real.sqrt (2 * (1 / 100) / (1 / 100 * 1))) (steps * g.nodes.toNat) s = some (xs, s1)) {old new : Int → ℝ} (hp : Relax.Between g (-(5 / 2)) (5 / 2) old) :
    ∃ t, Relax.modelARun g (fun _ => 1) (1 / 100) 1 1 1 1 (noiseOf g.nodes xs) steps (old, new) = .ok t ∧ Relax.Between g (-(5 / 2)) (5 / 2) t.1 := by
  obtain ⟨-, hb⟩ := series_bounded h hi e
  have hn : ∀ t, Relax.Between g (-(131 / 10)) (131 / 10) (noiseOf g.nodes xs t) := by
    intro t i _ _
    apply abs_le.1
    unfold noiseOf
    by_cases hl : t * g.nodes.toNat + i.toNat < xs.length
    · rw [List.getD_eq_getElem _ _ hl]
      have h1 := hb _ (List.getElem_mem hl)
      rw [Real.sq_sqrt (by norm_num), sub_zero] at h1
      have h2 := reach_glibc hm
      refine abs_le_of_sq_le_sq ?_ (by norm_num)
      have h3 : reach L * (2 * (1 / 100) / (1 / 100 * 1)) = 2 * reach L := by ring
      rw [h3] at h1
      nlinarith
    · rw [List.getD_eq_default _ _ (by omega)]
      norm_num
  refine Relax.modelA_bounded hg h0 hr (R := 5 / 2) (b := 131 / 10) ?_ hn steps hp
  refine ⟨by norm_num, zero_le_one, zero_le_one, by norm_num, ?_⟩
  have hw : Relax.weight g (fun _ => (1 : ℝ)) = 2 * g.dim := by
    unfold Relax.weight
    simp [mul_comm]
  have h3 : (g.dim : ℝ) ≤ 3 := by exact_mod_cast hd
  rw [hw]
  linarith

/-! ## Examples -/

/-- A generator stuck at one value. -/
noncomputable def stuck (c : Int) : Lib ℝ := ⟨fun _ => c, 2 ^ 31 - 1, Real.sqrt, Real.log⟩

theorem stuck_good {c : Int} (h0 : 0 ≤ c) (h1 : c ≤ 2 ^ 31 - 1) : Good (stuck c) := ⟨fun _ => h0, fun _ => h1, show (0 : Int) < 2 ^ 31 - 1 by decide, show (2 ^ 31 - 1 : Int) % 2 = 1 by decide, rfl, rfl⟩

/-- **C70.** A generator stuck at `RAND_MAX` makes `gaussian` loop for ever. -/
theorem stuck_hangs : ∀ fuel, gaussian (stuck (2 ^ 31 - 1)) fuel 0 1 start = none := by
  rw [gaussian_hangs_iff]
  refine ⟨rfl, fun k hk => ?_⟩
  have e : ∀ n, uniform (stuck (2 ^ 31 - 1)) n = 1 := by
    intro n
    unfold uniform stuck
    norm_num
  have := hk.2
  rw [e, e] at this
  norm_num at this

theorem stuck_hit (n k : Nat) : Hit (stuck (2 ^ 30)) n k := by
  have e : ∀ n, uniform (stuck (2 ^ 30)) n = 1 / (2 ^ 31 - 1) := by
    intro n
    unfold uniform stuck
    norm_num
  unfold Hit
  rw [e, e]
  constructor <;> norm_num

theorem stuck_pick (n : Nat) : ∃ q, pick (stuck (2 ^ 30)) 1 n = some q := by
  cases h : pick (stuck (2 ^ 30)) 1 n with
  | none => exact absurd (stuck_hit n 0) ((pick_none _).1 h 0 (by omega))
  | some q => exact ⟨q, rfl⟩

/-- The hypotheses of the bounds can be met for any number of calls. -/
theorem stuck_series (std : ℝ) (n : Nat) (s : State ℝ) : ∃ q, series (stuck (2 ^ 30)) 1 0 std n s = some q := by
  induction n generalizing s with
  | zero => exact ⟨_, rfl⟩
  | succ n ih =>
    have hg : ∃ q, gaussian (stuck (2 ^ 30)) 1 0 std s = some q := by
      unfold gaussian
      split_ifs
      · exact ⟨_, rfl⟩
      · obtain ⟨q, hq⟩ := stuck_pick s.calls
        rw [hq]
        exact ⟨_, rfl⟩
    obtain ⟨⟨x, s1⟩, hq⟩ := hg
    obtain ⟨r, hr⟩ := ih s1
    exact ⟨(x :: r.1, r.2), by rw [series, hq, Option.bind_some]; dsimp only; rw [hr]; rfl⟩

example (steps : Nat) : ∃ xs t, Relax.modelARun (Relax.square 7) (fun _ => 1) (1 / 100) 1 1 1 1 (noiseOf (Relax.square 7).nodes xs) steps (fun _ => (0 : ℝ), fun _ => 0) = .ok t ∧
    Relax.Between (Relax.square 7) (-(5 / 2)) (5 / 2) t.1 := by
  have hs := Relax.square_serial (n := 7) (by decide)
  obtain ⟨q, hq⟩ := stuck_series (Real.sqrt (2 * (1 / 100) / (1 / 100 * 1))) (steps * (Relax.square 7).nodes.toNat) start
  obtain ⟨t, ht⟩ := modelA_glibc hs.wf hs.ghosts (Relax.reach_of_serial hs) (show 2 ≤ 3 by decide) (stuck_good (by decide) (by decide)) rfl steps (fun h => (by cases h)) hq (old := fun _ => 0) (new := fun _ => 0)
    (fun _ _ _ => ⟨by norm_num, by norm_num⟩)
  exact ⟨q.1, t, ht⟩

end

end MMSP.Noise
