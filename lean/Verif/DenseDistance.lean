import Verif.IeeeDense
/-!
# Property C121: two runs of the isotropic grain-growth and Zener-pinning examples, and how far the `double`s are from exact arithmetic

The programs of C87 and C118 (isotropic/phase_field/graingrowth.cpp 73-111, zener_pinning/isotropic/phase_field/zener.cpp 104-142) run twice: with real numbers from two initial grids, and with IEEE numbers beside real ones.
-/

namespace MMSP.DenseDistance

open MMSP.Ieee MMSP.Ieee.Num MMSP.Stencil MMSP.ParallelRun MMSP.Symmetry MMSP.IeeeDense
open IeeeConfine (lapVal lapVal_near lapLoad timesThree roundedCube sub_exact)
open Finset (sum_congr mem_range sum_le_sum mul_sum sum_mul mem_erase sum_nonneg abs_sum_le_sum_abs sum_range_succ)

/-! ## Specification -/

/-- The right-hand side of one field in exact arithmetic: `v` are the fields of the node, `F` and `G` field `j` of the neighbours, `w` the weights of the axes. -/
noncomputable def node (d n : Nat) (w : Nat → ℝ) (c : ℝ) (v : Nat → ℝ) (j : Nat) (F G : Nat → ℝ) : ℝ :=
  v j - c * (-v j - v j ^ 3 + 2 * (v j * ∑ i ∈ Finset.range n, v i * v i - ∑ i ∈ Finset.range d, w i * (F i - 2 * v j + G i)))

/-- The time step is small enough for the fields to stay between 0 and 1. -/
structure Small (d n : Nat) (w : Nat → ℝ) (c : ℝ) : Prop where
  c0 : 0 ≤ c
  w0 : ∀ i, i < d → 0 ≤ w i
  le : c * (2 * n + 4 * ∑ i ∈ Finset.range d, w i) ≤ 1
  le2 : c * (2 + 4 * ∑ i ∈ Finset.range d, w i) ≤ 1

/-- How fast two runs with `m` other changing fields can part. -/
noncomputable def rate (m : Nat) : ℝ := max 1 (2 * m - 2)

/-! ## One node -/

/-- The reaction part of `node`. -/
noncomputable def react (n : Nat) (c W : ℝ) (v : Nat → ℝ) (j : Nat) : ℝ := (1 + c - 4 * c * W) * v j + c * v j ^ 3 - 2 * c * v j * ∑ i ∈ Finset.range n, v i * v i

theorem node_eq (d n : Nat) (w : Nat → ℝ) (c : ℝ) (v : Nat → ℝ) (j : Nat) (F G : Nat → ℝ) :
    node d n w c v j F G = react n c (∑ i ∈ Finset.range d, w i) v j + 2 * c * ∑ i ∈ Finset.range d, w i * (F i + G i) := by
  have e : ∑ i ∈ Finset.range d, w i * (F i - 2 * v j + G i) = ∑ i ∈ Finset.range d, w i * (F i + G i) - 2 * v j * ∑ i ∈ Finset.range d, w i := by
    rw [mul_sum, ← Finset.sum_sub_distrib]; exact sum_congr rfl fun i _ => by ring
  unfold node react
  rw [e]; ring

theorem sum_split {n j : Nat} (hj : j < n) (v : Nat → ℝ) : ∑ i ∈ Finset.range n, v i * v i = v j * v j + ∑ i ∈ (Finset.range n).erase j, v i * v i :=
  (Finset.add_sum_erase _ _ (mem_range.2 hj)).symm

theorem others_le {n j : Nat} (hj : j < n) {v : Nat → ℝ} (hv : ∀ i, i < n → 0 ≤ v i ∧ v i ≤ 1) : 0 ≤ ∑ i ∈ (Finset.range n).erase j, v i * v i ∧ ∑ i ∈ (Finset.range n).erase j, v i * v i ≤ n - 1 := by
  refine ⟨sum_nonneg fun i _ => mul_self_nonneg _, ?_⟩
  have h1 : ∑ i ∈ (Finset.range n).erase j, v i * v i ≤ ∑ _i ∈ (Finset.range n).erase j, (1 : ℝ) := sum_le_sum fun i hi => by
    obtain ⟨a, b⟩ := hv i (mem_range.1 (mem_erase.1 hi).2)
    nlinarith
  rw [Finset.sum_const, Finset.card_erase_of_mem (mem_range.2 hj), Finset.card_range, nsmul_eq_mul, mul_one] at h1
  rwa [Nat.cast_sub (by omega), Nat.cast_one] at h1

/-- Exact arithmetic keeps the fields between 0 and 1. -/
theorem node_frac {d n : Nat} {w : Nat → ℝ} {c : ℝ} (hs : Small d n w c) {v : Nat → ℝ} (hv : ∀ i, i < n → 0 ≤ v i ∧ v i ≤ 1) {j : Nat} (hj : j < n) {F G : Nat → ℝ}
    (hF : ∀ i, i < d → 0 ≤ F i ∧ F i ≤ 1) (hG : ∀ i, i < d → 0 ≤ G i ∧ G i ≤ 1) : 0 ≤ node d n w c v j F G ∧ node d n w c v j F G ≤ 1 := by
  obtain ⟨a, b⟩ := hv j hj
  obtain ⟨t0, t1⟩ := others_le hj hv
  have W0 : 0 ≤ ∑ i ∈ Finset.range d, w i := sum_nonneg fun i hi => hs.w0 i (mem_range.1 hi)
  have l0 : 0 ≤ ∑ i ∈ Finset.range d, w i * (F i + G i) := sum_nonneg fun i hi => by
    have := hs.w0 i (mem_range.1 hi); have := hF i (mem_range.1 hi); have := hG i (mem_range.1 hi)
    exact mul_nonneg ‹_› (by linarith)
  have l1 : ∑ i ∈ Finset.range d, w i * (F i + G i) ≤ 2 * ∑ i ∈ Finset.range d, w i := by
    rw [mul_sum]
    exact sum_le_sum fun i hi => by
      have := hs.w0 i (mem_range.1 hi); have := hF i (mem_range.1 hi); have := hG i (mem_range.1 hi)
      nlinarith
  rw [node_eq]
  unfold react
  rw [sum_split hj]
  have h1 := hs.le
  have h2 := hs.le2
  have c0 := hs.c0
  set T := ∑ i ∈ (Finset.range n).erase j, v i * v i
  set W := ∑ i ∈ Finset.range d, w i
  set L := ∑ i ∈ Finset.range d, w i * (F i + G i)
  have e : (1 + c - 4 * c * W) * v j + c * v j ^ 3 - 2 * c * v j * (v j * v j + T) = v j * (1 - 4 * c * W + c * (1 - v j * v j) - 2 * c * T) := by ring
  rw [e]
  have k1 : c * T ≤ c * (n - 1) := mul_le_mul_of_nonneg_left t1 c0
  have k2 : 0 ≤ c * (1 - v j * v j) := mul_nonneg c0 (by nlinarith)
  have k3 : 0 ≤ 2 * c * L := by positivity
  have k4 : 2 * c * L ≤ 4 * c * W := by nlinarith
  constructor
  · have : 0 ≤ v j * (1 - 4 * c * W + c * (1 - v j * v j) - 2 * c * T) := mul_nonneg a (by nlinarith)
    linarith
  · have : v j * (1 - 4 * c * W + c * (1 - v j * v j) - 2 * c * T) ≤ v j * (1 - 4 * c * W + c * (1 - v j * v j)) := mul_le_mul_of_nonneg_left (by nlinarith) a
    have : 0 ≤ (1 - v j) * (1 - 4 * c * W - c * (v j * (1 + v j))) := mul_nonneg (by linarith) (by nlinarith)
    nlinarith

/-- Derivative of `react` at `u` in the direction `δ`. -/
noncomputable def slope (n : Nat) (c W : ℝ) (u δ : Nat → ℝ) (j : Nat) : ℝ :=
  (1 + c - 4 * c * W + 3 * c * u j ^ 2 - 2 * c * ∑ i ∈ Finset.range n, u i * u i) * δ j - 4 * c * u j * ∑ i ∈ Finset.range n, u i * δ i

/-- Simpson's rule is exact for cubics. -/
theorem react_diff (n : Nat) (c W : ℝ) (v v' : Nat → ℝ) (j : Nat) :
    react n c W v' j - react n c W v j =
      (slope n c W v (fun i => v' i - v i) j + 4 * slope n c W (fun i => (v i + v' i) / 2) (fun i => v' i - v i) j + slope n c W v' (fun i => v' i - v i) j) / 6 := by
  have e1 : ∑ i ∈ Finset.range n, (v i + v' i) / 2 * ((v i + v' i) / 2) = (∑ i ∈ Finset.range n, v i * v i + 2 * ∑ i ∈ Finset.range n, v i * v' i + ∑ i ∈ Finset.range n, v' i * v' i) / 4 := by
    rw [mul_sum, ← Finset.sum_add_distrib, ← Finset.sum_add_distrib, Finset.sum_div]; exact sum_congr rfl fun i _ => by ring
  have e2 : ∑ i ∈ Finset.range n, (v i + v' i) / 2 * (v' i - v i) = (∑ i ∈ Finset.range n, v' i * v' i - ∑ i ∈ Finset.range n, v i * v i) / 2 := by
    rw [← Finset.sum_sub_distrib, Finset.sum_div]; exact sum_congr rfl fun i _ => by ring
  have e3 : ∑ i ∈ Finset.range n, v i * (v' i - v i) = ∑ i ∈ Finset.range n, v i * v' i - ∑ i ∈ Finset.range n, v i * v i := by
    rw [← Finset.sum_sub_distrib]; exact sum_congr rfl fun i _ => by ring
  have e4 : ∑ i ∈ Finset.range n, v' i * (v' i - v i) = ∑ i ∈ Finset.range n, v' i * v' i - ∑ i ∈ Finset.range n, v i * v' i := by
    rw [← Finset.sum_sub_distrib]; exact sum_congr rfl fun i _ => by ring
  unfold slope react
  rw [e1, e2, e3, e4]
  ring

/-- The slope is at most that of a run with `m` other changing fields. -/
theorem slope_le {n : Nat} {c W : ℝ} (c0 : 0 ≤ c) (hc : c * (2 * n + 4 * W) ≤ 1) {u : Nat → ℝ} (hu : ∀ i, i < n → 0 ≤ u i ∧ u i ≤ 1) {δ : Nat → ℝ} {E : ℝ} (hE : 0 ≤ E) {live : Nat → Bool}
    (hd : ∀ i, i < n → |δ i| ≤ E) (hz : ∀ i, i < n → live i = false → δ i = 0) {j m : Nat} (hj : j < n) (hm : (((Finset.range n).erase j).filter fun i => live i = true).card ≤ m) :
    |slope n c W u δ j| ≤ (1 + c * rate m - 4 * c * W) * E := by
  obtain ⟨a, b⟩ := hu j hj
  obtain ⟨t0, t1⟩ := others_le hj hu
  have e : slope n c W u δ j = (1 + c - 4 * c * W - 3 * c * u j ^ 2 - 2 * c * ∑ i ∈ (Finset.range n).erase j, u i * u i) * δ j - 4 * c * u j * ∑ i ∈ (Finset.range n).erase j, u i * δ i := by
    unfold slope
    rw [sum_split hj, ← Finset.add_sum_erase _ (fun i => u i * δ i) (mem_range.2 hj)]
    ring
  have key : ∑ i ∈ (Finset.range n).erase j, (4 * u j * |u i * δ i| - 2 * (u i * u i) * E) ≤ 2 * m * u j ^ 2 * E := by
    have h1 : ∀ i ∈ (Finset.range n).erase j, 4 * u j * |u i * δ i| - 2 * (u i * u i) * E ≤ if live i = true then 2 * u j ^ 2 * E else 0 := fun i hi => by
      have hi' := mem_range.1 (mem_erase.1 hi).2
      obtain ⟨p, q⟩ := hu i hi'
      rw [abs_mul, abs_of_nonneg p]
      split_ifs with hl
      · have h2 : 4 * u j * (u i * |δ i|) ≤ 4 * u j * (u i * E) := by
          have := hd i hi'
          have : u i * |δ i| ≤ u i * E := mul_le_mul_of_nonneg_left this p
          nlinarith
        nlinarith [mul_nonneg (sq_nonneg (u i - u j)) hE]
      · rw [hz i hi' (by simpa using hl), abs_zero, mul_zero, mul_zero, zero_sub]
        have := mul_nonneg (mul_self_nonneg (u i)) hE
        linarith
    refine (sum_le_sum h1).trans ?_
    rw [← Finset.sum_filter, Finset.sum_const, nsmul_eq_mul]
    have h3 : ((((Finset.range n).erase j).filter fun i => live i = true).card : ℝ) ≤ m := by exact_mod_cast hm
    have h4 := mul_le_mul_of_nonneg_right h3 (mul_nonneg (mul_nonneg (by norm_num : (0 : ℝ) ≤ 2) (sq_nonneg (u j))) hE)
    linarith
  have abs2 : |∑ i ∈ (Finset.range n).erase j, u i * δ i| ≤ ∑ i ∈ (Finset.range n).erase j, |u i * δ i| := abs_sum_le_sum_abs _ _
  rw [Finset.sum_sub_distrib, ← mul_sum, ← sum_mul, ← mul_sum] at key
  rw [e]
  set T := ∑ i ∈ (Finset.range n).erase j, u i * u i
  set B := ∑ i ∈ (Finset.range n).erase j, |u i * δ i|
  have kT : c * T ≤ c * (n - 1) := mul_le_mul_of_nonneg_left t1 c0
  have u2 : u j ^ 2 ≤ 1 := pow_le_one₀ a b
  have ku : c * u j ^ 2 ≤ c := mul_le_of_le_one_right c0 u2
  have D0 : 0 ≤ 1 + c - 4 * c * W - 3 * c * u j ^ 2 - 2 * c * T := by nlinarith
  have s1 : |(1 + c - 4 * c * W - 3 * c * u j ^ 2 - 2 * c * T) * δ j| ≤ (1 + c - 4 * c * W - 3 * c * u j ^ 2 - 2 * c * T) * E := by
    rw [abs_mul, abs_of_nonneg D0]; exact mul_le_mul_of_nonneg_left (hd j hj) D0
  have s2 : |4 * c * u j * ∑ i ∈ (Finset.range n).erase j, u i * δ i| ≤ 4 * c * u j * B := by
    rw [abs_mul, abs_of_nonneg (by positivity)]; exact mul_le_mul_of_nonneg_left abs2 (by positivity)
  refine (abs_sub _ _).trans ((add_le_add s1 s2).trans ?_)
  have k5 : c * (4 * u j * B - 2 * T * E) ≤ c * (2 * m * u j ^ 2 * E) := mul_le_mul_of_nonneg_left key c0
  have k6 : 1 + (2 * (m : ℝ) - 3) * u j ^ 2 ≤ rate m := by
    unfold rate
    rcases le_or_gt (2 * (m : ℝ) - 3) 0 with h | h
    · exact le_max_of_le_left (by nlinarith [sq_nonneg (u j)])
    · exact le_max_of_le_right (by nlinarith)
  have k7 : c * E * (1 + (2 * (m : ℝ) - 3) * u j ^ 2) ≤ c * E * rate m := mul_le_mul_of_nonneg_left k6 (mul_nonneg c0 hE)
  nlinarith

/-- Two nodes after a step of exact arithmetic. -/
theorem node_gap {d n : Nat} {w : Nat → ℝ} {c : ℝ} (hs : Small d n w c) {v v' : Nat → ℝ} (hv : ∀ i, i < n → 0 ≤ v i ∧ v i ≤ 1) (hv' : ∀ i, i < n → 0 ≤ v' i ∧ v' i ≤ 1) {E : ℝ} (hE : 0 ≤ E)
    {live : Nat → Bool} (hd : ∀ i, i < n → |v' i - v i| ≤ E) (hz : ∀ i, i < n → live i = false → v' i = v i) {j m : Nat} (hj : j < n)
    (hm : (((Finset.range n).erase j).filter fun i => live i = true).card ≤ m) {F G F' G' : Nat → ℝ} (hF : ∀ i, i < d → |F' i - F i| ≤ E) (hG : ∀ i, i < d → |G' i - G i| ≤ E) :
    |node d n w c v' j F' G' - node d n w c v j F G| ≤ (1 + c * rate m) * E := by
  rw [node_eq, node_eq]
  have c0 := hs.c0
  set W := ∑ i ∈ Finset.range d, w i
  have hdz : ∀ i, i < n → live i = false → v' i - v i = 0 := fun i hi hl => by rw [hz i hi hl, sub_self]
  have r1 := slope_le c0 hs.le hv (δ := fun i => v' i - v i) hE hd hdz hj hm
  have r2 := slope_le c0 hs.le (u := fun i => (v i + v' i) / 2) (fun i hi => ⟨by linarith [(hv i hi).1, (hv' i hi).1], by linarith [(hv i hi).2, (hv' i hi).2]⟩) (δ := fun i => v' i - v i) hE hd hdz hj hm
  have r3 := slope_le c0 hs.le hv' (δ := fun i => v' i - v i) hE hd hdz hj hm
  have hr := react_diff n c W v v' j
  have hl : |∑ i ∈ Finset.range d, w i * (F' i + G' i) - ∑ i ∈ Finset.range d, w i * (F i + G i)| ≤ 2 * W * E := by
    rw [← Finset.sum_sub_distrib]
    refine (abs_sum_le_sum_abs _ _).trans ?_
    rw [mul_assoc, sum_mul, mul_sum]
    refine sum_le_sum fun i hi => ?_
    have hi := mem_range.1 hi
    rw [← mul_sub, abs_mul, abs_of_nonneg (hs.w0 i hi)]
    have : |F' i + G' i - (F i + G i)| ≤ 2 * E := by
      rw [show F' i + G' i - (F i + G i) = F' i - F i + (G' i - G i) by ring]
      exact (abs_add_le _ _).trans (by linarith [hF i hi, hG i hi])
    have := mul_le_mul_of_nonneg_left this (hs.w0 i hi)
    linarith
  set L' := ∑ i ∈ Finset.range d, w i * (F' i + G' i)
  set L := ∑ i ∈ Finset.range d, w i * (F i + G i)
  have e : react n c W v' j + 2 * c * L' - (react n c W v j + 2 * c * L) = (react n c W v' j - react n c W v j) + 2 * c * (L' - L) := by ring
  rw [e, hr]
  obtain ⟨a1, a2⟩ := abs_le.1 r1
  obtain ⟨b1, b2⟩ := abs_le.1 r2
  obtain ⟨d1, d2⟩ := abs_le.1 r3
  obtain ⟨l1, l2⟩ := abs_le.1 hl
  have m1 := mul_le_mul_of_nonneg_left l1 (by linarith : (0 : ℝ) ≤ 2 * c)
  have m2 := mul_le_mul_of_nonneg_left l2 (by linarith : (0 : ℝ) ≤ 2 * c)
  exact abs_le.2 ⟨by linarith, by linarith⟩

/-! ## Two runs side by side -/

/-- Which fields change: all of them, or all but the particles. -/
def term {T : Type} [Zero T] [One T] [Add T] [Sub T] [Mul T] [Neg T] (live : Nat → Bool) (cube : T → T) (dt : T) (n : Nat) (l y : List T) (j : Nat) : T :=
  if live j then isoTerm cube dt n l y j else y.getD j 0

theorem iso_term {T : Type} [Zero T] [One T] [Add T] [Sub T] [Mul T] [Neg T] (cube : T → T) (dt : T) (n : Nat) : isoTerm cube dt n = term (fun _ => true) cube dt n := rfl

theorem zener_term {T : Type} [Zero T] [One T] [Add T] [Sub T] [Mul T] [Neg T] (cube : T → T) (dt : T) (n : Nat) : zenerTerm cube dt n = term (fun j => j != 0) cube dt n := by
  funext l y j
  unfold zenerTerm term
  by_cases h : j = 0 <;> simp [h]

section Step
variable {T T' : Type} [Zero T] [One T] [Add T] [Sub T] [Mul T] [Div T] [Zero T'] [One T'] [Add T'] [Sub T'] [Mul T'] [Div T']

/-- A relation between cells that every node keeps is kept by two runs. -/
theorem run_pairs {g : Shape} (hg : Room 1 g) {n : Nat} {dx : Nat → T} {dx' : Nat → T'} {value : List T → List T → Nat → T} {value' : List T' → List T' → Nat → T'} {P : Nat → List T → List T' → Prop}
    (hP : ∀ k a b, P k a b → a.length = n ∧ b.length = n)
    (hnode : ∀ k (data : Int → List T) (data' : Int → List T') x, g.IsNode x → Compare.Pairs g (P k) data data' →
      P (k + 1) ((List.range n).map (value (lapList g n dx data x) (cellAt g data x))) ((List.range n).map (value' (lapList g n dx' data' x) (cellAt g data' x))))
    (steps : Nat) {σ : Grids (List T)} {τ : Grids (List T')} (h : Compare.Pairs g (P 0) (σ 0) (τ 0)) :
    ∃ σ' τ', serialRun g (evolveUpdate (isoKernel g.dim n dx value) steps) σ = .ok σ' ∧ serialRun g (evolveUpdate (isoKernel g.dim n dx' value') steps) τ = .ok τ' ∧ Compare.Pairs g (P steps) (σ' 0) (τ' 0) := by
  have e0 : ∀ k, serialRun g (evolveUpdate (isoKernel g.dim n dx value) k) σ = serialRun g (repeatProg [.loop 1 (isoKernel g.dim n dx value), .swap 0 1, .ghostswap 0] k) σ := fun k => by
    unfold evolveUpdate serialRun; rw [List.foldlM_cons]; rfl
  have e0' : ∀ k, serialRun g (evolveUpdate (isoKernel g.dim n dx' value') k) τ = serialRun g (repeatProg [.loop 1 (isoKernel g.dim n dx' value'), .swap 0 1, .ghostswap 0] k) τ := fun k => by
    unfold evolveUpdate serialRun; rw [List.foldlM_cons]; rfl
  simp only [e0, e0']
  induction steps with
  | zero => exact ⟨σ, τ, rfl, rfl, h⟩
  | succ k ih =>
    obtain ⟨σ1, τ1, e1, e2, h1⟩ := ih
    obtain ⟨σ2, e3, h3⟩ := iso_one hg dx value (n := n) (σ := σ1) fun x hx => (hP _ _ _ (h1 x hx)).1
    obtain ⟨τ2, e4, h4⟩ := iso_one hg dx' value' (n := n) (σ := τ1) fun x hx => (hP _ _ _ (h1 x hx)).2
    refine ⟨σ2, τ2, by rw [repeatProg_succ, ParallelRun.serialRun_append, e1, Outcome.ok_bind, e3], by rw [repeatProg_succ, ParallelRun.serialRun_append, e2, Outcome.ok_bind, e4], fun x hx => ?_⟩
    rw [h3 x hx, h4 x hx]
    exact hnode k _ _ x hx h1

end Step

/-- The program's right-hand side with real numbers. -/
theorem isoTerm_node {g : Shape} {n j : Nat} (hj : j < n) {dx w : Nat → ℝ} (hdx : ∀ i, i < g.dim → lapWeight (dx i) = w i) (c : ℝ) (data : Int → List ℝ) (x : Nat → Int) :
    isoTerm (fun a => a ^ 3) c n (lapList g n dx data x) (cellAt g data x) j =
      node g.dim n w c (fun i => (cellAt g data x).getD i 0) j (fun i => (cellAt g data (wrap g (bump x i 1))).getD j 0) (fun i => (cellAt g data (wrap g (bump x i (-1)))).getD j 0) := by
  have fold : ∀ (h : Nat → ℝ) (k : Nat), (List.range k).foldl (fun s i => s + h i) 0 = ∑ i ∈ Finset.range k, h i := fun h k => by
    induction k with
    | zero => rfl
    | succ k ih => rw [List.range_succ, List.foldl_append, ih, sum_range_succ]; rfl
  have e : (List.range g.dim).foldl (fun a i => a + lapWeight (dx i) * ((cellAt g data (wrap g (bump x i 1))).getD j 0 - (1 + 1) * (cellAt g data x).getD j 0 +
      (cellAt g data (wrap g (bump x i (-1)))).getD j 0)) 0 =
      ∑ i ∈ Finset.range g.dim, w i * ((cellAt g data (wrap g (bump x i 1))).getD j 0 - 2 * (cellAt g data x).getD j 0 + (cellAt g data (wrap g (bump x i (-1)))).getD j 0) := by
    rw [fold (fun i => lapWeight (dx i) * ((cellAt g data (wrap g (bump x i 1))).getD j 0 - (1 + 1) * (cellAt g data x).getD j 0 + (cellAt g data (wrap g (bump x i (-1)))).getD j 0))]
    exact sum_congr rfl fun i hi => by rw [hdx i (mem_range.1 hi), one_add_one_eq_two]
  unfold isoTerm node squares
  rw [lapList_getD g hj, e, fold (fun j => (cellAt g data x).getD j 0 * (cellAt g data x).getD j 0), one_add_one_eq_two]

/-- Real cells of `n` numbers from 0 to 1 that differ by at most `E`, and only in fields that change. -/
def Close (n : Nat) (live : Nat → Bool) (E : ℝ) (a b : List ℝ) : Prop :=
  a.length = n ∧ b.length = n ∧ ∀ j, j < n → (0 ≤ a.getD j 0 ∧ a.getD j 0 ≤ 1) ∧ (0 ≤ b.getD j 0 ∧ b.getD j 0 ≤ 1) ∧ |b.getD j 0 - a.getD j 0| ≤ E ∧ (live j = false → b.getD j 0 = a.getD j 0)

theorem getD_map {T : Type} [Zero T] {n j : Nat} (hj : j < n) (v : Nat → T) : ((List.range n).map v).getD j 0 = v j := by
  rw [List.getD_eq_getElem _ _ (by simpa using hj)]
  simp

theorem near_node {g : Shape} (hg : Room 1 g) {x : Nat → Int} (hx : g.IsNode x) (i : Nat) {t : Int} (ht : t = 1 ∨ t = -1) : g.IsNode (wrap g (bump x i t)) :=
  near_reach hg.reach hx fun j _ => by unfold bump; by_cases e : j = i <;> simp [e]; omega

theorem term_stable {g : Shape} (hg : Room 1 g) {n m : Nat} {live : Nat → Bool} (hm : ∀ j, j < n → live j = true → (((Finset.range n).erase j).filter fun i => live i = true).card ≤ m) {dx w : Nat → ℝ}
    (hdx : ∀ i, i < g.dim → lapWeight (dx i) = w i) {c : ℝ} (hs : Small g.dim n w c) {E : ℝ} (steps : Nat) {σ τ : Grids (List ℝ)} (h : Compare.Pairs g (Close n live E) (σ 0) (τ 0)) :
    ∃ σ' τ', serialRun g (evolveUpdate (isoKernel g.dim n dx (term live (fun a => a ^ 3) c n)) steps) σ = .ok σ' ∧
      serialRun g (evolveUpdate (isoKernel g.dim n dx (term live (fun a => a ^ 3) c n)) steps) τ = .ok τ' ∧ Compare.Pairs g (Close n live ((1 + c * rate m) ^ steps * E)) (σ' 0) (τ' 0) := by
  have grow : 1 ≤ 1 + c * rate m := by
    have : 0 ≤ c * rate m := mul_nonneg hs.c0 (le_trans zero_le_one (le_max_left _ _))
    linarith
  refine run_pairs hg (P := fun k => Close n live ((1 + c * rate m) ^ k * E)) (fun k a b h => ⟨h.1, h.2.1⟩) (fun k data data' x hx hp => ?_) steps (by simpa using h)
  refine ⟨by simp, by simp, fun j hj => ?_⟩
  rw [getD_map hj, getD_map hj]
  have here := (hp x hx).2.2
  obtain ⟨p1, p2, p3, p4⟩ := here j hj
  have hE : 0 ≤ (1 + c * rate m) ^ k * E := (abs_nonneg _).trans p3
  unfold term
  by_cases hl : live j = true
  · rw [if_pos hl, if_pos hl, isoTerm_node hj hdx, isoTerm_node hj hdx]
    have pl : ∀ i, i < g.dim → _ := fun i _ => (hp _ (near_node hg hx i (.inl rfl))).2.2 j hj
    have mi : ∀ i, i < g.dim → _ := fun i _ => (hp _ (near_node hg hx i (.inr rfl))).2.2 j hj
    refine ⟨node_frac hs (fun i hi => (here i hi).1) hj (fun i hi => (pl i hi).1) fun i hi => (mi i hi).1, node_frac hs (fun i hi => (here i hi).2.1) hj (fun i hi => (pl i hi).2.1) fun i hi => (mi i hi).2.1,
      ?_, fun h0 => by rw [hl] at h0; exact absurd h0 (by decide)⟩
    have := node_gap hs (fun i hi => (here i hi).1) (fun i hi => (here i hi).2.1) hE (fun i hi => (here i hi).2.2.1) (fun i hi => (here i hi).2.2.2) hj (hm j hj hl)
      (fun i hi => (pl i hi).2.2.1) (fun i hi => (mi i hi).2.2.1)
    rw [pow_succ']
    linarith
  · rw [if_neg hl, if_neg hl]
    refine ⟨p1, p2, p3.trans ?_, p4⟩
    rw [pow_succ', mul_assoc]
    exact le_mul_of_one_le_left hE grow

theorem others_live {n j : Nat} (hj : j < n) : (((Finset.range n).erase j).filter fun _ => true = true).card ≤ n - 1 := by
  refine (Finset.card_filter_le _ _).trans ?_
  rw [Finset.card_erase_of_mem (mem_range.2 hj), Finset.card_range]

theorem others_zener {n j : Nat} (hj : j < n) (h0 : (j != 0) = true) : (((Finset.range n).erase j).filter fun i => (i != 0) = true).card ≤ n - 2 := by
  have h0 : j ≠ 0 := by simpa using h0
  refine (Finset.card_le_card (t := ((Finset.range n).erase j).erase 0) fun i hi => ?_).trans ?_
  · obtain ⟨h1, h2⟩ := Finset.mem_filter.1 hi
    exact mem_erase.2 ⟨by simpa using h2, h1⟩
  · rw [Finset.card_erase_of_mem (mem_erase.2 ⟨h0.symm, mem_range.2 (by omega)⟩), Finset.card_erase_of_mem (mem_range.2 hj), Finset.card_range]; omega

/-- **C121.** Exact arithmetic: two initial grids of fields between 0 and 1 that differ by at most `E` give results that differ by at most `(1+dt*rate)^steps` times that. With two fields `rate` is 1. -/
theorem growth_stable {g : Shape} (hg : Room 1 g) {n : Nat} {dx w : Nat → ℝ} (hdx : ∀ i, i < g.dim → lapWeight (dx i) = w i) {c : ℝ} (hs : Small g.dim n w c) {E : ℝ} (steps : Nat) {σ τ : Grids (List ℝ)}
    (h : Compare.Pairs g (Close n (fun _ => true) E) (σ 0) (τ 0)) :
    ∃ σ' τ', serialRun g (evolveUpdate (isoKernel g.dim n dx (isoTerm (fun a => a ^ 3) c n)) steps) σ = .ok σ' ∧
      serialRun g (evolveUpdate (isoKernel g.dim n dx (isoTerm (fun a => a ^ 3) c n)) steps) τ = .ok τ' ∧ Compare.Pairs g (Close n (fun _ => true) ((1 + c * rate (n - 1)) ^ steps * E)) (σ' 0) (τ' 0) := by
  rw [iso_term]
  exact term_stable hg (fun j hj _ => others_live hj) hdx hs steps h

/-- **C121.** The same for Zener pinning with equal particles; one field less counts. -/
theorem zener_stable {g : Shape} (hg : Room 1 g) {n : Nat} {dx w : Nat → ℝ} (hdx : ∀ i, i < g.dim → lapWeight (dx i) = w i) {c : ℝ} (hs : Small g.dim n w c) {E : ℝ} (steps : Nat) {σ τ : Grids (List ℝ)}
    (h : Compare.Pairs g (Close n (fun j => j != 0) E) (σ 0) (τ 0)) :
    ∃ σ' τ', serialRun g (evolveUpdate (isoKernel g.dim n dx (zenerTerm (fun a => a ^ 3) c n)) steps) σ = .ok σ' ∧
      serialRun g (evolveUpdate (isoKernel g.dim n dx (zenerTerm (fun a => a ^ 3) c n)) steps) τ = .ok τ' ∧ Compare.Pairs g (Close n (fun j => j != 0) ((1 + c * rate (n - 2)) ^ steps * E)) (σ' 0) (τ' 0) := by
  rw [zener_term]
  exact term_stable hg (fun j hj hl => others_zener hj hl) hdx hs steps h

/-! ## Rounding -/

section
variable {f : Fmt}

theorem sqVal_near (hf : f.Good) {v : Nat → ℝ} {n : Nat} (hv : ∀ j, j < n → 0 ≤ v j ∧ v j ≤ 1) : Near f (n + 1) (sqVal f v n) (∑ i ∈ Finset.range n, v i * v i) (n + tiny f) := by
  induction n with
  | zero => exact Near.exact _ (by simp [sqVal, (tiny_pos f).le]) (by simp)
  | succ n ih =>
    obtain ⟨a, b⟩ := hv n (by omega)
    have h1 := ih fun j h => hv j (by omega)
    have h2 : Near f 1 (rnd f (v n * v n)) (v n * v n) 1 := (Near.exact (f := f) 0 (by rw [abs_of_nonneg (mul_self_nonneg _)]; nlinarith) (tiny_le_one hf)).round
    rw [sum_range_succ]
    exact (h1.add (h2.weaken (l := n + 1) (by omega))).wider (le_of_eq (by push_cast; ring))

/-- Numbers that enter one step. -/
noncomputable def load (f : Fmt) (d n : Nat) (w : Nat → ℝ) : ℝ := 2 + 2 * (n + 2 * tiny f + lapLoad f d w)

theorem bracket_near (hf : f.Good) {d n : Nat} {w : Nat → ℝ} {v : Nat → ℝ} (hv : ∀ j, j < n → 0 ≤ v j ∧ v j ≤ 1) {j : Nat} (hj : j < n) {q : ℝ} (hq : Near f 2 q (v j ^ 3) 1) {F G : Nat → ℝ}
    (w0 : ∀ i, i < d → 0 ≤ w i) (hF : ∀ i, i < d → 0 ≤ F i ∧ F i ≤ 1) (hG : ∀ i, i < d → 0 ≤ G i ∧ G i ≤ 1) :
    Near f (max (n + 2) (d + 3) + 2) (bracket f (v j) q (sqVal f v n) (lapVal f w (v j) F G d))
      (-v j - v j ^ 3 + 2 * (v j * ∑ i ∈ Finset.range n, v i * v i - ∑ i ∈ Finset.range d, w i * (F i - 2 * v j + G i))) (load f d n w) := by
  obtain ⟨a, b⟩ := hv j hj
  have av : |v j| ≤ 1 := by rwa [abs_of_nonneg a]
  have h1 : Near f 3 (rnd f (-v j - q)) (-v j - v j ^ 3) 2 := ((Near.exact (f := f) 2 (y := -v j) (m := 1) (by rwa [abs_neg]) (tiny_le_one hf)).sub hq).wider (by norm_num)
  have h2 := (sqVal_near hf hv).mul (v j)
  have h2 := h2.wider (m' := n + 2 * tiny f) (by
    have : |v j| * (n + tiny f) ≤ n + tiny f := mul_le_of_le_one_left (by have := tiny_pos f; positivity) av
    linarith)
  have ab : ∀ {x : ℝ}, 0 ≤ x ∧ x ≤ 1 → |x| ≤ 1 := fun {x} h => by rw [abs_of_nonneg h.1]; exact h.2
  have h3 := lapVal_near hf w0 av (fun i hi => ab (hF i hi)) fun i hi => ab (hG i hi)
  have h4 := (h2.weaken (l := max (n + 2) (d + 3)) (le_max_left _ _)).sub (h3.weaken (l := max (n + 2) (d + 3)) (le_max_right _ _))
  have h5 := h4.add_exactly h4
  rw [← two_mul, ← two_mul, ← two_mul] at h5
  exact (h1.weaken (l := max (n + 2) (d + 3) + 1) (by omega)).add h5

/-- What one step adds to the distance: its rounding errors and the error of `dt`. -/
noncomputable def stray (f : Fmt) (d n : Nat) (w : Nat → ℝ) (cv c : ℝ) : ℝ :=
  ε f + ((1 + ε f) ^ (max (n + 2) (d + 3) + 4) - 1) * (cv * load f d n w + tiny f) + |cv - c| * load f d n w

theorem step_stray (hf : f.Good) {d n : Nat} {w : Nat → ℝ} {cv : ℝ} (c0 : 0 ≤ cv) (c : ℝ) {v : Nat → ℝ} (hv : ∀ j, j < n → 0 ≤ v j ∧ v j ≤ 1) {j : Nat} (hj : j < n) {q : ℝ} (hq : Near f 2 q (v j ^ 3) 1)
    {F G : Nat → ℝ} (w0 : ∀ i, i < d → 0 ≤ w i) (hF : ∀ i, i < d → 0 ≤ F i ∧ F i ≤ 1) (hG : ∀ i, i < d → 0 ≤ G i ∧ G i ≤ 1) :
    |rnd f (v j - rnd f (cv * bracket f (v j) q (sqVal f v n) (lapVal f w (v j) F G d))) - node d n w c v j F G| ≤ stray f d n w cv c := by
  obtain ⟨a, b⟩ := hv j hj
  have hb := bracket_near hf hv hj hq w0 hF hG
  have hc := hb.mul cv
  rw [abs_of_nonneg c0] at hc
  have h := sub_exact (v j) hc
  unfold stray node
  have hB := hb.2.1
  set B := -v j - v j ^ 3 + 2 * (v j * ∑ i ∈ Finset.range n, v i * v i - ∑ i ∈ Finset.range d, w i * (F i - 2 * v j + G i))
  set y := rnd f (v j - rnd f (cv * bracket f (v j) q (sqVal f v n) (lapVal f w (v j) F G d)))
  rw [show y - (v j - c * B) = (y - (v j - cv * B)) + -((cv - c) * B) by ring]
  refine (abs_add_le _ _).trans (add_le_add (h.trans (add_le_add ?_ le_rfl)) ?_)
  · rw [abs_of_nonneg a]; exact mul_le_of_le_one_right (ε_pos f).le b
  · rw [abs_neg, abs_mul]; exact mul_le_mul_of_nonneg_left hB (abs_nonneg _)

/-- A cell of IEEE numbers beside a cell of real numbers, all from 0 to 1: at most `E` apart, and only in fields that change. -/
def Beside (n : Nat) (live : Nat → Bool) (E : ℝ) (a : List (Num f)) (b : List ℝ) : Prop :=
  a.length = n ∧ b.length = n ∧ ∀ j, j < n → ∃ x, Is (a.getD j 0) x ∧ (0 ≤ x ∧ x ≤ 1) ∧ (0 ≤ b.getD j 0 ∧ b.getD j 0 ≤ 1) ∧ |x - b.getD j 0| ≤ E ∧ (live j = false → x = b.getD j 0)

theorem term_distance {cube : Num f → Num f} (hcube : Cubed cube) {g : Shape} (hroom : Room 1 g) {k s n m : Nat} {cv : ℝ} (hg : Gentle f g.dim k s cv) {dt : Num f} (hdt : Is dt cv) (hn : n ≤ 2 ^ s)
    {live : Nat → Bool} (hm : ∀ j, j < n → live j = true → (((Finset.range n).erase j).filter fun i => live i = true).card ≤ m) {dx : Nat → Num f} {w : Nat → ℝ}
    (hw : ∀ i, i < g.dim → Is (lapWeight (dx i)) (w i) ∧ 0 ≤ w i ∧ w i ≤ 2 ^ k) {dx' : Nat → ℝ} (hdx : ∀ i, i < g.dim → lapWeight (dx' i) = w i) {c : ℝ} (hs : Small g.dim n w c) {E : ℝ} (steps : Nat)
    {σ : Grids (List (Num f))} {τ : Grids (List ℝ)} (h : Compare.Pairs g (Beside n live E) (σ 0) (τ 0)) :
    ∃ σ' τ', serialRun g (evolveUpdate (isoKernel g.dim n dx (term live cube dt n)) steps) σ = .ok σ' ∧
      serialRun g (evolveUpdate (isoKernel g.dim n dx' (term live (fun a => a ^ 3) c n)) steps) τ = .ok τ' ∧
      Compare.Pairs g (Beside n live ((1 + c * rate m) ^ steps * E + stray f g.dim n w cv c * ∑ i ∈ Finset.range steps, (1 + c * rate m) ^ i)) (σ' 0) (τ' 0) := by
  have grow : 1 ≤ 1 + c * rate m := by
    have : 0 ≤ c * rate m := mul_nonneg hs.c0 (le_trans zero_le_one (le_max_left _ _))
    linarith
  have w0 : ∀ i, i < g.dim → 0 ≤ w i := fun i hi => (hw i hi).2.1
  obtain ⟨σ', τ', e1, e2, hP⟩ := run_pairs hroom (n := n) (dx := dx) (dx' := dx') (value := term live cube dt n) (value' := term live (fun a => a ^ 3) c n)
    (P := fun i => Beside n live (Compare.spread (1 + c * rate m) (stray f g.dim n w cv c) E i)) (fun i a b h => ⟨h.1, h.2.1⟩) (fun i data data' x hx hp => by
      refine ⟨by simp, by simp, fun j hj => ?_⟩
      rw [getD_map hj, getD_map hj]
      have here := (hp x hx).2.2
      have pl : ∀ a, a < g.dim → _ := fun a _ => (hp _ (near_node hroom hx a (.inl rfl))).2.2 j hj
      have mi : ∀ a, a < g.dim → _ := fun a _ => (hp _ (near_node hroom hx a (.inr rfl))).2.2 j hj
      choose! v hv using here
      choose! F hF using pl
      choose! G hG using mi
      obtain ⟨i1, p1, p2, p3, p4⟩ := hv j hj
      rw [Compare.spread]
      set S := Compare.spread (1 + c * rate m) (stray f g.dim n w cv c) E i
      have hS : 0 ≤ S := (abs_nonneg _).trans p3
      unfold term
      by_cases hl : live j = true
      · rw [if_pos hl, if_pos hl, isoTerm_node hj hdx]
        obtain ⟨q, hq, iv, v0, v1⟩ := isoTerm_val hcube hg hdt hn hw (fun i hi => ⟨(hv i hi).1, (hv i hi).2.1⟩) hj (fun i hi => ⟨(hF i hi).1, (hF i hi).2.1⟩) (fun i hi => ⟨(hG i hi).1, (hG i hi).2.1⟩)
          (lapList_getD g hj dx data x)
        refine ⟨_, iv, ⟨v0, v1⟩, node_frac hs (fun i hi => (hv i hi).2.2.1) hj (fun i hi => (hF i hi).2.2.1) fun i hi => (hG i hi).2.2.1, ?_, fun h0 => by rw [hl] at h0; exact absurd h0 (by decide)⟩
        have hst := step_stray hg.good hg.c0 c (fun i hi => (hv i hi).2.1) hj hq w0 (fun i hi => (hF i hi).2.1) fun i hi => (hG i hi).2.1
        have hgap := node_gap hs (fun i hi => (hv i hi).2.2.1) (fun i hi => (hv i hi).2.1) hS (fun i hi => (hv i hi).2.2.2.1) (fun i hi => (hv i hi).2.2.2.2) hj (hm j hj hl)
          (fun i hi => (hF i hi).2.2.2.1) (fun i hi => (hG i hi).2.2.2.1)
        have := abs_add_le _ _ |>.trans (add_le_add hst hgap)
        rw [sub_add_sub_cancel] at this
        linarith
      · rw [if_neg hl, if_neg hl]
        refine ⟨_, i1, p1, p2, p3.trans ?_, p4⟩
        have st : 0 ≤ stray f g.dim n w cv c := by
          obtain ⟨q, _, hq, _⟩ := hcube.near _ _ i1 p1.1 p1.2
          exact (abs_nonneg _).trans (step_stray hg.good hg.c0 c (fun i hi => (hv i hi).2.1) hj hq w0 (fun i hi => (hF i hi).2.1) fun i hi => (hG i hi).2.1)
        have := le_mul_of_one_le_left hS grow
        linarith)
    steps (σ := σ) (τ := τ) h
  refine ⟨σ', τ', e1, e2, ?_⟩
  rw [← Compare.spread_eq]
  exact hP

/-- **C121.** Isotropic grain growth in IEEE numbers beside exact arithmetic: the initial distance grows by the factor of `growth_stable`, and so does the error of each step. -/
theorem growth_distance {cube : Num f → Num f} (hcube : Cubed cube) {g : Shape} (hroom : Room 1 g) {k s n : Nat} {cv : ℝ} (hg : Gentle f g.dim k s cv) {dt : Num f} (hdt : Is dt cv) (hn : n ≤ 2 ^ s)
    {dx : Nat → Num f} {w : Nat → ℝ} (hw : ∀ i, i < g.dim → Is (lapWeight (dx i)) (w i) ∧ 0 ≤ w i ∧ w i ≤ 2 ^ k) {dx' : Nat → ℝ} (hdx : ∀ i, i < g.dim → lapWeight (dx' i) = w i) {c : ℝ}
    (hs : Small g.dim n w c) {E : ℝ} (steps : Nat) {σ : Grids (List (Num f))} {τ : Grids (List ℝ)} (h : Compare.Pairs g (Beside n (fun _ => true) E) (σ 0) (τ 0)) :
    ∃ σ' τ', serialRun g (evolveUpdate (isoKernel g.dim n dx (isoTerm cube dt n)) steps) σ = .ok σ' ∧
      serialRun g (evolveUpdate (isoKernel g.dim n dx' (isoTerm (fun a => a ^ 3) c n)) steps) τ = .ok τ' ∧
      Compare.Pairs g (Beside n (fun _ => true) ((1 + c * rate (n - 1)) ^ steps * E + stray f g.dim n w cv c * ∑ i ∈ Finset.range steps, (1 + c * rate (n - 1)) ^ i)) (σ' 0) (τ' 0) := by
  rw [iso_term, iso_term]
  exact term_distance hcube hroom hg hdt hn (fun j hj _ => others_live hj) hw hdx hs steps h

/-- **C121.** Zener pinning: the particles are equal to the last bit, and one field less counts. -/
theorem zener_distance {cube : Num f → Num f} (hcube : Cubed cube) {g : Shape} (hroom : Room 1 g) {k s n : Nat} {cv : ℝ} (hg : Gentle f g.dim k s cv) {dt : Num f} (hdt : Is dt cv) (hn : n ≤ 2 ^ s)
    {dx : Nat → Num f} {w : Nat → ℝ} (hw : ∀ i, i < g.dim → Is (lapWeight (dx i)) (w i) ∧ 0 ≤ w i ∧ w i ≤ 2 ^ k) {dx' : Nat → ℝ} (hdx : ∀ i, i < g.dim → lapWeight (dx' i) = w i) {c : ℝ}
    (hs : Small g.dim n w c) {E : ℝ} (steps : Nat) {σ : Grids (List (Num f))} {τ : Grids (List ℝ)} (h : Compare.Pairs g (Beside n (fun j => j != 0) E) (σ 0) (τ 0)) :
    ∃ σ' τ', serialRun g (evolveUpdate (isoKernel g.dim n dx (zenerTerm cube dt n)) steps) σ = .ok σ' ∧
      serialRun g (evolveUpdate (isoKernel g.dim n dx' (zenerTerm (fun a => a ^ 3) c n)) steps) τ = .ok τ' ∧
      Compare.Pairs g (Beside n (fun j => j != 0) ((1 + c * rate (n - 2)) ^ steps * E + stray f g.dim n w cv c * ∑ i ∈ Finset.range steps, (1 + c * rate (n - 2)) ^ i)) (σ' 0) (τ' 0) := by
  rw [zener_term, zener_term]
  exact term_distance hcube hroom hg hdt hn (fun j hj hl => others_zener hj hl) hw hdx hs steps h

end

/-! ## The examples as shipped -/

/-- `dt = 0.01`, spacing 1, up to three dimensions and fifteen fields. -/
theorem shipped_small {d n : Nat} (hd : d ≤ 3) (hn : n ≤ 15) : Small d n (fun _ => 1) (1 / 100) := by
  have h1 : (d : ℝ) ≤ 3 := by exact_mod_cast hd
  have h2 : (n : ℝ) ≤ 15 := by exact_mod_cast hn
  refine ⟨by norm_num, fun _ _ => zero_le_one, ?_, ?_⟩ <;> simp only [Finset.sum_const, Finset.card_range, nsmul_eq_mul, mul_one] <;> linarith

theorem shipped_stray {d n : Nat} (hd : d ≤ 3) (hn : n ≤ 3) : stray double d n (fun _ => 1) (5764607523034235 * 2 ^ (-59 : ℤ)) (1 / 100) ≤ 5 * ε double := by
  have ht := IeeeConfine.tiny_double
  have h0 := (tiny_pos double).le
  unfold stray load lapLoad
  rw [IeeeConfine.ε_double, abs_of_nonneg (by norm_num : (0 : ℝ) ≤ 5764607523034235 * 2 ^ (-59 : ℤ) - 1 / 100)]
  interval_cases d <;> interval_cases n <;> norm_num at ht ⊢ <;> nlinarith

theorem geometric {steps : Nat} (hn : steps ≤ 1000) : ∑ j ∈ Finset.range steps, (101 / 100 : ℝ) ^ j ≤ 100 * (271 / 100) ^ 10 := by
  have hgeo : ∀ n : Nat, ∑ j ∈ Finset.range n, (101 / 100 : ℝ) ^ j = 100 * (101 / 100) ^ n - 100 := fun n => by
    induction n with
    | zero => simp
    | succ n ih => rw [sum_range_succ, ih]; ring
  have hm : ((101 : ℝ) / 100) ^ steps ≤ (101 / 100) ^ 1000 := pow_le_pow_right₀ (by norm_num) hn
  have h1 : ((101 : ℝ) / 100) ^ 100 ≤ 271 / 100 := by norm_num
  have h2 : ((101 : ℝ) / 100) ^ 1000 ≤ (271 / 100) ^ 10 := by
    rw [show 1000 = 100 * 10 from rfl, pow_mul]; exact pow_le_pow_left₀ (by norm_num) h1 10
  have h3 := mul_le_mul_of_nonneg_left (hm.trans h2) (by norm_num : (0 : ℝ) ≤ 100)
  rw [hgeo]
  exact (sub_le_self _ (by norm_num)).trans h3

theorem rate_one {m : Nat} (h : m ≤ 1) : 1 + 1 / 100 * rate m = 101 / 100 := by
  have : rate m = 1 := by
    unfold rate
    interval_cases m <;> norm_num
  rw [this]; norm_num

theorem beside_wider {f : Fmt} {n : Nat} {live : Nat → Bool} {E E' : ℝ} (h : E ≤ E') {a : List (Num f)} {b : List ℝ} (hb : Beside n live E a b) : Beside n live E' a b :=
  ⟨hb.1, hb.2.1, fun j hj => by
    obtain ⟨x, h1, h2, h3, h4, h5⟩ := hb.2.2 j hj
    exact ⟨x, h1, h2, h3, h4.trans h, h5⟩⟩

theorem thousand {d n steps : Nat} (hd : d ≤ 3) (hn : n ≤ 3) (hs : steps ≤ 1000) {m : Nat} (hm : m ≤ 1) :
    (1 + 1 / 100 * rate m) ^ steps * 0 + stray double d n (fun _ => 1) (5764607523034235 * 2 ^ (-59 : ℤ)) (1 / 100) * ∑ i ∈ Finset.range steps, (1 + 1 / 100 * rate m) ^ i ≤ 2 / 10 ^ 9 := by
  rw [mul_zero, zero_add, rate_one hm]
  refine (mul_le_mul (shipped_stray hd hn) (geometric hs) (sum_nonneg fun _ _ => by positivity) (by rw [IeeeConfine.ε_double]; norm_num)).trans ?_
  rw [IeeeConfine.ε_double]
  norm_num

/-- **C121.** One thousand steps of both examples in `double`s, underflow and overflow included, from values between 0 and 1 that `double` can hold: within `2·10^-9` of exact arithmetic at every node, in one, two or
three dimensions. graingrowth.cpp 17-67 has two fields, zener.cpp 17-100 three. -/
theorem shipped_thousand {cube : Num double → Num double} (hcube : Cubed cube) {g : Shape} (hroom : Room 1 g) (hd : g.dim ≤ 3) {steps : Nat} (hs : steps ≤ 1000) {σ : Grids (List (Num double))} {τ : Grids (List ℝ)} :
    (Compare.Pairs g (Beside 2 (fun _ => true) 0) (σ 0) (τ 0) → ∃ σ' τ', serialRun g (evolveUpdate (isoKernel g.dim 2 (fun _ => 1) (isoTerm cube IeeeConfine.dt 2)) steps) σ = .ok σ' ∧
      serialRun g (evolveUpdate (isoKernel g.dim 2 (fun _ => 1) (isoTerm (fun a => a ^ 3) (1 / 100) 2)) steps) τ = .ok τ' ∧ Compare.Pairs g (Beside 2 (fun _ => true) (2 / 10 ^ 9)) (σ' 0) (τ' 0)) ∧
    (Compare.Pairs g (Beside 3 (fun j => j != 0) 0) (σ 0) (τ 0) → ∃ σ' τ', serialRun g (evolveUpdate (isoKernel g.dim 3 (fun _ => 1) (zenerTerm cube IeeeConfine.dt 3)) steps) σ = .ok σ' ∧
      serialRun g (evolveUpdate (isoKernel g.dim 3 (fun _ => 1) (zenerTerm (fun a => a ^ 3) (1 / 100) 3)) steps) τ = .ok τ' ∧ Compare.Pairs g (Beside 3 (fun j => j != 0) (2 / 10 ^ 9)) (σ' 0) (τ' 0)) := by
  have hw : ∀ i, i < g.dim → Is (lapWeight (1 : Num double)) 1 ∧ (0 : ℝ) ≤ 1 ∧ (1 : ℝ) ≤ 2 ^ 0 := fun _ _ => ⟨IeeeConfine.weight_one double_good, zero_le_one, by norm_num⟩
  constructor <;> intro h
  · obtain ⟨σ', τ', e1, e2, hP⟩ := growth_distance hcube hroom (shipped_gentle hd) IeeeConfine.dt_is (n := 2) (by decide) hw (dx' := fun _ => 1) (fun _ _ => by simp [lapWeight]) (shipped_small hd (by decide)) steps h
    exact ⟨σ', τ', e1, e2, fun x hx => beside_wider (thousand hd (by decide) hs le_rfl) (hP x hx)⟩
  · obtain ⟨σ', τ', e1, e2, hP⟩ := zener_distance hcube hroom (shipped_gentle hd) IeeeConfine.dt_is (n := 3) (by decide) hw (dx' := fun _ => 1) (fun _ _ => by simp [lapWeight]) (shipped_small hd (by decide)) steps h
    exact ⟨σ', τ', e1, e2, fun x hx => beside_wider (thousand hd le_rfl hs le_rfl) (hP x hx)⟩

/-- **C121.** The same for the parallel program, any number of ranks, stale ghosts: every rank's nodes are within `2·10^-9` of the exact serial run. -/
theorem ranks_thousand {cube : Num double → Num double} (hcube : Cubed cube) {w : World} {np n : Nat} {c : Nat → Cell (List (Num double))} (hc : ∀ k, RoundTrips (c k))
    (hPc : ∀ k v, Entries (Num double) n k v → (c k).Valid v) (h : w.Ok np) (hgh : 1 ≤ w.ghosts) (hroom : Room 1 w.serial) (hd : w.d ≤ 3) {steps : Nat} (hs : steps ≤ 1000)
    {σ : Grids (List (Num double))} {D : Int → Grids (List (Num double))} {τ : Grids (List ℝ)} (hF : SameField w np σ D 0) (hS : AllCells w np (Entries (Num double) n) σ D) :
    (n = 2 → Compare.Pairs w.serial (Beside n (fun _ => true) 0) (σ 0) (τ 0) → ∃ D' τ', Finished np (mpiRun c w (evolveUpdate (isoKernel w.d n (fun _ => 1) (isoTerm cube IeeeConfine.dt n)) steps) fun r => .ok (D r)) D' ∧
      serialRun w.serial (evolveUpdate (isoKernel w.d n (fun _ => 1) (isoTerm (fun a => a ^ 3) (1 / 100) n)) steps) τ = .ok τ' ∧
      ∀ r, Ghost.IsRank np r → ∀ x, (w.shape r).IsNode x → Beside n (fun _ => true) (2 / 10 ^ 9) (cellAt (w.shape r) (D' r 0) x) (cellAt w.serial (τ' 0) x)) ∧
    (n = 3 → Compare.Pairs w.serial (Beside n (fun j => j != 0) 0) (σ 0) (τ 0) → ∃ D' τ', Finished np (mpiRun c w (evolveUpdate (isoKernel w.d n (fun _ => 1) (zenerTerm cube IeeeConfine.dt n)) steps) fun r => .ok (D r)) D' ∧
      serialRun w.serial (evolveUpdate (isoKernel w.d n (fun _ => 1) (zenerTerm (fun a => a ^ 3) (1 / 100) n)) steps) τ = .ok τ' ∧
      ∀ r, Ghost.IsRank np r → ∀ x, (w.shape r).IsNode x → Beside n (fun j => j != 0) (2 / 10 ^ 9) (cellAt (w.shape r) (D' r 0) x) (cellAt w.serial (τ' 0) x)) := by
  constructor <;> rintro rfl hb
  · obtain ⟨σ', D', e1, e2, e3⟩ := isoDense_parallel hc hPc h hgh (fun _ => 1) (isoTerm cube IeeeConfine.dt 2) steps hF hS
    obtain ⟨σ2, τ', f1, f2, f3⟩ := (shipped_thousand hcube hroom hd hs (σ := σ) (τ := τ)).1 hb
    obtain rfl : σ2 = σ' := Outcome.ok.inj (f1.symm.trans e1)
    exact ⟨D', τ', e2, f2, fun r hr x hx => by rw [e3 r hr x hx]; exact f3 x (Ghost.isNode_global h.setup hr hx)⟩
  · obtain ⟨σ', D', e1, e2, e3⟩ := isoDense_parallel hc hPc h hgh (fun _ => 1) (zenerTerm cube IeeeConfine.dt 3) steps hF hS
    obtain ⟨σ2, τ', f1, f2, f3⟩ := (shipped_thousand hcube hroom hd hs (σ := σ) (τ := τ)).2 hb
    obtain rfl : σ2 = σ' := Outcome.ok.inj (f1.symm.trans e1)
    exact ⟨D', τ', e2, f2, fun r hr x hx => by rw [e3 r hr x hx]; exact f3 x (Ghost.isNode_global h.setup hr hx)⟩

/-- **C121.** Two computers whose `pow` rounds differently, and on which the program may be parallel or not: the results of a thousand steps from the same grid differ by at most `4·10^-9`. -/
theorem two_machines {cube cube' : Num double → Num double} (hcube : Cubed cube) (hcube' : Cubed cube') {g : Shape} (hroom : Room 1 g) (hd : g.dim ≤ 3) {steps : Nat} (hs : steps ≤ 1000) {σ : Grids (List (Num double))}
    (h : Compare.AllNodes g (Fracs 2) (σ 0)) :
    ∃ σ1 σ2, serialRun g (evolveUpdate (isoKernel g.dim 2 (fun _ => 1) (isoTerm cube IeeeConfine.dt 2)) steps) σ = .ok σ1 ∧
      serialRun g (evolveUpdate (isoKernel g.dim 2 (fun _ => 1) (isoTerm cube' IeeeConfine.dt 2)) steps) σ = .ok σ2 ∧
      Compare.Pairs g (fun a b => ∀ j, j < 2 → ∃ x y, Is (a.getD j 0) x ∧ Is (b.getD j 0) y ∧ |x - y| ≤ 4 / 10 ^ 9) (σ1 0) (σ2 0) := by
  have val : ∀ a : Num double, ∃ x, Frac a → Is a x ∧ 0 ≤ x ∧ x ≤ 1 := fun a => by
    by_cases ha : Frac a
    · obtain ⟨x, hx⟩ := ha; exact ⟨x, fun _ => hx⟩
    · exact ⟨0, fun h => absurd h ha⟩
  choose V hV using val
  have hb : Compare.Pairs g (Beside 2 (fun _ => true) 0) (σ 0) fun p => ((σ 0) p).map V := fun x hx => by
    obtain ⟨h1, h2⟩ := h x hx
    refine ⟨h1, by show ((cellAt g (σ 0) x).map V).length = 2; rw [List.length_map, h1], fun j hj => ?_⟩
    have e : (cellAt g (fun p => ((σ 0) p).map V) x).getD j 0 = V ((cellAt g (σ 0) x).getD j 0) := by
      show ((cellAt g (σ 0) x).map V).getD j 0 = _
      rw [List.getD_eq_getElem _ _ (by rw [List.length_map, h1]; exact hj), List.getElem_map, List.getD_eq_getElem _ _ (by rw [h1]; exact hj)]
    have hf := hV _ (fracs_getD (h x hx) hj)
    rw [e]
    exact ⟨_, hf.1, hf.2, hf.2, by rw [sub_self, abs_zero], fun _ => rfl⟩
  obtain ⟨σ1, τ1, e1, e2, p1⟩ := (shipped_thousand hcube hroom hd hs (σ := σ) (τ := fun _ p => ((σ 0) p).map V)).1 hb
  obtain ⟨σ2, τ2, e3, e4, p2⟩ := (shipped_thousand hcube' hroom hd hs (σ := σ) (τ := fun _ p => ((σ 0) p).map V)).1 hb
  obtain rfl : τ1 = τ2 := Outcome.ok.inj (e2.symm.trans e4)
  refine ⟨σ1, σ2, e1, e3, fun x hx j hj => ?_⟩
  obtain ⟨a, a1, _, _, a4, _⟩ := (p1 x hx).2.2 j hj
  obtain ⟨b, b1, _, _, b4, _⟩ := (p2 x hx).2.2 j hj
  refine ⟨a, b, a1, b1, ?_⟩
  obtain ⟨q1, q2⟩ := abs_le.1 a4
  obtain ⟨r1, r2⟩ := abs_le.1 b4
  exact abs_le.2 ⟨by linarith, by linarith⟩

/-! ## Examples -/

/-- Two initial grids, one hundredth apart in both fields. -/
example : ∃ σ' τ' : Grids (List ℝ), serialRun (Conserve.line .periodic .periodic) (evolveUpdate (isoKernel 1 2 (fun _ => 1) (isoTerm (fun a => a ^ 3) (1 / 100) 2)) 100) (fun _ n => if n = 1 then [1, 0] else [0, 1]) = .ok σ' ∧
    serialRun (Conserve.line .periodic .periodic) (evolveUpdate (isoKernel 1 2 (fun _ => 1) (isoTerm (fun a => a ^ 3) (1 / 100) 2)) 100) (fun _ n => if n = 1 then [99 / 100, 1 / 100] else [1 / 100, 99 / 100]) = .ok τ' ∧
    Compare.Pairs (Conserve.line .periodic .periodic) (Close 2 (fun _ => true) (271 / 10000)) (σ' 0) (τ' 0) := by
  obtain ⟨σ', τ', e1, e2, h⟩ := growth_stable (n := 2) (line_room .periodic (by decide)) (dx := fun _ => 1) (w := fun _ => 1) (fun _ _ => by simp [lapWeight]) (shipped_small (by decide) (by decide)) (E := 1 / 100) 100
    (σ := fun _ n => if n = 1 then [1, 0] else [0, 1]) (τ := fun _ n => if n = 1 then [99 / 100, 1 / 100] else [1 / 100, 99 / 100]) fun x _ => by
      show Close 2 _ _ (if _ = (1 : Int) then [(1 : ℝ), 0] else [0, 1]) (if _ = (1 : Int) then [(99 / 100 : ℝ), 1 / 100] else [1 / 100, 99 / 100])
      split_ifs <;> refine ⟨rfl, rfl, fun j hj => ?_⟩ <;> interval_cases j <;> norm_num [abs_le]
  refine ⟨σ', τ', e1, e2, fun x hx => ?_⟩
  obtain ⟨h1, h2, h3⟩ := h x hx
  refine ⟨h1, h2, fun j hj => ?_⟩
  obtain ⟨a, b, d, e⟩ := h3 j hj
  refine ⟨a, b, d.trans ?_, e⟩
  rw [rate_one le_rfl]
  norm_num

/-- Five hundred steps of two grains on three periodic nodes. -/
example : ∃ σ' τ', serialRun (Conserve.line .periodic .periodic) (evolveUpdate (isoKernel 1 2 (fun _ => 1) (isoTerm timesThree IeeeConfine.dt 2)) 500) (fun _ n => if n = 1 then [1, 0] else [0, 1]) = .ok σ' ∧
    serialRun (Conserve.line .periodic .periodic) (evolveUpdate (isoKernel 1 2 (fun _ => 1) (isoTerm (fun a => a ^ 3) (1 / 100) 2)) 500) (fun _ n => if n = 1 then [1, 0] else [0, 1]) = .ok τ' ∧
    Compare.Pairs (Conserve.line .periodic .periodic) (Beside 2 (fun _ => true) (2 / 10 ^ 9)) (σ' 0) (τ' 0) := by
  refine (shipped_thousand (timesThree_cubed double_good).1 (line_room .periodic (by decide)) (by decide) (by decide)).1 fun x _ => ?_
  show Beside 2 _ _ (if _ = (1 : Int) then [(1 : Num double), 0] else [0, 1]) (if _ = (1 : Int) then [(1 : ℝ), 0] else [0, 1])
  have one : Is (1 : Num double) 1 := is_one double_good
  have zero : Is (0 : Num double) 0 := is_zero
  split_ifs <;> refine ⟨rfl, rfl, fun j hj => ?_⟩ <;> interval_cases j
  · exact ⟨1, one, by norm_num, by norm_num, by norm_num, fun _ => rfl⟩
  · exact ⟨0, zero, by norm_num, by norm_num, by norm_num, fun _ => rfl⟩
  · exact ⟨0, zero, by norm_num, by norm_num, by norm_num, fun _ => rfl⟩
  · exact ⟨1, one, by norm_num, by norm_num, by norm_num, fun _ => rfl⟩

end MMSP.DenseDistance
