import Verif.SpinDouble
import Verif.EachRunProps
import Verif.ParallelExamplesProps
import Verif.IeeeCodec
import Mathlib.Analysis.SpecialFunctions.Trigonometric.Inverse
import Mathlib.Analysis.SpecialFunctions.Trigonometric.Bounds
import Mathlib.RingTheory.RootsOfUnity.Complex
import Mathlib.Analysis.Real.Pi.Bounds
/-!
# The directions of the Heisenberg example (C127)

`examples/statistical_mechanics/Heisenberg/heisenberg.cpp` 20-26, 35-41, 50-56 (`generate`) and 88-94 (`update`): the direction that is made from two results of `rand()`, with real numbers and
in `double`s.
-/

namespace MMSP.HeisenbergDir

open Finset MMSP.Spin

/-! ## With real numbers -/

/-- `psi`, `heisenberg.cpp` 21, 36, 51, 90; `M` is `RAND_MAX`, `a` the result of `rand()`. -/
noncomputable def psi (M a : Nat) : ℝ := 2 * Real.pi * a / M

/-- `theta`, `heisenberg.cpp` 22, 37, 52, 91. -/
noncomputable def theta (M b : Nat) : ℝ := Real.arccos (1 - 2 * b / M)

/-- The direction, `heisenberg.cpp` 23-25, 38-40, 53-55, 92-94. -/
noncomputable def drawn (M a b : Nat) : Dir ℝ := ![Real.cos (psi M a) * Real.sin (theta M b), Real.sin (psi M a) * Real.sin (theta M b), Real.cos (theta M b)]

/-- **C127.** It is a unit vector, whatever is drawn. -/
theorem drawn_unit (M a b : Nat) : dot (drawn M a b) (drawn M a b) = 1 := by
  have h1 := Real.sin_sq_add_cos_sq (psi M a)
  have h2 := Real.sin_sq_add_cos_sq (theta M b)
  have e : dot (drawn M a b) (drawn M a b) = Real.cos (psi M a) * Real.sin (theta M b) * (Real.cos (psi M a) * Real.sin (theta M b)) +
      Real.sin (psi M a) * Real.sin (theta M b) * (Real.sin (psi M a) * Real.sin (theta M b)) + Real.cos (theta M b) * Real.cos (theta M b) := by
    rw [dot, Fin.sum_univ_three]; rfl
  rw [e]
  linear_combination (Real.sin (theta M b)) ^ 2 * h1 + h2

/-- **C127.** So with real numbers all spins stay unit vectors, without the assumption of C43 on the directions. -/
theorem run_unit {g : Shape} (ht : Torus g) (M : Nat) (hot : ℝ → Nat → Bool) (draws : List (Nat × Nat × Nat × Nat)) {d : Int → Dir ℝ} (hd : ∀ n : Nat, n < g.nodes.toNat → dot (d n) (d n) = 1) :
    ∃ d', draws.foldlM (heisenbergFlip .serial g (drawn M) hot) d = .ok d' ∧ ∀ n : Nat, n < g.nodes.toNat → dot (d' n) (d' n) = 1 := heisenberg_states ht _ (drawn_unit M) hot draws hd

example : Torus (square 8) ∧ ∀ n : Nat, n < (square 8).nodes.toNat → dot ((fun m : Int => drawn 2147483647 (m.toNat) 5) n) ((fun m : Int => drawn 2147483647 (m.toNat) 5) n) = 1 :=
  ⟨square_torus (by decide), fun _ _ => drawn_unit _ _ _⟩

/-- What lies on the unit sphere between two meridians and two heights. Its area is `4 π` times `(β - α) / (2 π) * ((v - u) / 2)`. -/
def Patch (α β u v : ℝ) : Set (Dir ℝ) := {d | ∃ ψ z, α ≤ ψ ∧ ψ ≤ β ∧ u ≤ z ∧ z ≤ v ∧ d = ![Real.cos ψ * √(1 - z ^ 2), Real.sin ψ * √(1 - z ^ 2), z]}

/-- How many of the numbers `0, …, M` divided by `M` lie in an interval. -/
theorem count_interval {M : Nat} (hM : 0 < M) {p q : ℝ} (hp : 0 ≤ p) (hpq : p ≤ q) (hq : q ≤ 1) {S : Finset ℕ} (hS : ∀ k, k ∈ S ↔ k ≤ M ∧ p ≤ (k : ℝ) / M ∧ (k : ℝ) / M ≤ q) :
    M * (q - p) - 1 ≤ (S.card : ℝ) ∧ (S.card : ℝ) ≤ M * (q - p) + 1 := by
  have hM' : (0 : ℝ) < M := by exact_mod_cast hM
  have e : S = Icc ⌈p * M⌉₊ ⌊q * M⌋₊ := by
    ext k
    rw [hS, mem_Icc, Nat.ceil_le, Nat.le_floor_iff (mul_nonneg (hp.trans hpq) hM'.le), le_div_iff₀ hM', div_le_iff₀ hM']
    refine ⟨fun h => h.2, fun h => ⟨?_, h⟩⟩
    have : (k : ℝ) ≤ M := h.2.trans (by nlinarith)
    exact_mod_cast this
  rw [e, Nat.card_Icc]
  have h1 := Nat.lt_floor_add_one (q * M)
  have h2 := Nat.ceil_lt_add_one (show 0 ≤ p * M by positivity)
  have h3 := Nat.floor_le (show 0 ≤ q * M from mul_nonneg (hp.trans hpq) hM'.le)
  have h4 := Nat.le_ceil (p * M)
  constructor
  · have : ((⌊q * M⌋₊ + 1 : ℕ) : ℝ) ≤ ((⌊q * M⌋₊ + 1 - ⌈p * M⌉₊ : ℕ) : ℝ) + (⌈p * M⌉₊ : ℕ) := by exact_mod_cast (by omega : ⌊q * M⌋₊ + 1 ≤ ⌊q * M⌋₊ + 1 - ⌈p * M⌉₊ + ⌈p * M⌉₊)
    push_cast at this
    nlinarith
  · rcases Nat.lt_or_ge (⌊q * M⌋₊ + 1) ⌈p * M⌉₊ with h | h
    · rw [Nat.sub_eq_zero_of_le h.le, Nat.cast_zero]; nlinarith
    · rw [Nat.cast_sub h]; push_cast; nlinarith

/-- The heights. -/
theorem height {M b : Nat} (hb : b ≤ M) : Real.cos (theta M b) = 1 - 2 * b / M := by
  have h0 : (b : ℝ) / M ≤ 1 := div_le_one_of_le₀ (by exact_mod_cast hb) (by positivity)
  have h1 : 0 ≤ (b : ℝ) / M := by positivity
  refine Real.cos_arccos ?_ ?_ <;> rw [mul_div_assoc] <;> linarith

theorem radius (M b : Nat) : Real.sin (theta M b) = √(1 - (1 - 2 * b / M) ^ 2) := Real.sin_arccos _

theorem patch_arith {m p q A B S : ℝ} (hm : 0 ≤ m) (p0 : 0 ≤ p) (p1 : p ≤ 1) (q0 : 0 ≤ q) (q1 : q ≤ 1) (hA0 : 0 ≤ A) (hB0 : 0 ≤ B) (a1 : m * p - 1 ≤ A) (a2 : A ≤ m * p + 1)
    (b1 : m * q - 1 ≤ B) (b2 : B ≤ m * q + 1) (l1 : A * B ≤ S) (l2 : S ≤ (A + 2) * B + (m + 1) * 2) : |S - (m + 1) ^ 2 * (p * q)| ≤ 6 * (m + 1) := by
  have f1 : m * p ≤ m := mul_le_of_le_one_right hm p1
  have f2 : m * q ≤ m := mul_le_of_le_one_right hm q1
  have pq : p * q ≤ 1 := mul_le_one₀ p1 q0 q1
  have f3 : m * (p * q) ≤ m := mul_le_of_le_one_right hm pq
  have g1 : 0 ≤ m * p := mul_nonneg hm p0
  have g2 : 0 ≤ m * q := mul_nonneg hm q0
  have g3 : 0 ≤ p * q := mul_nonneg p0 q0
  have g4 : 0 ≤ m * (p * q) := mul_nonneg hm g3
  have AB : 0 ≤ A * B := mul_nonneg hA0 hB0
  have e : (m + 1) ^ 2 * (p * q) = m * p * (m * q) + 2 * (m * (p * q)) + p * q := by ring
  rw [abs_le, e]
  constructor
  · have h1 : m * p * (m * q) - m * p - m * q ≤ A * B := by
      rcases le_total 1 (m * p) with hp1 | hp1
      · rcases le_total 1 (m * q) with hq1 | hq1
        · have h2 : (m * p - 1) * (m * q - 1) ≤ A * B := mul_le_mul a1 b1 (by linarith) hA0
          have h3 : (m * p - 1) * (m * q - 1) = m * p * (m * q) - m * p - m * q + 1 := by ring
          linarith
        · have := mul_le_of_le_one_right g1 hq1
          linarith
      · have := mul_le_of_le_one_left g2 hp1
        linarith
    linarith
  · have h1 : (A + 2) * B ≤ (m * p + 3) * (m * q + 1) := mul_le_mul (by linarith) b2 hB0 (by linarith)
    have h3 : (m * p + 3) * (m * q + 1) = m * p * (m * q) + m * p + 3 * (m * q) + 3 := by ring
    linarith

/-- **C127.** The directions are uniform on the sphere: the share of the pairs of results of `rand()` whose direction lies between two meridians and two heights is the share of the area, up to
`6 / (RAND_MAX + 1)`. -/
theorem patch_share {M : Nat} (hM : 0 < M) {α β u v : ℝ} (hα : 0 ≤ α) (hαβ : α ≤ β) (hβ : β ≤ 2 * Real.pi) (hu : -1 ≤ u) (huv : u ≤ v) (hv : v ≤ 1) {S : Finset (ℕ × ℕ)}
    (hS : ∀ k, k ∈ S ↔ k.1 ≤ M ∧ k.2 ≤ M ∧ drawn M k.1 k.2 ∈ Patch α β u v) :
    |(S.card : ℝ) / ((M : ℝ) + 1) ^ 2 - (β - α) / (2 * Real.pi) * ((v - u) / 2)| ≤ 6 / ((M : ℝ) + 1) := by
  classical
  have hM' : (1 : ℝ) ≤ M := by exact_mod_cast hM
  have hπ : 0 < 2 * Real.pi := by have := Real.pi_pos; linarith
  set A := (range (M + 1)).filter fun a : ℕ => α / (2 * Real.pi) ≤ (a : ℝ) / M ∧ (a : ℝ) / M ≤ β / (2 * Real.pi) with hA
  set B := (range (M + 1)).filter fun b : ℕ => (1 - v) / 2 ≤ (b : ℝ) / M ∧ (b : ℝ) / M ≤ (1 - u) / 2 with hB
  have hA' : ∀ k, k ∈ A ↔ k ≤ M ∧ α / (2 * Real.pi) ≤ (k : ℝ) / M ∧ (k : ℝ) / M ≤ β / (2 * Real.pi) := fun k => by rw [hA, mem_filter, mem_range, Nat.lt_succ_iff]
  have hB' : ∀ k, k ∈ B ↔ k ≤ M ∧ (1 - v) / 2 ≤ (k : ℝ) / M ∧ (k : ℝ) / M ≤ (1 - u) / 2 := fun k => by rw [hB, mem_filter, mem_range, Nat.lt_succ_iff]
  obtain ⟨a1, a2⟩ := count_interval hM (by positivity) (by gcongr) (by rw [div_le_one hπ]; exact hβ) hA'
  obtain ⟨b1, b2⟩ := count_interval hM (by linarith) (by linarith) (by linarith) hB'
  have hψ : ∀ a : ℕ, psi M a = 2 * Real.pi * ((a : ℝ) / M) := fun a => by unfold psi; ring
  have hz : ∀ b : ℕ, (1 : ℝ) - 2 * b / M = 1 - 2 * ((b : ℝ) / M) := fun b => by ring
  -- what is certainly in the patch
  have low : A ×ˢ B ⊆ S := by
    rintro ⟨a, b⟩ h
    rw [mem_product] at h
    obtain ⟨h1, h2, h3⟩ := (hA' a).1 h.1
    obtain ⟨h4, h5, h6⟩ := (hB' b).1 h.2
    rw [div_le_iff₀ hπ] at h2
    rw [le_div_iff₀ hπ] at h3
    refine (hS _).2 ⟨h1, h4, psi M a, 1 - 2 * b / M, ?_, ?_, ?_, ?_, ?_⟩
    · rw [hψ]; linarith
    · rw [hψ]; linarith
    · rw [hz]; linarith
    · rw [hz]; linarith
    · show drawn M a b = _
      rw [drawn, height h4, radius]
  -- what may be
  have high : S ⊆ (A ∪ {0, M}) ×ˢ B ∪ range (M + 1) ×ˢ {0, M} := by
    rintro ⟨a, b⟩ h
    obtain ⟨h1, h2, ψ, z, p1, p2, z1, z2, e⟩ := (hS _).1 h
    dsimp only at h1 h2 e
    rw [drawn, height h2, radius] at e
    have e2 : 1 - 2 * (b : ℝ) / M = z := congrFun e 2
    subst e2
    rw [mem_union, mem_product, mem_product]
    dsimp only
    by_cases hb : b = 0 ∨ b = M
    · exact Or.inr ⟨mem_range.2 (by omega), by simp [hb]⟩
    refine Or.inl ⟨?_, (hB' b).2 ⟨h2, by rw [hz] at z2; linarith, by rw [hz] at z1; linarith⟩⟩
    have hr : 0 < √(1 - (1 - 2 * (b : ℝ) / M) ^ 2) := by
      refine Real.sqrt_pos.2 ?_
      have c1 : (0 : ℝ) < (b : ℝ) / M := by
        have : 0 < b := by omega
        have : (0 : ℝ) < b := by exact_mod_cast this
        positivity
      have c2 : (b : ℝ) / M < 1 := by
        rw [div_lt_one (by linarith)]
        have : b < M := by omega
        exact_mod_cast this
      rw [hz]; nlinarith
    have ec : Real.cos (psi M a) = Real.cos ψ := mul_right_cancel₀ hr.ne' (congrFun e 0)
    have es : Real.sin (psi M a) = Real.sin ψ := mul_right_cancel₀ hr.ne' (congrFun e 1)
    have e1 : Real.cos (psi M a - ψ) = 1 := by
      rw [Real.cos_sub, ec, es]
      have := Real.sin_sq_add_cos_sq ψ
      linear_combination this
    obtain ⟨n, hn⟩ := (Real.cos_eq_one_iff _).1 e1
    have d0 : 0 ≤ (a : ℝ) / M := by positivity
    have d1 : (a : ℝ) / M ≤ 1 := div_le_one_of_le₀ (by exact_mod_cast h1) (by positivity)
    have c0 : 0 ≤ psi M a := by rw [hψ]; positivity
    have c1 : psi M a ≤ 2 * Real.pi := by rw [hψ]; nlinarith
    rw [mem_union, mem_insert, mem_singleton]
    rcases lt_trichotomy n 0 with hneg | rfl | hpos
    · have : (n : ℝ) ≤ -1 := by exact_mod_cast Int.le_sub_one_of_lt hneg
      have : psi M a = 0 := by nlinarith
      rw [hψ, mul_eq_zero, div_eq_zero_iff] at this
      rcases this with h | h | h
      · exact absurd h hπ.ne'
      · exact Or.inr (Or.inl (by exact_mod_cast h))
      · exact absurd h (by linarith)
    · have : psi M a = ψ := by push_cast at hn; linarith
      refine Or.inl ((hA' a).2 ⟨h1, ?_, ?_⟩)
      · rw [div_le_iff₀ hπ]; rw [← this, hψ] at p1; linarith
      · rw [le_div_iff₀ hπ]; rw [← this, hψ] at p2; linarith
    · have : (1 : ℝ) ≤ n := by exact_mod_cast hpos
      have h3 : psi M a = 2 * Real.pi := by nlinarith
      rw [hψ] at h3
      have h4 : (a : ℝ) / M = 1 := by
        have : 2 * Real.pi * ((a : ℝ) / M - 1) = 0 := by linarith
        rcases mul_eq_zero.1 this with h | h
        · exact absurd h hπ.ne'
        · linarith
      rw [div_eq_one_iff_eq (by linarith)] at h4
      exact Or.inr (Or.inr (by exact_mod_cast h4))
  have two : ({0, M} : Finset ℕ).card ≤ 2 := card_le_two
  have l1 : (A.card : ℝ) * B.card ≤ S.card := by
    have := card_le_card low
    rw [card_product] at this
    exact_mod_cast this
  have l2 : (S.card : ℝ) ≤ (A.card + 2) * B.card + (M + 1) * 2 := by
    have h1 := (card_le_card high).trans (card_union_le _ _)
    rw [card_product, card_product, card_range] at h1
    have h2 := (card_union_le A {0, M}).trans (Nat.add_le_add_left two _)
    have h3 := h1.trans (Nat.add_le_add (Nat.mul_le_mul_right B.card h2) (Nat.mul_le_mul_left (M + 1) two))
    exact_mod_cast h3
  set p := (β - α) / (2 * Real.pi) with hp
  set q := (v - u) / 2 with hq
  have ep : β / (2 * Real.pi) - α / (2 * Real.pi) = p := by rw [hp]; ring
  have eq : (1 - u) / 2 - (1 - v) / 2 = q := by rw [hq]; ring
  rw [ep] at a1 a2
  rw [eq] at b1 b2
  have p0 : 0 ≤ p := by rw [hp]; exact div_nonneg (by linarith) hπ.le
  have p1 : p ≤ 1 := by rw [hp, div_le_one hπ]; linarith
  have q0 : 0 ≤ q := by rw [hq]; linarith
  have q1 : q ≤ 1 := by rw [hq]; linarith
  have key := patch_arith (by linarith) p0 p1 q0 q1 (by positivity) (by positivity) a1 a2 b1 b2 l1 l2
  have hM1 : (0 : ℝ) < ((M : ℝ) + 1) ^ 2 := by positivity
  have hM2 : (0 : ℝ) < (M : ℝ) + 1 := by positivity
  have e1 : (S.card : ℝ) / ((M : ℝ) + 1) ^ 2 - p * q = ((S.card : ℝ) - ((M : ℝ) + 1) ^ 2 * (p * q)) / ((M : ℝ) + 1) ^ 2 := by
    rw [sub_div, mul_div_cancel_left₀ _ hM1.ne']
  have e2 : 6 / ((M : ℝ) + 1) = 6 * ((M : ℝ) + 1) / ((M : ℝ) + 1) ^ 2 := by rw [pow_two, mul_div_mul_right _ _ hM2.ne']
  rw [e1, e2, abs_div, abs_of_pos hM1]
  exact div_le_div_of_nonneg_right key hM1.le

/-! ### The mean -/

theorem circle_sum {M : Nat} (hM : 2 ≤ M) : (∑ a ∈ range (M + 1), Real.cos (psi M a) = 1) ∧ ∑ a ∈ range (M + 1), Real.sin (psi M a) = 0 := by
  have hM0 : (M : ℝ) ≠ 0 := by positivity
  have h0 : ∑ a ∈ range M, Complex.exp ((psi M a : ℝ) * Complex.I) = 0 := by
    have h := (Complex.isPrimitiveRoot_exp M (by omega)).geom_sum_eq_zero (by omega)
    rw [← h]
    refine sum_congr rfl fun a _ => ?_
    rw [← Complex.exp_nat_mul]
    congr 1
    unfold psi
    push_cast
    ring
  have hl : psi M M = 2 * Real.pi := by unfold psi; field_simp
  rw [sum_range_succ, sum_range_succ, hl, Real.cos_two_pi, Real.sin_two_pi]
  constructor
  · have := congrArg Complex.re h0
    simp only [Complex.re_sum, Complex.exp_ofReal_mul_I_re, Complex.zero_re] at this
    rw [this, zero_add]
  · have := congrArg Complex.im h0
    simp only [Complex.im_sum, Complex.exp_ofReal_mul_I_im, Complex.zero_im] at this
    rw [this, zero_add]

theorem height_sum {M : Nat} (hM : 0 < M) : ∑ b ∈ range (M + 1), Real.cos (theta M b) = 0 := by
  have hM0 : (M : ℝ) ≠ 0 := by positivity
  have e : ∑ b ∈ range (M + 1), Real.cos (theta M b) = ∑ b ∈ range (M + 1), -Real.cos (theta M b) := by
    rw [← sum_range_reflect]
    refine sum_congr rfl fun b hb => ?_
    have hb := mem_range.1 hb
    rw [height (by omega), height (by omega), show M + 1 - 1 - b = M - b by omega, Nat.cast_sub (by omega)]
    field_simp
    ring
  rw [sum_neg_distrib] at e
  linarith

/-- The mean of a component over all pairs of results of `rand()`. -/
noncomputable def mean (M : Nat) (i : Fin 3) : ℝ := (∑ a ∈ range (M + 1), ∑ b ∈ range (M + 1), drawn M a b i) / ((M : ℝ) + 1) ^ 2

/-- **C127.** The mean of the directions is not zero: since `double(rand())/double(RAND_MAX)` takes both the values 0 and 1, the first component is preferred, by at most `1 / (RAND_MAX + 1)`. -/
theorem mean_drawn {M : Nat} (hM : 2 ≤ M) : (0 < mean M 0 ∧ mean M 0 ≤ 1 / ((M : ℝ) + 1)) ∧ mean M 1 = 0 ∧ mean M 2 = 0 := by
  obtain ⟨hc, hs⟩ := circle_sum hM
  have hM1 : (0 : ℝ) < (M : ℝ) + 1 := by positivity
  have e0 : ∑ a ∈ range (M + 1), ∑ b ∈ range (M + 1), drawn M a b 0 = ∑ b ∈ range (M + 1), Real.sin (theta M b) := by
    have : ∀ a b, drawn M a b 0 = Real.cos (psi M a) * Real.sin (theta M b) := fun _ _ => rfl
    simp only [this, ← mul_sum, ← sum_mul, hc, one_mul]
  have e1 : ∑ a ∈ range (M + 1), ∑ b ∈ range (M + 1), drawn M a b 1 = 0 := by
    have : ∀ a b, drawn M a b 1 = Real.sin (psi M a) * Real.sin (theta M b) := fun _ _ => rfl
    simp only [this, ← mul_sum, ← sum_mul, hs, zero_mul]
  have e2 : ∑ a ∈ range (M + 1), ∑ b ∈ range (M + 1), drawn M a b 2 = 0 := by
    have : ∀ a b, drawn M a b 2 = Real.cos (theta M b) := fun _ _ => rfl
    simp only [this, height_sum (show 0 < M by omega), sum_const_zero]
  have nn : ∀ b, 0 ≤ Real.sin (theta M b) := fun b => by rw [radius]; exact Real.sqrt_nonneg _
  refine ⟨?_, by rw [mean, e1, zero_div], by rw [mean, e2, zero_div]⟩
  rw [mean, e0]
  constructor
  · refine div_pos (sum_pos' (fun b _ => nn b) ⟨1, mem_range.2 (by omega), ?_⟩) (by positivity)
    rw [radius]
    refine Real.sqrt_pos.2 ?_
    have h2 : (2 : ℝ) ≤ M := by exact_mod_cast hM
    have h3 : (0 : ℝ) < 1 / M := by positivity
    have h4 : (1 : ℝ) / M < 1 := by rw [div_lt_one (by linarith)]; linarith
    have h5 : (1 : ℝ) - 2 * ((1 : ℕ) : ℝ) / M = 1 - 2 * (1 / M) := by push_cast; ring
    rw [h5]
    nlinarith
  · rw [div_le_div_iff₀ (by positivity) hM1, one_mul]
    have h1 : ∑ b ∈ range (M + 1), Real.sin (theta M b) ≤ ∑ _b ∈ range (M + 1), (1 : ℝ) := sum_le_sum fun b _ => Real.sin_le_one _
    rw [sum_const, card_range, nsmul_eq_mul, mul_one] at h1
    push_cast at h1
    nlinarith

/-! ## In doubles -/

section
open Ieee Num MonteCarlo SpinDouble ParallelRun Ghost Async SpinSchedule Stencil

variable (cos sin acos : Num double → Num double)

/-- `psi` in doubles, `heisenberg.cpp` 21, 36, 51, 73, 90: `2.0*pi*double(rand())/double(RAND_MAX)` with `pi = acos(-1.0)`. -/
noncomputable def psiD (M a : Nat) : Num double := of double 2 * acos (of double (-1)) * of double a / of double M

/-- The argument of `acos`, `heisenberg.cpp` 22, 37, 52, 91. -/
noncomputable def heightD (M b : Nat) : Num double := of double 1 - of double 2 * of double b / of double M

/-- The direction in doubles, `heisenberg.cpp` 23-25, 38-40, 53-55, 92-94. -/
noncomputable def drawnD (M a b : Nat) : Fin 3 → Num double :=
  ![cos (psiD acos M a) * sin (acos (heightD M b)), sin (psiD acos M a) * sin (acos (heightD M b)), cos (acos (heightD M b))]

/-- What is assumed of the mathematical library: `cos` and `sin` between -7 and 7, and `acos` between -1 and 1, are off by less than a unit in the last place of 1 (2 for `acos`). -/
structure Trig : Prop where
  cos : ∀ a x, Is a x → |x| ≤ 7 → ∃ y, Is (cos a) y ∧ |y - Real.cos x| ≤ 1 / 2 ^ 52
  sin : ∀ a x, Is a x → |x| ≤ 7 → ∃ y, Is (sin a) y ∧ |y - Real.sin x| ≤ 1 / 2 ^ 52
  acos : ∀ a x, Is a x → |x| ≤ 1 → ∃ y, Is (acos a) y ∧ |y - Real.arccos x| ≤ 1 / 2 ^ 51

theorem rnd_close (x : ℝ) : |rnd double x - x| ≤ (|x| + 1) / 2 ^ 53 := by
  have h := rnd_err double x
  have h1 : max |x| (tiny double) ≤ |x| + 1 := max_le (by linarith) ((tiny_le_one double_good).trans (by linarith [abs_nonneg x]))
  have h2 : ε double = 1 / 2 ^ 53 := by
    show (2 : ℝ) ^ (-((53 : ℕ) : ℤ)) = _
    rw [zpow_neg, zpow_natCast, one_div]
  rw [h2] at h
  calc _ ≤ _ := h
    _ ≤ 1 / 2 ^ 53 * (|x| + 1) := by gcongr
    _ = _ := by ring

theorem fits {x : ℝ} (h : |x| ≤ 2 ^ 50) : |rnd double x| < 2 ^ double.emax := by
  have h1 := rnd_close x
  have h2 : |rnd double x| ≤ |x| + |rnd double x - x| := by
    have := abs_add_le x (rnd double x - x)
    rwa [add_sub_cancel] at this
  have h3 : (2 : ℝ) ^ (60 : ℤ) ≤ 2 ^ double.emax := zpow_le_zpow_right₀ (by norm_num) (by decide)
  have h4 : (2 : ℝ) ^ (60 : ℤ) = 2 ^ 60 := by norm_cast
  rw [h4] at h3
  refine lt_of_lt_of_le ?_ h3
  have h5 : (|x| + 1) / 2 ^ 53 ≤ 1 := by rw [div_le_one (by positivity)]; linarith [show ((2 : ℝ) ^ 50) + 1 ≤ 2 ^ 53 by norm_num]
  have h6 : ((2 : ℝ) ^ 50) + 1 < 2 ^ 60 := by norm_num
  linarith

theorem nat_is {k : Nat} (h : k ≤ 2 ^ 39) : Is (of double (k : ℝ)) (k : ℝ) := by
  have := of_int (m := (k : ℤ)) (by rw [abs_of_nonneg (by positivity)]; exact_mod_cast h)
  rwa [Int.cast_natCast] at this

theorem two_is : Is (of double 2) 2 := by
  have := of_int (m := 2) (by norm_num)
  push_cast at this
  exact this

theorem one_is : Is (of double 1) 1 := by
  have := of_int (m := 1) (by norm_num)
  push_cast at this
  exact this

theorem minus_is : Is (of double (-1)) (-1) := by
  have := of_int (m := -1) (by norm_num)
  push_cast at this
  exact this

theorem rep_int {m : ℤ} (h : |m| ≤ 2 ^ 39) : rnd double (m : ℝ) = m := rnd_rep double_p (small_int h).1

variable {cos sin acos} {M : Nat}

/-- **C127.** The argument of `acos` never leaves the interval from -1 to 1, so that the angle is never undefined. -/
theorem acos_defined (hM : 0 < M) (hM39 : M ≤ 2 ^ 38) {b : Nat} (hb : b ≤ M) : ∃ x, Is (heightD M b) x ∧ |x| ≤ 1 ∧ |x - (1 - 2 * b / M)| ≤ 5 / 2 ^ 53 := by
  have hM' : (0 : ℝ) < M := by exact_mod_cast hM
  have hb' : (b : ℝ) ≤ M := by exact_mod_cast hb
  have hb0 : (0 : ℝ) ≤ b := by positivity
  have i1 : Is (of double 2 * of double (b : ℝ)) ((2 * b : ℕ) : ℝ) := by
    have e : (2 : ℝ) * b = ((2 * b : ℕ) : ℝ) := by push_cast; ring
    have hr : rnd double ((2 * b : ℕ) : ℝ) = ((2 * b : ℕ) : ℝ) := by
      have := rep_int (m := ((2 * b : ℕ) : ℤ)) (by rw [abs_of_nonneg (by positivity)]; push_cast; omega)
      rwa [Int.cast_natCast] at this
    have hl : |(2 : ℝ) * b| ≤ 2 ^ 50 := by
      rw [abs_of_nonneg (by positivity)]
      have : (M : ℝ) ≤ 2 ^ 38 := by exact_mod_cast hM39
      linarith [show (2 : ℝ) * 2 ^ 38 ≤ 2 ^ 50 by norm_num]
    have := two_is.mul (nat_is (k := b) (by omega)) (fits hl)
    rwa [e, hr] at this
  set q : ℝ := ((2 * b : ℕ) : ℝ) / M with hq
  have q0 : 0 ≤ q := by rw [hq]; positivity
  have q2 : q ≤ 2 := by rw [hq, div_le_iff₀ hM']; push_cast; linarith
  have i2 := i1.div (nat_is (k := M) (by omega)) hM'.ne' (fits (x := q) (by rw [abs_of_nonneg q0]; linarith [show (2 : ℝ) ≤ 2 ^ 50 by norm_num]))
  have r2 : rnd double (2 : ℝ) = 2 := by have := rep_int (m := 2) (by norm_num); push_cast at this; exact this
  have r1 : rnd double (1 : ℝ) = 1 := rnd_one double_good
  have s0 : 0 ≤ rnd double q := rnd_nonneg q0
  have s2 : rnd double q ≤ 2 := by have := rnd_mono double_p q2; rwa [r2] at this
  have a1 : |1 - rnd double q| ≤ 1 := by rw [abs_le]; constructor <;> linarith
  have i3 := one_is.sub i2 (fits (a1.trans (by norm_num)))
  refine ⟨_, i3, ?_, ?_⟩
  · rw [abs_le] at a1 ⊢
    have h1 := rnd_mono double_p a1.1
    have h2 := rnd_mono double_p a1.2
    rw [rnd_neg, r1] at h1
    rw [r1] at h2
    exact ⟨h1, h2⟩
  · have h1 := rnd_close q
    have h2 := rnd_close (1 - rnd double q)
    have e : 1 - 2 * (b : ℝ) / M = 1 - q := by rw [hq]; push_cast; ring
    rw [e]
    rw [abs_of_nonneg q0] at h1
    have h3 : (q + 1) / 2 ^ 53 ≤ 3 / 2 ^ 53 := by gcongr; linarith
    have h4 : (|1 - rnd double q| + 1) / 2 ^ 53 ≤ 2 / 2 ^ 53 := by gcongr; linarith
    have h5 := h1.trans h3
    have h6 := h2.trans h4
    have e5 : (5 : ℝ) / 2 ^ 53 = 3 / 2 ^ 53 + 2 / 2 ^ 53 := by norm_num
    rw [e5]
    rw [abs_le] at h5 h6 ⊢
    constructor <;> linarith

/-- **C127.** The longitude in doubles. -/
theorem psi_defined (T : Trig cos sin acos) (hM : 0 < M) (hM39 : M ≤ 2 ^ 38) {a : Nat} (ha : a ≤ M) : ∃ x, Is (psiD acos M a) x ∧ |x| ≤ 7 ∧ |x - psi M a| ≤ 1 / 2 ^ 48 := by
  have hM' : (1 : ℝ) ≤ M := by exact_mod_cast hM
  have ha' : (a : ℝ) ≤ M := by exact_mod_cast ha
  have ha0 : (0 : ℝ) ≤ a := by positivity
  have hM2 : (M : ℝ) ≤ 2 ^ 38 := by exact_mod_cast hM39
  obtain ⟨y, iy, hy⟩ := T.acos _ _ minus_is (by norm_num)
  rw [Real.arccos_neg_one] at hy
  obtain ⟨δ, hδ⟩ : ∃ δ : ℝ, δ = 1 / 2 ^ 53 := ⟨_, rfl⟩
  have d0 : 0 < δ := by rw [hδ]; positivity
  have d1 : δ ≤ 1 / 1000 := by rw [hδ]; norm_num
  have e51 : (1 : ℝ) / 2 ^ 51 = 4 * δ := by rw [hδ]; norm_num
  have e48 : (1 : ℝ) / 2 ^ 48 = 32 * δ := by rw [hδ]; norm_num
  have close : ∀ x, |rnd double x - x| ≤ (|x| + 1) * δ := fun x => by rw [hδ, mul_one_div]; exact rnd_close x
  rw [e51] at hy
  rw [e48]
  have hy' := abs_le.1 hy
  have hπ := Real.pi_lt_d2
  have hπ' := Real.pi_gt_three
  have y0 : 0 < y := by linarith
  have y1 : y ≤ 16 / 5 := by linarith
  have i1 := two_is.mul iy (fits (x := 2 * y) (by rw [abs_of_pos (by linarith)]; linarith [show (10 : ℝ) ≤ 2 ^ 50 by norm_num]))
  rw [rnd_rep double_p (rep_two_mul iy.finite.1)] at i1
  set t : ℝ := (a : ℝ) / M with ht
  have t0 : 0 ≤ t := by rw [ht]; positivity
  have t1 : t ≤ 1 := by rw [ht, div_le_one (by linarith)]; exact ha'
  have P0 : 0 ≤ 2 * y * a := by positivity
  have P1 : 2 * y * (a : ℝ) ≤ 32 / 5 * M := by nlinarith
  have i2 := i1.mul (nat_is (k := a) (by omega)) (fits (x := 2 * y * a) (by
    rw [abs_of_nonneg P0]
    have : (32 : ℝ) / 5 * 2 ^ 38 ≤ 2 ^ 50 := by norm_num
    linarith))
  have c1 := close (2 * y * a)
  rw [abs_of_nonneg P0] at c1
  set R : ℝ := rnd double (2 * y * a) with hR
  have q1 : |R / M - 2 * y * t| ≤ 8 * δ := by
    rw [ht, show R / M - 2 * y * ((a : ℝ) / M) = (R - 2 * y * a) / M by ring, abs_div, abs_of_pos (show (0 : ℝ) < M by linarith), div_le_iff₀ (by linarith)]
    refine c1.trans ?_
    nlinarith
  have q2 := abs_le.1 q1
  have s1 : 2 * y * t ≤ 32 / 5 := by nlinarith
  have s0 : 0 ≤ 2 * y * t := by positivity
  have Q1 : |R / M| ≤ 33 / 5 := by rw [abs_le]; constructor <;> linarith
  have i3 := i2.div (nat_is (k := M) (by omega)) (by linarith) (fits (x := R / M) (Q1.trans (by norm_num)))
  have c2 := close (R / M)
  have c3 : |rnd double (R / M) - R / M| ≤ 8 * δ := c2.trans (by nlinarith)
  have c4 := abs_le.1 c3
  refine ⟨_, i3, ?_, ?_⟩
  · rw [abs_le]; constructor <;> linarith
  · have e : psi M a = 2 * Real.pi * t := by rw [ht]; unfold psi; ring
    rw [e]
    have h6 : |2 * y * t - 2 * Real.pi * t| ≤ 8 * δ := by
      rw [show 2 * y * t - 2 * Real.pi * t = 2 * t * (y - Real.pi) by ring, abs_mul, abs_of_nonneg (by positivity)]
      have := abs_nonneg (y - Real.pi)
      nlinarith
    have h7 := abs_le.1 h6
    rw [abs_le]; constructor <;> linarith

theorem product_close {C s c1 s2 v δ : ℝ} (d0 : 0 < δ) (d1 : δ ≤ 1 / 1000) (hC : |C| ≤ 1) (hs : |s| ≤ 1) (h1 : |c1 - C| ≤ 2 * δ) (h2 : |s2 - s| ≤ 2 * δ) (hv : |v - c1 * s2| ≤ (|c1 * s2| + 1) * δ) :
    |c1 * s2| ≤ 2 ∧ |v - C * s| ≤ 8 * δ := by
  have e : c1 * s2 - C * s = (c1 - C) * s + c1 * (s2 - s) := by ring
  have hc1 : |c1| ≤ 1 + 2 * δ := by
    have := abs_add_le (c1 - C) C
    rw [sub_add_cancel] at this
    linarith
  have h3 : |c1 * s2 - C * s| ≤ 5 * δ := by
    rw [e]
    refine (abs_add_le _ _).trans ?_
    rw [abs_mul, abs_mul]
    have a1 := mul_le_mul h1 hs (abs_nonneg _) (by linarith)
    have a2 := mul_le_mul hc1 h2 (abs_nonneg _) (by linarith)
    nlinarith
  have h4 : |C * s| ≤ 1 := by rw [abs_mul]; exact mul_le_one₀ hC (abs_nonneg _) hs
  have h5 : |c1 * s2| ≤ 1 + 5 * δ := by
    have := abs_add_le (c1 * s2 - C * s) (C * s)
    rw [sub_add_cancel] at this
    linarith
  refine ⟨by linarith, ?_⟩
  have h6 := abs_add_le (v - c1 * s2) (c1 * s2 - C * s)
  rw [sub_add_sub_cancel] at h6
  nlinarith

theorem square_close {v w δ k : ℝ} (hk : 0 ≤ k) (d0 : 0 < δ) (hkd : k * δ ≤ 1) (hw : |w| ≤ 1) (h : |v - w| ≤ k * δ) : |v ^ 2 - w ^ 2| ≤ 3 * (k * δ) := by
  rw [show v ^ 2 - w ^ 2 = (v - w) * (v + w) by ring, abs_mul]
  have h1 : |v + w| ≤ 3 := by
    have := abs_add_le (v - w) (2 * w)
    rw [show v - w + 2 * w = v + w by ring, abs_mul, abs_two] at this
    linarith
  have := mul_le_mul h h1 (abs_nonneg _) (by positivity)
  linarith

/-- Three doubles that are finite and, as real numbers, a vector of length 1 up to rounding. -/
def NearUnit (v : Fin 3 → Num double) : Prop := ∃ x : Dir ℝ, (∀ i, Is (v i) (x i)) ∧ |dot x x - 1| ≤ 1 / 2 ^ 46

theorem dot_three (x : Dir ℝ) : dot x x = x 0 ^ 2 + x 1 ^ 2 + x 2 ^ 2 := by rw [dot, Fin.sum_univ_three]; ring

/-- **C127.** In doubles the direction is finite, a unit vector up to `2 ^ -46`, its height is that with real numbers up to `2 ^ -49`, and the other components up to `2 ^ -23`. -/
theorem drawn_double (T : Trig cos sin acos) (hM : 0 < M) (hM39 : M ≤ 2 ^ 38) {a b : Nat} (ha : a ≤ M) (hb : b ≤ M) :
    ∃ x : Dir ℝ, (∀ i, Is (drawnD cos sin acos M a b i) (x i)) ∧ |dot x x - 1| ≤ 1 / 2 ^ 46 ∧ |x 2 - drawn M a b 2| ≤ 1 / 2 ^ 49 ∧ ∀ i, |x i - drawn M a b i| ≤ 1 / 2 ^ 23 := by
  obtain ⟨ψ, iψ, hψ, eψ⟩ := psi_defined T hM hM39 ha
  obtain ⟨z, iz, hz, ez⟩ := acos_defined hM hM39 hb
  obtain ⟨θ, iθ, eθ⟩ := T.acos _ _ iz hz
  obtain ⟨δ, hδ⟩ : ∃ δ : ℝ, δ = 1 / 2 ^ 53 := ⟨_, rfl⟩
  have d0 : 0 < δ := by rw [hδ]; positivity
  have d1 : δ ≤ 1 / 1000 := by rw [hδ]; norm_num
  have e52 : (1 : ℝ) / 2 ^ 52 = 2 * δ := by rw [hδ]; norm_num
  have e51 : (1 : ℝ) / 2 ^ 51 = 4 * δ := by rw [hδ]; norm_num
  have e48 : (1 : ℝ) / 2 ^ 48 = 32 * δ := by rw [hδ]; norm_num
  have e49 : (1 : ℝ) / 2 ^ 49 = 16 * δ := by rw [hδ]; norm_num
  have e46 : (1 : ℝ) / 2 ^ 46 = 128 * δ := by rw [hδ]; norm_num
  have e5 : (5 : ℝ) / 2 ^ 53 = 5 * δ := by rw [hδ]; norm_num
  have close : ∀ x, |rnd double x - x| ≤ (|x| + 1) * δ := fun x => by rw [hδ, mul_one_div]; exact rnd_close x
  rw [e51] at eθ
  rw [e48] at eψ
  rw [e5] at ez
  have hθ : |θ| ≤ 7 := by
    have h1 := Real.arccos_nonneg z
    have h2 := Real.arccos_le_pi z
    have h3 := Real.pi_lt_d2
    have h4 := abs_le.1 eθ
    rw [abs_le]; constructor <;> linarith
  obtain ⟨c1, ic1, hc1⟩ := T.cos _ _ iψ hψ
  obtain ⟨s1, is1, hs1⟩ := T.sin _ _ iψ hψ
  obtain ⟨c2, ic2, hc2⟩ := T.cos _ _ iθ hθ
  obtain ⟨s2, is2, hs2⟩ := T.sin _ _ iθ hθ
  rw [e52] at hc1 hs1 hc2 hs2
  obtain ⟨b0, v0⟩ := product_close d0 d1 (Real.abs_cos_le_one ψ) (Real.abs_sin_le_one θ) hc1 hs2 (close (c1 * s2))
  obtain ⟨b1, v1⟩ := product_close d0 d1 (Real.abs_sin_le_one ψ) (Real.abs_sin_le_one θ) hs1 hs2 (close (s1 * s2))
  have j0 := ic1.mul is2 (fits (b0.trans (by norm_num)))
  have j1 := is1.mul is2 (fits (b1.trans (by norm_num)))
  have hcs : |Real.cos ψ * Real.sin θ| ≤ 1 := by rw [abs_mul]; exact mul_le_one₀ (Real.abs_cos_le_one ψ) (abs_nonneg _) (Real.abs_sin_le_one θ)
  have hss : |Real.sin ψ * Real.sin θ| ≤ 1 := by rw [abs_mul]; exact mul_le_one₀ (Real.abs_sin_le_one ψ) (abs_nonneg _) (Real.abs_sin_le_one θ)
  -- the exact direction at the angles in doubles, and at the exact angles
  have hsinθ : |Real.sin θ - Real.sin (theta M b)| ≤ 4 * δ + 1 / 2 ^ 24 := by
    have h1 := (Real.abs_sin_sub_sin_le θ (Real.arccos z)).trans eθ
    have h2 : |Real.sin (Real.arccos z) - Real.sin (theta M b)| ≤ 1 / 2 ^ 24 := by
      rw [Real.sin_arccos, radius]
      set w : ℝ := 1 - 2 * b / M with hw
      have hwl : |w| ≤ 1 := by rw [hw, ← height hb]; exact Real.abs_cos_le_one _
      have hA : 0 ≤ 1 - z ^ 2 := by have := (sq_le_one_iff_abs_le_one z).2 hz; linarith
      have hB : 0 ≤ 1 - w ^ 2 := by have := (sq_le_one_iff_abs_le_one w).2 hwl; linarith
      have hsq : |(1 - z ^ 2) - (1 - w ^ 2)| ≤ (1 / 2 ^ 24) ^ 2 := by
        have h3 := square_close (v := z) (w := w) (k := 5) (by norm_num) d0 (by linarith) hwl ez
        rw [show (1 - z ^ 2) - (1 - w ^ 2) = -(z ^ 2 - w ^ 2) by ring, abs_neg]
        refine h3.trans ?_
        rw [hδ]; norm_num
      have key : ∀ A B : ℝ, 0 ≤ A → 0 ≤ B → |A - B| ≤ (1 / 2 ^ 24) ^ 2 → √A - √B ≤ 1 / 2 ^ 24 := fun A B hA hB h => by
        have : A ≤ (√B + 1 / 2 ^ 24) ^ 2 := by
          have h4 := Real.sq_sqrt hB
          have h5 := Real.sqrt_nonneg B
          have h6 := (abs_le.1 h).2
          have h7 : 0 ≤ √B * (1 / 2 ^ 24) := by positivity
          nlinarith
        have := Real.sqrt_le_iff.2 ⟨by positivity, this⟩
        linarith
      rw [abs_le]
      have k1 := key _ _ hA hB hsq
      have k2 := key _ _ hB hA (by rw [abs_sub_comm]; exact hsq)
      constructor <;> linarith
    have := abs_add_le (Real.sin θ - Real.sin (Real.arccos z)) (Real.sin (Real.arccos z) - Real.sin (theta M b))
    rw [sub_add_sub_cancel] at this
    linarith
  have hcosθ : |Real.cos θ - Real.cos (theta M b)| ≤ 9 * δ := by
    have h1 := (Real.abs_cos_sub_cos_le θ (Real.arccos z)).trans eθ
    rw [Real.cos_arccos (abs_le.1 hz).1 (abs_le.1 hz).2] at h1
    rw [height hb]
    have := abs_add_le (Real.cos θ - z) (z - (1 - 2 * b / M))
    rw [sub_add_sub_cancel] at this
    linarith
  have prod : ∀ {u u' s s' : ℝ}, |u| ≤ 1 → |s'| ≤ 1 → |u - u'| ≤ 32 * δ → |s - s'| ≤ 4 * δ + 1 / 2 ^ 24 → |u * s - u' * s'| ≤ 36 * δ + 1 / 2 ^ 24 := fun {u u' s s'} h1 h2 h3 h4 => by
    rw [show u * s - u' * s' = u * (s - s') + (u - u') * s' by ring]
    refine (abs_add_le _ _).trans ?_
    rw [abs_mul, abs_mul]
    have a1 := mul_le_mul h1 h4 (abs_nonneg _) zero_le_one
    have a2 := mul_le_mul h3 h2 (abs_nonneg _) (by positivity)
    linarith
  have small : 44 * δ + 1 / 2 ^ 24 ≤ 1 / 2 ^ 23 := by rw [hδ]; norm_num
  have p0 := prod (Real.abs_cos_le_one ψ) (Real.abs_sin_le_one (theta M b)) ((Real.abs_cos_sub_cos_le ψ (psi M a)).trans eψ) hsinθ
  have p1 := prod (Real.abs_sin_le_one ψ) (Real.abs_sin_le_one (theta M b)) ((Real.abs_sin_sub_sin_le ψ (psi M a)).trans eψ) hsinθ
  have f2 : |c2 - Real.cos (theta M b)| ≤ 11 * δ := by
    have := abs_add_le (c2 - Real.cos θ) (Real.cos θ - Real.cos (theta M b))
    rw [sub_add_sub_cancel] at this
    linarith
  refine ⟨![rnd double (c1 * s2), rnd double (s1 * s2), c2], fun i => ?_, ?_, ?_, fun i => ?_⟩
  · fin_cases i
    · exact j0
    · exact j1
    · exact ic2
  · rw [dot_three, e46]
    show |rnd double (c1 * s2) ^ 2 + rnd double (s1 * s2) ^ 2 + c2 ^ 2 - 1| ≤ _
    have n0 := square_close (k := 8) (by norm_num) d0 (by linarith) hcs v0
    have n1 := square_close (k := 8) (by norm_num) d0 (by linarith) hss v1
    have n2 := square_close (k := 2) (by norm_num) d0 (by linarith) (Real.abs_cos_le_one θ) hc2
    have t1 := Real.sin_sq_add_cos_sq ψ
    have t2 := Real.sin_sq_add_cos_sq θ
    have e : (Real.cos ψ * Real.sin θ) ^ 2 + (Real.sin ψ * Real.sin θ) ^ 2 + Real.cos θ ^ 2 = 1 := by linear_combination Real.sin θ ^ 2 * t1 + t2
    have m0 := abs_le.1 n0
    have m1 := abs_le.1 n1
    have m2 := abs_le.1 n2
    rw [abs_le]; constructor <;> linarith
  · rw [e49]
    show |c2 - Real.cos (theta M b)| ≤ _
    linarith
  · refine le_trans ?_ small
    have h24 : (0 : ℝ) ≤ 1 / 2 ^ 24 := by positivity
    fin_cases i
    · show |rnd double (c1 * s2) - Real.cos (psi M a) * Real.sin (theta M b)| ≤ _
      have := abs_add_le (rnd double (c1 * s2) - Real.cos ψ * Real.sin θ) (Real.cos ψ * Real.sin θ - Real.cos (psi M a) * Real.sin (theta M b))
      rw [sub_add_sub_cancel] at this
      linarith
    · show |rnd double (s1 * s2) - Real.sin (psi M a) * Real.sin (theta M b)| ≤ _
      have := abs_add_le (rnd double (s1 * s2) - Real.sin ψ * Real.sin θ) (Real.sin ψ * Real.sin θ - Real.sin (psi M a) * Real.sin (theta M b))
      rw [sub_add_sub_cancel] at this
      linarith
    · show |c2 - Real.cos (theta M b)| ≤ _
      linarith

theorem drawn_near (T : Trig cos sin acos) (hM : 0 < M) (hM39 : M ≤ 2 ^ 38) {a b : Nat} (ha : a ≤ M) (hb : b ≤ M) : NearUnit (drawnD cos sin acos M a b) := by
  obtain ⟨x, h1, h2, -⟩ := drawn_double T hM hM39 ha hb
  exact ⟨x, h1, h2⟩

/-! ## The energy change in doubles -/

/-- `s[0]*(s1[0]-s2[0])+s[1]*(s1[1]-s2[1])+s[2]*(s1[2]-s2[2])` in doubles, `heisenberg.cpp` 102, 111, 124. -/
noncomputable def turnD (s1 s2 s : Fin 3 → Num double) : Num double := s 0 * (s1 0 - s2 0) + s 1 * (s1 1 - s2 1) + s 2 * (s1 2 - s2 2)

/-- `sum` in doubles, `heisenberg.cpp` 97-131, from the accesses. -/
noncomputable def turnSumD (A : (Nat → Int) → Outcome (Fin 3 → Num double)) (axes : List Nat) (x : Nat → Int) (s1 s2 : Fin 3 → Num double) : Outcome (Num double) :=
  boxFold (fun a y => (A y).bind fun s => .ok (a + turnD s1 s2 s)) axes x (of double (-1))

/-- `dE<=0.0`. -/
def atMost (a b : Num double) : Prop := ∃ x y, Is a x ∧ Is b y ∧ x ≤ y

/-- Whether the new direction is accepted, `heisenberg.cpp` 71-72, 132-139: `dE = -J*sum`, `r<exp(-dE/kT)`. `exp` is a parameter, `k` is what `rand()` returns. -/
def accepts (exp : Num double → Num double) (kT : Num double) (M : Nat) (sum : Num double) (k : Nat) : Prop :=
  atMost (-(of double 1) * sum) (of double 0) ∨ less (of double k / of double M) (exp (-(-(of double 1) * sum) / kT))

open Classical in
/-- One attempt in doubles with the four numbers drawn, `heisenberg.cpp` 83-140. -/
noncomputable def attemptD (cos sin acos exp : Num double → Num double) (M : Nat) (g : Shape) (r : Nat × Nat × Nat × Nat) : Stmt (Fin 3 → Num double) :=
  let x := g.position (r.1 % g.nodes.toNat : Nat)
  let s2 := drawnD cos sin acos M r.2.1 r.2.2.1
  assign g.dim x fun A =>
    (A x).bind fun s1 =>
      (turnSumD A (List.range g.dim) x s1 s2).bind fun sum =>
      .ok (if accepts exp (pottsT g.dim) M sum r.2.2.2 then s2 else s1)

/-- `update` on one rank, `heisenberg.cpp` 62-145. -/
noncomputable def rankD (cos sin acos exp : Num double → Num double) (M : Nat) (g : Shape) (draws : Nat → Nat → Nat × Nat × Nat × Nat) (steps : Nat) : List (Stmt (Fin 3 → Num double)) :=
  update (fun step h => attemptD cos sin acos exp M g (draws step h)) g.nodes.toNat (gss g.dim g.nodes.toNat) steps

theorem component {x : Dir ℝ} (h : |dot x x - 1| ≤ 1 / 2 ^ 46) (i : Fin 3) : |x i| ≤ 101 / 100 := by
  rw [dot_three] at h
  have h1 := (abs_le.1 h).2
  have h2 : (1 : ℝ) / 2 ^ 46 ≤ 1 / 100 := by norm_num
  refine abs_le_of_sq_le_sq ?_ (by norm_num)
  have a0 := sq_nonneg (x 0)
  have a1 := sq_nonneg (x 1)
  have a2 := sq_nonneg (x 2)
  fin_cases i
  · show x 0 ^ 2 ≤ _; linarith
  · show x 1 ^ 2 ≤ _; linarith
  · show x 2 ^ 2 ≤ _; linarith

/-- A difference, a product. -/
theorem piece {s a b : Num double} {x y z δ : ℝ} (hδ : δ = 1 / 2 ^ 53) (hs : Is s x) (ha : Is a y) (hb : Is b z) (h1 : |x| ≤ 101 / 100) (h2 : |y| ≤ 101 / 100) (h3 : |z| ≤ 101 / 100) :
    ∃ v, Is (s * (a - b)) v ∧ |v - x * (y - z)| ≤ 7 * δ ∧ |v| ≤ 21 / 10 := by
  have d0 : 0 < δ := by rw [hδ]; positivity
  have d1 : δ ≤ 1 / 1000000 := by rw [hδ]; norm_num
  have close : ∀ x, |rnd double x - x| ≤ (|x| + 1) * δ := fun x => by rw [hδ, mul_one_div]; exact rnd_close x
  have k1 : |y - z| ≤ 202 / 100 := (abs_sub y z).trans (by linarith)
  have i1 := ha.sub hb (fits (k1.trans (by norm_num)))
  have c1 : |rnd double (y - z) - (y - z)| ≤ 302 / 100 * δ := (close _).trans (by nlinarith)
  have k2 : |rnd double (y - z)| ≤ 203 / 100 := by
    have := abs_add_le (rnd double (y - z) - (y - z)) (y - z)
    rw [sub_add_cancel] at this
    linarith
  have k3 : |x * rnd double (y - z)| ≤ 206 / 100 := by
    rw [abs_mul]
    have := mul_le_mul h1 k2 (abs_nonneg _) (by norm_num)
    linarith
  have i2 := hs.mul i1 (fits (k3.trans (by norm_num)))
  have c2 : |rnd double (x * rnd double (y - z)) - x * rnd double (y - z)| ≤ 306 / 100 * δ := (close _).trans (by nlinarith)
  have c3 : |x * rnd double (y - z) - x * (y - z)| ≤ 306 / 100 * δ := by
    rw [← mul_sub, abs_mul]
    have := mul_le_mul h1 c1 (abs_nonneg _) (by norm_num)
    linarith
  refine ⟨_, i2, ?_, ?_⟩
  · have := abs_add_le (rnd double (x * rnd double (y - z)) - x * rnd double (y - z)) (x * rnd double (y - z) - x * (y - z))
    rw [sub_add_sub_cancel] at this
    linarith
  · have := abs_add_le (rnd double (x * rnd double (y - z)) - x * rnd double (y - z)) (x * rnd double (y - z))
    rw [sub_add_cancel] at this
    linarith

theorem add_close {a b : Num double} {x y δ K : ℝ} (hδ : δ = 1 / 2 ^ 53) (ha : Is a x) (hb : Is b y) (h : |x + y| ≤ K) (hK : K ≤ 1000) :
    ∃ v, Is (a + b) v ∧ |v - (x + y)| ≤ (K + 1) * δ ∧ |v| ≤ K + (K + 1) * δ := by
  have d0 : 0 < δ := by rw [hδ]; positivity
  have i := ha.add hb (fits (h.trans (hK.trans (by norm_num))))
  have c : |rnd double (x + y) - (x + y)| ≤ (K + 1) * δ := by
    have := rnd_close (x + y)
    rw [div_eq_mul_one_div, ← hδ] at this
    exact this.trans (by gcongr)
  refine ⟨_, i, c, ?_⟩
  have := abs_add_le (rnd double (x + y) - (x + y)) (x + y)
  rw [sub_add_cancel] at this
  linarith

/-- One neighbour's part of the sum. -/
theorem turn_close {δ : ℝ} (hδ : δ = 1 / 2 ^ 53) {s1 s2 s : Fin 3 → Num double} {x1 x2 x : Dir ℝ} (i1 : ∀ i, Is (s1 i) (x1 i)) (i2 : ∀ i, Is (s2 i) (x2 i)) (i0 : ∀ i, Is (s i) (x i))
    (h1 : |dot x1 x1 - 1| ≤ 1 / 2 ^ 46) (h2 : |dot x2 x2 - 1| ≤ 1 / 2 ^ 46) (h0 : |dot x x - 1| ≤ 1 / 2 ^ 46) :
    ∃ v, Is (turnD s1 s2 s) v ∧ |v - Spin.turn x1 x2 x| ≤ 34 * δ ∧ |v| ≤ 7 := by
  have d0 : 0 < δ := by rw [hδ]; positivity
  have d1 : δ ≤ 1 / 1000000 := by rw [hδ]; norm_num
  obtain ⟨p0, j0, e0, b0⟩ := piece hδ (i0 0) (i1 0) (i2 0) (component h0 0) (component h1 0) (component h2 0)
  obtain ⟨p1, j1, e1, b1⟩ := piece hδ (i0 1) (i1 1) (i2 1) (component h0 1) (component h1 1) (component h2 1)
  obtain ⟨p2, j2, e2, b2⟩ := piece hδ (i0 2) (i1 2) (i2 2) (component h0 2) (component h1 2) (component h2 2)
  obtain ⟨q, k1, f1, c1⟩ := add_close (K := 42 / 10) hδ j0 j1 ((abs_add_le _ _).trans (by linarith)) (by norm_num)
  obtain ⟨v, k2, f2, c2⟩ := add_close (K := 64 / 10) hδ k1 j2 ((abs_add_le _ _).trans (by linarith)) (by norm_num)
  refine ⟨v, k2, ?_, by linarith⟩
  unfold Spin.turn
  rw [abs_le] at e0 e1 e2 f1 f2 ⊢
  constructor <;> linarith [e0.1, e0.2, e1.1, e1.2, e2.1, e2.2, f1.1, f1.2, f2.1, f2.2]

/-- **C127.** The sum over the neighbours in doubles is finite, and that of the same directions with real numbers up to `2 ^ -40`. -/
theorem sum_close {bd : Build} {g : Shape} {d : Int → Fin 3 → Num double} {dR : Int → Dir ℝ} (hd : ∀ o, 0 ≤ o → o < g.cells → (∀ i, Is (d o i) (dR o i)) ∧ |dot (dR o) (dR o) - 1| ≤ 1 / 2 ^ 46)
    (hr : BoxReach bd g) {axes : List Nat} (hn : axes.Nodup) (hl : (offsets axes).length ≤ 27) {m : Nat} (hm : m < g.nodes.toNat) {s1 s2 : Fin 3 → Num double} {x1 x2 : Dir ℝ}
    (i1 : ∀ i, Is (s1 i) (x1 i)) (i2 : ∀ i, Is (s2 i) (x2 i)) (h1 : |dot x1 x1 - 1| ≤ 1 / 2 ^ 46) (h2 : |dot x2 x2 - 1| ≤ 1 / 2 ^ 46) :
    ∃ e y s, turnSumD (gridAt bd g d) axes (g.position m) s1 s2 = .ok e ∧ turnSum bd g dR axes (g.position m) x1 x2 = .ok s ∧ Is e y ∧ |y - s| ≤ 1 / 2 ^ 40 := by
  obtain ⟨δ, hδ⟩ : ∃ δ : ℝ, δ = 1 / 2 ^ 53 := ⟨_, rfl⟩
  have d0 : 0 < δ := by rw [hδ]; positivity
  have d1 : δ ≤ 1 / 1000000 := by rw [hδ]; norm_num
  have e40 : (1 : ℝ) / 2 ^ 40 = 8192 * δ := by rw [hδ]; norm_num
  unfold turnSumD turnSum
  rw [boxFold_eq _ hn, boxFold_eq _ hn]
  have key : ∀ (L : List (Nat → Int)), (∀ o ∈ L, Near o) → ∀ (k : Nat) (e : Num double) (y s : ℝ), k + L.length ≤ 27 → Is e y → |y| ≤ 1 + 8 * k → |y - s| ≤ 260 * k * δ →
      ∃ e' y' s', L.foldlM (fun a o => (gridAt bd g d (Spin.shift (g.position m) o)).bind fun s => Outcome.ok (a + turnD s1 s2 s)) e = .ok e' ∧
        L.foldlM (fun a o => (gridAt bd g dR (Spin.shift (g.position m) o)).bind fun s => Outcome.ok (a + Spin.turn x1 x2 s)) s = .ok s' ∧ Is e' y' ∧ |y' - s'| ≤ 260 * 27 * δ := by
    intro L
    induction L with
    | nil =>
      intro _ k e y s hk he _ hs
      refine ⟨e, y, s, rfl, rfl, he, hs.trans ?_⟩
      have : (k : ℝ) ≤ 27 := by exact_mod_cast (by simpa using hk)
      nlinarith
    | cons o L ih =>
      intro hL k e y s hk he hy hs
      rw [List.length_cons] at hk
      have ho := hr m hm o (hL o (by simp))
      have hb : 0 ≤ g.atVec bd (Spin.shift (g.position m) o) ∧ g.atVec bd (Spin.shift (g.position m) o) < g.cells := ho
      obtain ⟨c1, c2⟩ := hd _ hb.1 hb.2
      obtain ⟨v, iv, ev, bv⟩ := turn_close hδ i1 i2 c1 h1 h2 c2
      have hk' : (k : ℝ) ≤ 26 := by exact_mod_cast (by omega : k ≤ 26)
      obtain ⟨w, iw, ew, bw⟩ := add_close (K := 8 + 8 * k) hδ he iv ((abs_add_le _ _).trans (by linarith)) (by linarith)
      have hg1 : gridAt bd g d (Spin.shift (g.position m) o) = .ok (d (g.atVec bd (Spin.shift (g.position m) o))) := by unfold gridAt deref; exact if_pos hb
      have hg2 : gridAt bd g dR (Spin.shift (g.position m) o) = .ok (dR (g.atVec bd (Spin.shift (g.position m) o))) := by unfold gridAt deref; exact if_pos hb
      rw [List.foldlM_cons, List.foldlM_cons, hg1, hg2]
      refine ih (fun o' ho' => hL o' (by simp [ho'])) (k + 1) _ w _ (by omega) iw ?_ ?_
      · refine bw.trans ?_
        push_cast
        nlinarith
      · rw [abs_le] at hs ev ew ⊢
        push_cast
        constructor <;> nlinarith
  obtain ⟨e, y, s, r1, r2, r3, r4⟩ := key (offsets axes) (fun o ho => ((mem_offsets hn).1 ho).1) 0 _ (-1) (-1) (by simpa using hl) minus_is (by simp) (by simp)
  refine ⟨e, y, s, r1, r2, r3, r4.trans ?_⟩
  rw [e40]
  linarith

/-! ## The programs in doubles -/

theorem dim_small {k : Nat} (h : k ≤ 3) : (offsets (List.range k)).length ≤ 27 := by
  interval_cases k <;> decide +kernel

theorem attempt_keeps (T : Trig cos sin acos) (hM : 0 < M) (hM39 : M ≤ 2 ^ 38) (exp : Num double → Num double) {g : Shape} (hg : g.Wf) (hdim : g.dim ≤ 3) (hr : BoxReach .mpi g)
    (hn : 0 < g.nodes.toNat) {r : Nat × Nat × Nat × Nat} (h1 : r.2.1 ≤ M) (h2 : r.2.2.1 ≤ M) : Keeps g NearUnit (attemptD cos sin acos exp M g r) := by
  have hm := Nat.mod_lt r.1 hn
  unfold attemptD
  refine assign_keeps hg hm fun d hd => ?_
  have hc := node_cell hg hm
  have hs := drawn_near T hM hM39 h1 h2
  have hs' := hs
  obtain ⟨x2, i2, e2⟩ := hs'
  have hs1 := hd _ hc.1 hc.2
  have hs1' := hs1
  obtain ⟨x1, i1, e1⟩ := hs1'
  have hex : ∀ o, ∃ x : Dir ℝ, 0 ≤ o → o < g.cells → (∀ i, Is (d o i) (x i)) ∧ |dot x x - 1| ≤ 1 / 2 ^ 46 := fun o => by
    by_cases ho : 0 ≤ o ∧ o < g.cells
    · obtain ⟨x, hx⟩ := hd o ho.1 ho.2
      exact ⟨x, fun _ _ => hx⟩
    · exact ⟨0, fun a b => absurd ⟨a, b⟩ ho⟩
  choose dR hdR using hex
  obtain ⟨e, y, s, h3, -, -, -⟩ := sum_close hdR hr (axes := List.range g.dim) List.nodup_range (dim_small hdim) hm i1 i2 e1 e2
  rw [read_node hg hm, Outcome.ok_bind, h3, Outcome.ok_bind]
  refine ⟨_, rfl, ?_⟩
  split_ifs
  · exact hs
  · exact hs1

/-- **C127.** The Heisenberg example in doubles on any number of ranks under every schedule: a run that returns has defined behaviour, and leaves all directions, ghosts included, finite and of length 1 up to
rounding, which does not accumulate. -/
theorem double_ends {np : Nat} {w : World} {c : Nat → Cell (Fin 3 → Num double)} (hc : RoundTrips (c 0)) (hP : ∀ v, NearUnit v → (c 0).Valid v) (h : w.Ok np) (hdim : w.d ≤ 3) (hgh : 1 ≤ w.ghosts)
    (T : Trig cos sin acos) (hM : 0 < M) (hM39 : M ≤ 2 ^ 38) (exp : Num double → Num double) {draws : Int → Nat → Nat → Nat × Nat × Nat × Nat}
    (hdr : ∀ r s i, (draws r s i).2.1 ≤ M ∧ (draws r s i).2.2.1 ≤ M) (steps : Nat) {D : Int → Grids (Fin 3 → Num double)}
    (hv : ∀ r, IsRank np r → ∀ o, 0 ≤ o → o < (w.shape r).cells → (c 0).Valid (D r 0 o)) (hn : ∀ r, IsRank np r → ∀ x, (w.shape r).IsNode x → NearUnit (cellAt (w.shape r) (D r 0) x)) :
    EndsWith c h (fun r => rankD cos sin acos exp M (w.shape r.1) (draws r.1) steps) D NearUnit :=
  update_ends hc h hP (attempt := fun r step i => attemptD cos sin acos exp M (w.shape r) (draws r step i)) (fun _ _ _ => trivial)
    (fun r hr s i => attempt_keeps T hM hM39 exp (shape_wf h hr) hdim (reach (h := h) hgh ⟨r, hr⟩) (rank_nodes h ⟨r, hr⟩) (hdr r s i).1 (hdr r s i).2)
    (fun r => gss w.d (w.shape r).nodes.toNat) steps hv hn

/-! ## Correctly rounded functions -/

/-- A function of the library that returns the double nearest to the exact value. -/
noncomputable def best (f : ℝ → ℝ) : Num double → Num double
  | .fin x _ => of double (f x)
  | .bad => .bad

theorem best_is {f : ℝ → ℝ} {a : Num double} {x : ℝ} (h : Is a x) (hf : |f x| ≤ 2 ^ 50) : Is (best f a) (rnd double (f x)) := by
  obtain ⟨h1, rfl⟩ := h
  exact of_is (fits hf)

theorem best_trig : Trig (best Real.cos) (best Real.sin) (best Real.arccos) := by
  have e52 : ((1 : ℝ) + 1) / 2 ^ 53 = 1 / 2 ^ 52 := by norm_num
  have e51 : ((3 : ℝ) + 1) / 2 ^ 53 = 1 / 2 ^ 51 := by norm_num
  refine ⟨fun a x h _ => ⟨_, best_is h ((Real.abs_cos_le_one x).trans (by norm_num)), ?_⟩, fun a x h _ => ⟨_, best_is h ((Real.abs_sin_le_one x).trans (by norm_num)), ?_⟩, fun a x h _ => ?_⟩
  · refine (rnd_close _).trans ?_
    rw [← e52]
    gcongr
    exact Real.abs_cos_le_one x
  · refine (rnd_close _).trans ?_
    rw [← e52]
    gcongr
    exact Real.abs_sin_le_one x
  · have h0 := Real.arccos_nonneg x
    have h1 := Real.arccos_le_pi x
    have h2 := Real.pi_lt_d2
    refine ⟨_, best_is h (by rw [abs_of_nonneg h0]; linarith [show (4 : ℝ) ≤ 2 ^ 50 by norm_num]), ?_⟩
    have h3 := rnd_err double (Real.arccos x)
    have h4 : max |Real.arccos x| (tiny double) ≤ 4 := max_le (by rw [abs_of_nonneg h0]; linarith) ((tiny_le_one double_good).trans (by norm_num))
    have h5 : ε double = 1 / 2 ^ 53 := by
      show (2 : ℝ) ^ (-((53 : ℕ) : ℤ)) = _
      rw [zpow_neg, zpow_natCast, one_div]
    rw [h5] at h3
    refine h3.trans ?_
    rw [show (1 : ℝ) / 2 ^ 51 = 1 / 2 ^ 53 * 4 by norm_num]
    gcongr

/-! ## Instances -/

-- `RAND_MAX` of the GNU library
example {a b : Nat} (ha : a ≤ 2147483647) (hb : b ≤ 2147483647) : NearUnit (drawnD (best Real.cos) (best Real.sin) (best Real.arccos) 2147483647 a b) :=
  drawn_near best_trig (by norm_num) (by norm_num) ha hb

example (S : Finset (ℕ × ℕ)) (hS : ∀ k, k ∈ S ↔ k.1 ≤ 2147483647 ∧ k.2 ≤ 2147483647 ∧ drawn 2147483647 k.1 k.2 ∈ Patch 0 Real.pi 0 1) :
    |(S.card : ℝ) / (((2147483647 : ℕ) : ℝ) + 1) ^ 2 - (Real.pi - 0) / (2 * Real.pi) * ((1 - 0) / 2)| ≤ 6 / (((2147483647 : ℕ) : ℝ) + 1) :=
  patch_share (by norm_num) le_rfl Real.pi_pos.le (by have := Real.pi_pos; linarith) (by norm_num) (by norm_num) le_rfl hS

-- there is such a set
example : ∃ S : Finset (ℕ × ℕ), ∀ k, k ∈ S ↔ k.1 ≤ 2147483647 ∧ k.2 ≤ 2147483647 ∧ drawn 2147483647 k.1 k.2 ∈ Patch 0 Real.pi 0 1 := by
  classical
  refine ⟨(range 2147483648 ×ˢ range 2147483648).filter fun k => drawn 2147483647 k.1 k.2 ∈ Patch 0 Real.pi 0 1, fun k => ?_⟩
  rw [mem_filter, mem_product, mem_range, mem_range, and_assoc]
  refine and_congr (by omega) (and_congr_left fun _ => by omega)

/-- The cells of `grid<dim,vector<double> >` with three components, `heisenberg.hpp` 8-10. -/
noncomputable def tripleCell : Cell (Fin 3 → Num double) := mapCell (arrayCell doubleBytes) (fun v => [v 0, v 1, v 2]) fun l i => l.getD i 0

theorem triple_valid (v : Fin 3 → Num double) : tripleCell.Valid v := by
  refine ⟨by show (3 : Nat) < 2 ^ 31; norm_num, ?_⟩
  funext i
  fin_cases i <;> rfl

-- the grid of `generate(2)` on four ranks, the directions drawn, the ghosts not yet set
open Classical in
example (start : Int → Int → Nat × Nat) (hs : ∀ r o, (start r o).1 ≤ 2147483647 ∧ (start r o).2 ≤ 2147483647) (exp : Num double → Num double) {draws : Int → Nat → Nat → Nat × Nat × Nat × Nat}
    (hdr : ∀ r s i, (draws r s i).2.1 ≤ 2147483647 ∧ (draws r s i).2.2.1 ≤ 2147483647) :
    EndsWith (fun _ => tripleCell) plane4_ok (fun r => rankD (best Real.cos) (best Real.sin) (best Real.arccos) exp 2147483647 ((generated 2 plane 4).shape r.1) (draws r.1) 1000)
      (fun r _ o => if ∃ x, ((generated 2 plane 4).shape r).IsNode x ∧ ((generated 2 plane 4).shape r).rawOffset x = o
        then drawnD (best Real.cos) (best Real.sin) (best Real.arccos) 2147483647 (start r o).1 (start r o).2 else fun _ => .bad) NearUnit := by
  refine double_ends (mapCell_roundTrips (vectorCell_roundTrips doubleBytes) _ _) (fun v _ => triple_valid v) plane4_ok (by decide) (by decide) best_trig (by norm_num) (by norm_num) exp hdr 1000
    (fun r _ o _ _ => triple_valid _) fun r _ x hx => ?_
  unfold cellAt
  beta_reduce
  rw [if_pos ⟨x, hx, rfl⟩]
  exact drawn_near best_trig (by norm_num) (by norm_num) (hs _ _).1 (hs _ _).2

end

end MMSP.HeisenbergDir
