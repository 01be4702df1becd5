import Verif.ConvexSolution
import Mathlib.Analysis.Real.Sqrt
/-!
# How far an accepted step is from the solution (C132)

`update` of `examples/phase_transitions/cahn-hilliard/convex_splitting/cahn-hilliard.cpp` 276-461 ends a step when the residual passes a test (C57), not when the equations are solved. By C129
they have exactly one solution. Here: with the energy with three wells, the composition that is accepted is close to that solution, in the sum of squares over all nodes, and the bound is
made of quantities the program knows: the residual and the largest composition it has computed.

Exact arithmetic, one rank, grids as in C57.
-/

namespace MMSP.ConvexAccepted

open ConvexSplit ConvexSolution
open Conserve (Serial nb nb_spec total axis_sum)

section
variable {α : Type} [Field α] [LinearOrder α] [IsStrictOrderedRing α] {g : Shape}

/-- Four times the sum of the inverse squared spacings: the largest factor by which the Laplacian can enlarge a field. -/
def stiffness (g : Shape) (dx : Nat → α) : α := ∑ i ∈ Finset.range g.dim, 4 / dx i ^ 2

theorem bonds_le (hs : Serial g) (dx : Nat → α) (a : Int → α) : bonds g dx a a ≤ stiffness g dx * total g fun n => a n ^ 2 := by
  unfold bonds stiffness
  rw [Finset.sum_mul]
  refine Finset.sum_le_sum fun i hi => ?_
  rw [div_mul_eq_mul_div]
  refine div_le_div_of_nonneg_right ?_ (sq_nonneg _)
  have h := axis_sum hs (fun n => a n ^ 2) (Finset.mem_range.1 hi)
  have e : (4 : α) * total g (fun n => a n ^ 2) = ∑ n ∈ Finset.range g.nodes.toNat, (a (nb g i n true) ^ 2 + a (nb g i n false) ^ 2 + 2 * a n ^ 2) := by
    rw [Finset.sum_add_distrib, h, ← Finset.mul_sum]
    unfold total
    ring
  rw [e]
  refine Finset.sum_le_sum fun n _ => ?_
  nlinarith [sq_nonneg (a (nb g i n true) + a n), sq_nonneg (a (nb g i n false) + a n)]

theorem bonds_young (dx : Nat → α) (a c : Int → α) : -bonds g dx a c ≤ bonds g dx c c + 1 / 4 * bonds g dx a a := by
  unfold bonds
  rw [← Finset.sum_neg_distrib, Finset.mul_sum, ← Finset.sum_add_distrib]
  refine Finset.sum_le_sum fun i _ => ?_
  rw [← neg_div, ← mul_div_assoc, ← add_div]
  refine div_le_div_of_nonneg_right ?_ (sq_nonneg _)
  rw [← Finset.sum_neg_distrib, Finset.mul_sum, ← Finset.sum_add_distrib]
  refine Finset.sum_le_sum fun n _ => ?_
  nlinarith [sq_nonneg (a (nb g i n true) - a n + 2 * (c (nb g i n true) - c n)), sq_nonneg (a (nb g i n false) - a n + 2 * (c (nb g i n false) - c n))]

/-- The difference quotient of `q x³ + m x` between `a` and `a - d`. -/
def quot (q m a d : α) : α := q * (3 * a ^ 2 - 3 * a * d + d ^ 2) + m

theorem quot_ge {q m a d : α} (hq : 0 ≤ q) : m ≤ quot q m a d := by
  unfold quot
  have : 0 ≤ 3 * a ^ 2 - 3 * a * d + d ^ 2 := by nlinarith [sq_nonneg (3 * a - 2 * d), sq_nonneg a, sq_nonneg d, sq_nonneg (2 * d - 3 * a), sq_nonneg (3 * a - d)]
  have := mul_nonneg hq this
  linarith

theorem quot_le {q m a d M : α} (hq : 0 ≤ q) (ha : a ^ 2 ≤ M) : quot q m a d ≤ 21 / 4 * q * M + 2 * q * d ^ 2 + m := by
  unfold quot
  have h : 3 * a ^ 2 - 3 * a * d + d ^ 2 ≤ 21 / 4 * M + 2 * d ^ 2 := by nlinarith [sq_nonneg (3 / 2 * a + d)]
  have := mul_le_mul_of_nonneg_left h hq
  linarith

theorem node_bound {q m M R a d x y : α} (hq : 0 ≤ q) (hm : 0 < m) (ha : a ^ 2 ≤ M) (hx : x ^ 2 ≤ R) (hR : 8 * q * R ≤ m) :
    m / 4 * d ^ 2 ≤ quot q m a d * d ^ 2 - (y * d - x * (quot q m a d * d) + x * y) + (2 / m * y ^ 2 + 1 / 2 * (x ^ 2 + y ^ 2) + 1 / 2 * (21 / 4 * q * M + m) * x ^ 2) := by
  have h1 := quot_ge (m := m) (a := a) (d := d) hq
  have h2 := quot_le (m := m) (d := d) hq ha
  have hw : 0 ≤ quot q m a d := by linarith
  generalize quot q m a d = w at h1 h2 hw
  have t1 : -(x * (w * d)) ≤ 1 / 2 * w * d ^ 2 + 1 / 2 * w * x ^ 2 := by nlinarith [mul_nonneg hw (sq_nonneg (x + d))]
  have t2 : y * d ≤ m / 8 * d ^ 2 + 2 / m * y ^ 2 := by
    have e : m / 8 * d ^ 2 + 2 / m * y ^ 2 - y * d = 1 / (8 * m) * (m * d - 4 * y) ^ 2 := by field_simp; ring
    have : 0 ≤ 1 / (8 * m) * (m * d - 4 * y) ^ 2 := by positivity
    linarith
  have t3 : x * y ≤ 1 / 2 * (x ^ 2 + y ^ 2) := by nlinarith [sq_nonneg (x - y)]
  have t4 : w * x ^ 2 ≤ (21 / 4 * q * M + m) * x ^ 2 + 2 * q * d ^ 2 * x ^ 2 := by
    have := mul_le_mul_of_nonneg_right h2 (sq_nonneg x)
    linarith
  have t5 : q * d ^ 2 * x ^ 2 ≤ m / 8 * d ^ 2 := by
    have a1 : q * x ^ 2 ≤ q * R := mul_le_mul_of_nonneg_left hx hq
    have a2 : q * x ^ 2 ≤ m / 8 := by linarith
    have := mul_le_mul_of_nonneg_right a2 (sq_nonneg d)
    linarith
  have t6 : m * d ^ 2 ≤ w * d ^ 2 := mul_le_mul_of_nonneg_right h1 (sq_nonneg d)
  linarith

/-- The factor between squared residual and squared error. -/
def factor (g : Shape) (dx : Nat → α) (K q m M : α) : α := 4 / m * (2 / m + 1 / 2 + K / 4 * stiffness g dx + 1 / 2 * (21 / 4 * q * M + m))

theorem stiffness_nonneg (dx : Nat → α) : 0 ≤ stiffness g dx := Finset.sum_nonneg fun i _ => by positivity

/-- **C132.** Any state and the solution of the step: if the sum of the squared residuals is small enough, the sum of the squared errors of the composition is at most a factor times it.
The factor depends on the parameters, the spacing and the largest composition of the state, not on the solution. -/
theorem residual_error (hs : Serial g) {p : Params α} (hK : 0 ≤ p.K) (hD : 0 ≤ p.D * p.dt) {q m M : α} (hq : 0 ≤ q) (hm : 0 < m) (hφ : ∀ x, p.contractive x = q * x ^ 3 + m * x)
    {dx : Nat → α} {old new exact : Int → α × α} (h : Scheme p g dx old exact) (hM : ∀ n, 0 ≤ n → n < g.nodes → (new n).1 ^ 2 ≤ M) (hsmall : 8 * q * missing p g dx old new ≤ m) :
    total g (fun n => ((new n).1 - (exact n).1) ^ 2) ≤ factor g dx p.K q m M * missing p g dx old new := by
  have hn0 := nodes_pos hs
  set R := missing p g dx old new with hR
  set c : Int → α := fun n => (new n).1 - (exact n).1 with hc
  set u : Int → α := fun n => (new n).2 - (exact n).2 with hu
  set x : Int → α := fun n => r1 p g dx old new n with hx
  set y : Int → α := fun n => r2 p g dx old new n with hy
  set w : Int → α := fun n => quot q m (new n).1 (c n) with hw
  have e1 : ∀ n, 0 ≤ n → n < g.nodes → c n = p.D * p.dt * lap g dx u n - x n := by
    intro n h0 h1
    have b := (h n h0 h1).1
    rw [hu, lap_sub, hc, hx]
    beta_reduce
    unfold r1 at b ⊢
    linear_combination b
  have e2 : ∀ n, 0 ≤ n → n < g.nodes → u n = w n * c n - p.K * lap g dx c n - y n := by
    intro n h0 h1
    have b := (h n h0 h1).2
    rw [hw, hy, hu]
    beta_reduce
    rw [hc, lap_sub]
    beta_reduce
    unfold r2 at b ⊢
    rw [hφ] at b ⊢
    unfold quot
    linear_combination b
  have s1 : total g (fun n => u n * c n) = -(p.D * p.dt * bonds g dx u u) - total g (fun n => x n * u n) := by
    rw [← mul_neg, ← sum_by_parts hs dx u u]
    unfold total
    rw [Finset.mul_sum, ← Finset.sum_sub_distrib]
    refine Finset.sum_congr rfl fun n hn => ?_
    have := Finset.mem_range.1 hn
    beta_reduce
    rw [e1 n (by omega) (by omega)]; ring
  have s2 : total g (fun n => u n * c n) = total g (fun n => w n * c n ^ 2 - y n * c n) + p.K * bonds g dx c c := by
    rw [← neg_neg (bonds g dx c c), ← sum_by_parts hs dx c c]
    unfold total
    rw [mul_neg, Finset.mul_sum, ← sub_eq_add_neg, ← Finset.sum_sub_distrib]
    refine Finset.sum_congr rfl fun n hn => ?_
    have := Finset.mem_range.1 hn
    beta_reduce
    rw [e2 n (by omega) (by omega)]; ring
  have s3 : total g (fun n => x n * u n) = total g (fun n => x n * (w n * c n) - x n * y n) + p.K * bonds g dx x c := by
    rw [← neg_neg (bonds g dx x c), ← sum_by_parts hs dx x c]
    unfold total
    rw [mul_neg, Finset.mul_sum, ← sub_eq_add_neg, ← Finset.sum_sub_distrib]
    refine Finset.sum_congr rfl fun n hn => ?_
    have := Finset.mem_range.1 hn
    beta_reduce
    rw [e2 n (by omega) (by omega)]; ring
  have hxR : ∀ n ∈ Finset.range g.nodes.toNat, x (n : Int) ^ 2 ≤ R := by
    intro n hn
    refine le_trans ?_ (Finset.single_le_sum (f := fun k : Nat => r1 p g dx old new k ^ 2 + r2 p g dx old new k ^ 2) (fun k _ => by positivity) hn)
    have := sq_nonneg (r2 p g dx old new n)
    linarith
  have hxx : total g (fun n => x n ^ 2) ≤ R := Finset.sum_le_sum fun n _ => by
    have := sq_nonneg (r2 p g dx old new n)
    linarith
  have key : m / 4 * total g (fun n => c n ^ 2) ≤ total g (fun n => w n * c n ^ 2 - (y n * c n - x n * (w n * c n) + x n * y n)) +
      total g (fun n => 2 / m * y n ^ 2 + 1 / 2 * (x n ^ 2 + y n ^ 2) + 1 / 2 * (21 / 4 * q * M + m) * x n ^ 2) := by
    unfold total
    rw [Finset.mul_sum, ← Finset.sum_add_distrib]
    exact Finset.sum_le_sum fun n hn => node_bound hq hm (hM n (by omega) (by have := Finset.mem_range.1 hn; omega)) (hxR n hn) hsmall
  have s4 : total g (fun n => w n * c n ^ 2 - (y n * c n - x n * (w n * c n) + x n * y n)) =
      total g (fun n => w n * c n ^ 2 - y n * c n) + total g (fun n => x n * (w n * c n) - x n * y n) := by
    unfold total
    rw [← Finset.sum_add_distrib]
    exact Finset.sum_congr rfl fun n _ => by ring
  have b0 := mul_nonneg hD (bonds_nonneg (g := g) dx u)
  have b1 := mul_le_mul_of_nonneg_left (bonds_young (g := g) dx x c) hK
  have b2 := mul_le_mul_of_nonneg_left (le_trans (bonds_le hs dx x) (mul_le_mul_of_nonneg_left hxx (stiffness_nonneg dx))) (show 0 ≤ p.K / 4 by linarith)
  have hM0 : g.nodes = 0 ∨ 0 ≤ M := by
    rcases eq_or_lt_of_le hn0 with e | e
    · exact Or.inl e.symm
    · exact Or.inr (le_trans (sq_nonneg _) (hM 0 le_rfl e))
  have s5 : total g (fun n => 2 / m * y n ^ 2 + 1 / 2 * (x n ^ 2 + y n ^ 2) + 1 / 2 * (21 / 4 * q * M + m) * x n ^ 2) ≤ (2 / m + 1 / 2 + 1 / 2 * (21 / 4 * q * M + m)) * R := by
    rcases hM0 with e | hM0
    · rw [hR]; unfold missing total; rw [e]; simp
    · rw [hR]
      unfold missing total
      rw [Finset.mul_sum]
      refine Finset.sum_le_sum fun n _ => ?_
      have a1 : 0 ≤ 2 / m := by positivity
      have a2 : 0 ≤ 1 / 2 * (21 / 4 * q * M + m) := by positivity
      have a3 := mul_nonneg a1 (sq_nonneg (x n))
      have a4 := mul_nonneg a2 (sq_nonneg (y n))
      show _ ≤ (2 / m + 1 / 2 + 1 / 2 * (21 / 4 * q * M + m)) * (x n ^ 2 + y n ^ 2)
      linarith
  have fin : m / 4 * total g (fun n => c n ^ 2) ≤ (2 / m + 1 / 2 + p.K / 4 * stiffness g dx + 1 / 2 * (21 / 4 * q * M + m)) * R := by
    linarith
  have := mul_le_mul_of_nonneg_left fin (show 0 ≤ 4 / m by positivity)
  rw [← mul_assoc, show 4 / m * (m / 4) = 1 by field_simp, one_mul] at this
  unfold factor
  rw [mul_assoc]
  exact this

end

/-- **C132.** The energy with three wells, any time step: a step that the program accepts ends near the only solution of its equations. `N` is the number of nodes, and the tolerance of the
program is 10⁻¹⁴. -/
theorem accepted_error {g : Shape} (hs : Serial g) {c0 ca cb a b dt : ℝ} (ha : 0 ≤ ca) (hb : ca < cb) (hB : 0 ≤ b) (ht : 0 < dt) {dx : Nat → ℝ} {maxIter : Nat} {old start new : Int → ℝ × ℝ}
    (hrun : solve (withStep (parametric c0 ca cb a b) dt) g dx Real.sqrt old maxIter 0 true start = .ok new) {M : ℝ} (hM : ∀ n, 0 ≤ n → n < g.nodes → (new n).1 ^ 2 ≤ M)
    (hsmall : 8 * qa b ca cb * ((2 * (g.nodes.toNat : ℝ) * (1 / 10 ^ 14)) ^ 2 * rhs (parametric c0 ca cb a b) g old) ≤ qc b c0 ca cb) :
    ∃ exact, Scheme (withStep (parametric c0 ca cb a b) dt) g dx old exact ∧
      (∀ other, Scheme (withStep (parametric c0 ca cb a b) dt) g dx old other → ∀ n, 0 ≤ n → n < g.nodes → other n = exact n) ∧
      total g (fun n => ((new n).1 - (exact n).1) ^ 2) ≤
        factor g dx 2 (qa b ca cb) (qc b c0 ca cb) M * ((2 * (g.nodes.toNat : ℝ) * (1 / 10 ^ 14)) ^ 2 * rhs (parametric c0 ca cb a b) g old) := by
  have hcb : 0 < cb := lt_of_le_of_lt ha hb
  have hn0 := nodes_pos hs
  have h1 : 0 ≤ b * c0 * c0 := by rw [mul_assoc]; exact mul_nonneg hB (mul_self_nonneg _)
  have hq : 0 ≤ qa b ca cb := by unfold qa; positivity
  have hm : 0 < qc b c0 ca cb := by unfold qc; positivity
  have hD : 0 ≤ (withStep (parametric c0 ca cb a b) dt).D * (withStep (parametric c0 ca cb a b) dt).dt := (mul_pos (div_pos two_pos (by linarith)) ht).le
  have hsol : Solvable (withStep (parametric c0 ca cb a b) dt) g dx :=
    solvable_of_nonneg (by simp [parametric, withStep]) (div_pos two_pos (by linarith)).le ht.le (fun c => by
      show 0 ≤ qa b ca cb * c ^ 2 + qc b c0 ca cb
      have := mul_nonneg hq (sq_nonneg c)
      linarith) dx
  have hlin : Linearised (withStep (parametric c0 ca cb a b) dt) := parametric_nonlinear c0 ca cb a b
  have hpass : Passed (withStep (parametric c0 ca cb a b) dt) g dx Real.sqrt old new := by
    rcases solve_spec hs hlin hsol Real.sqrt maxIter old start with e | ⟨new', e, hp⟩
    · rw [hrun] at e; cases e
    · rw [hrun] at e; cases e; exact hp
  have hbound : missing (withStep (parametric c0 ca cb a b) dt) g dx old new ≤ (2 * (g.nodes.toNat : ℝ) * (1 / 10 ^ 14)) ^ 2 * rhs (parametric c0 ca cb a b) g old :=
    passed_bound (fun x hx => ⟨Real.sqrt_nonneg x, Real.sq_sqrt hx⟩) hpass
  obtain ⟨exact, hex, huniq⟩ := parametric_step hs (c0 := c0) (a := a) ha hb hB ht dx old
  refine ⟨exact, hex, huniq, ?_⟩
  have hmiss := missing_nonneg (g := g) (withStep (parametric c0 ca cb a b) dt) dx old new
  have err := residual_error (p := withStep (parametric c0 ca cb a b) dt) hs (by simp [parametric, withStep]) hD hq hm (fun _ => rfl) hex hM
    (le_trans (mul_le_mul_of_nonneg_left hbound (by positivity)) hsmall)
  have hK : (withStep (parametric c0 ca cb a b) dt).K = 2 := rfl
  rw [hK] at err
  by_cases e : g.nodes = 0
  · unfold total rhs total
    rw [e]
    simp
  · have hM0 : 0 ≤ M := le_trans (sq_nonneg _) (hM 0 le_rfl (by omega))
    have hf : 0 ≤ factor g dx 2 (qa b ca cb) (qc b c0 ca cb) M := by
      have := stiffness_nonneg (g := g) dx
      unfold factor
      positivity
    exact le_trans err (mul_le_mul_of_nonneg_left hbound hf)

/-- **C132.** For the constants of the example, spacing 1, compositions between -1 and 1 and at most two axes: the squared error is at most 20 times the squared residual. -/
theorem benchmark_factor {g : Shape} (hd : g.dim ≤ 2) : factor g (fun _ => (1 : ℚ)) 2 (qa (2 / (5 / 100 - 45 / 100) ^ 2) (5 / 100) (95 / 100)) (qc (2 / (5 / 100 - 45 / 100) ^ 2) (45 / 100) (5 / 100) (95 / 100)) 1 ≤ 20 := by
  have h : stiffness g (fun _ => (1 : ℚ)) ≤ 8 := by
    unfold stiffness
    simp only [Finset.sum_const, Finset.card_range, nsmul_eq_mul]
    have : (g.dim : ℚ) ≤ 2 := by exact_mod_cast hd
    linarith
  unfold factor qa qc
  norm_num
  linarith

/-! ## A uniform state -/

/-- The same composition everywhere, with its chemical potential. -/
def uniform {α : Type} (p : Params α) (c : α) : Int → α × α := fun _ => (c, p.full c)

theorem uniform_scheme {α : Type} [Field α] {p : Params α} (hp : ∀ c, p.contractive c + p.expansive c = p.full c) (g : Shape) (dx : Nat → α) (c : α) :
    Scheme p g dx (uniform p c) (uniform p c) := by
  intro n _ _
  have l : ∀ v : α, lap g dx (fun _ => v) n = 0 := fun v => Finset.sum_eq_zero fun i _ => by rw [show v - 2 * v + v = 0 by ring, zero_div]
  unfold r1 r2 uniform
  rw [l, l, ← hp c]
  constructor <;> ring

/-- The program accepts a uniform state after one iteration, unchanged, so `accepted_error` is about runs that exist. -/
theorem uniform_accepted {g : Shape} (hs : Serial g) (hg : Nonneg g) {c0 ca cb a b dt : ℝ} (ha : 0 ≤ ca) (hb : ca < cb) (hB : 0 ≤ b) (ht : 0 < dt) (dx : Nat → ℝ) (k : Nat) (c : ℝ) :
    let p := withStep (parametric c0 ca cb a b) dt
    solve p g dx Real.sqrt (uniform p c) (k + 2) 0 true (uniform p c) = .ok (uniform p c) := by
  intro p
  have hcb : 0 < cb := lt_of_le_of_lt ha hb
  have h1 : 0 ≤ b * c0 * c0 := by rw [mul_assoc]; exact mul_nonneg hB (mul_self_nonneg _)
  have hq : 0 ≤ qa b ca cb := by unfold qa; positivity
  have hm : 0 ≤ qc b c0 ca cb := by unfold qc; positivity
  have hsol : Solvable p g dx :=
    solvable_of_nonneg (by simp [p, parametric, withStep]) (div_pos two_pos (by linarith)).le ht.le (fun c => by
      show 0 ≤ qa b ca cb * c ^ 2 + qc b c0 ca cb
      have := mul_nonneg hq (sq_nonneg c)
      linarith) dx
  have hlin : Linearised p := parametric_nonlinear c0 ca cb a b
  have hsch : Scheme p g dx (uniform p c) (uniform p c) := uniform_scheme (p := p) (fun c => parametric_split c0 ca cb a b c) g dx c
  have hit := (iteration_fixed_iff hs hg hlin (by simp [p, parametric, withStep]) hsol _ _).2 hsch
  have hn0 := nodes_pos hs
  have hmiss : missing p g dx (uniform p c) (uniform p c) = 0 := by
    unfold missing total
    refine Finset.sum_eq_zero fun n hn => ?_
    have := hsch n (by omega) (by have := Finset.mem_range.1 hn; omega)
    beta_reduce
    rw [this.1, this.2]; ring
  have hres : tooLarge p g Real.sqrt (missing p g dx (uniform p c) (uniform p c), rhs p g (uniform p c)) = false := by
    unfold tooLarge
    rw [hmiss]
    split_ifs
    · simp
    · simp [p, parametric, withStep]
  rw [solve, if_pos rfl, hit, Outcome.ok_bind, if_pos (by omega), residual_ok hs, Outcome.ok_bind, Outcome.ok_bind, hres, solve]
  rfl

example : Serial (ring 4) ∧ Nonneg (ring 4) ∧ (0 : ℝ) ≤ 5 / 100 ∧ (5 / 100 : ℝ) < 95 / 100 ∧ ∀ n, 0 ≤ n → n < (ring 4).nodes →
    (uniform (withStep (parametric (45 / 100) (5 / 100) (95 / 100) 2 (25 / 2)) 1) (1 / 2 : ℝ) n).1 ^ 2 ≤ 1 :=
  ⟨ring_serial (by norm_num), fun j hj => by
    show (0 : Int) ≤ (ring 4).x0 j
    simp [ring], by norm_num, by norm_num, fun n _ _ => by
    show (1 / 2 : ℝ) ^ 2 ≤ 1
    norm_num⟩

end MMSP.ConvexAccepted
