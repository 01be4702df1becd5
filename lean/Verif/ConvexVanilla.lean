import Verif.ConvexAccepted
import Verif.GeneratorsOrder
/-!
# How far an accepted step is from the solution: the simple energy (C136)

C132 bounds the error of an accepted step of `update` (`examples/phase_transitions/cahn-hilliard/convex_splitting/cahn-hilliard.cpp` 276-461) for the energy with three wells. With the simple
energy (`VANILLA`, 60-87) the part taken at the new composition is `c³`, which does not control compositions near 0. Here the gradient term does: a field on a connected grid is bounded by
its differences between neighbours and its sum (`poincare`), and the sum is known because a step keeps the mass.

Exact arithmetic, one rank, grids as in C57.
-/

namespace MMSP.ConvexVanilla

open ConvexSplit ConvexSolution ConvexAccepted
open Conserve (Serial nb nb_spec total checkBoundary_closed)
open Generators (taxi taxi_closer taxi_zero taxi_nonneg taxi_congr)

section
variable {α : Type} [Field α] [LinearOrder α] [IsStrictOrderedRing α] {g : Shape}

/-- The greatest number of steps between two nodes. -/
def steps (g : Shape) : Int := ∑ d ∈ Finset.range g.dim, (g.x1 d - 1 - g.x0 d)

/-- One step along an axis. -/
theorem bond_le {dx : Nat → α} {h : α} (hd : ∀ i, i < g.dim → dx i ≠ 0 ∧ dx i ^ 2 ≤ h) (a : Int → α) {i : Nat} (hi : i < g.dim) {n : Int} (h0 : 0 ≤ n) (h1 : n < g.nodes) (up : Bool) :
    (a (nb g i n up) - a n) ^ 2 ≤ 2 * h * bonds g dx a a := by
  set f : Nat → α := fun k => ((a (nb g i k true) - a k) * (a (nb g i k true) - a k) + (a (nb g i k false) - a k) * (a (nb g i k false) - a k)) / 2 with hf
  have hf0 : ∀ k, 0 ≤ f k := fun k => by
    have := mul_self_nonneg (a (nb g i k true) - a k)
    have := mul_self_nonneg (a (nb g i k false) - a k)
    rw [hf]; beta_reduce; linarith
  have b1 : (∑ k ∈ Finset.range g.nodes.toNat, f k) / dx i ^ 2 ≤ bonds g dx a a :=
    Finset.single_le_sum (f := fun i => (∑ n ∈ Finset.range g.nodes.toNat,
      ((a (nb g i n true) - a n) * (a (nb g i n true) - a n) + (a (nb g i n false) - a n) * (a (nb g i n false) - a n)) / 2) / dx i ^ 2)
      (fun j _ => div_nonneg (Finset.sum_nonneg fun n _ => by
        nlinarith [mul_self_nonneg (a (nb g j n true) - a n), mul_self_nonneg (a (nb g j n false) - a n)]) (sq_nonneg _)) (Finset.mem_range.2 hi)
  have b2 : f n.toNat ≤ ∑ k ∈ Finset.range g.nodes.toNat, f k := Finset.single_le_sum (fun k _ => hf0 k) (Finset.mem_range.2 (by omega))
  have b3 : (a (nb g i n up) - a n) ^ 2 ≤ 2 * f n.toNat := by
    rw [hf]; beta_reduce
    rw [Int.toNat_of_nonneg h0]
    have := mul_self_nonneg (a (nb g i n true) - a n)
    have := mul_self_nonneg (a (nb g i n false) - a n)
    cases up <;> rw [pow_two] <;> linarith
  have hp : 0 < dx i ^ 2 := by have := (hd i hi).1; positivity
  rw [div_le_iff₀ hp] at b1
  have b4 := mul_le_mul_of_nonneg_left (hd i hi).2 (bonds_nonneg (g := g) dx a)
  linarith

/-- From node to node: the difference of the values is at most the number of steps times the largest step. -/
theorem path_le (hs : Serial g) (a : Int → α) {S : α} (hS : ∀ i, i < g.dim → ∀ n, 0 ≤ n → n < g.nodes → ∀ up, (a (nb g i n up) - a n) ^ 2 ≤ S) {m : Int} (m0 : 0 ≤ m) (m1 : m < g.nodes) :
    ∀ (k : Nat) (n : Int), 0 ≤ n → n < g.nodes → taxi g.dim (g.position n) (g.position m) = k → (a n - a m) ^ 2 ≤ (k : α) ^ 2 * S := by
  intro k
  induction k with
  | zero =>
    intro n h0 h1 ht
    have : n = m := Shape.position_inj hs.wf h0 h1 m0 m1 fun j hj => taxi_zero ht j hj
    rw [this]; simp
  | succ k ih =>
    intro n h0 h1 ht
    obtain ⟨d, s, hd, hsg, hcl, hmid⟩ := taxi_closer (x := g.position n) (y := g.position m) (dim := g.dim) (by omega)
    have pn := Shape.position_isNode hs.wf h0 h1 d hd
    have pm := Shape.position_isNode hs.wf m0 m1 d hd
    have hb : ∀ j, Stencil.bump (g.position n) d s j = g.position n j + if j = d then s else 0 := Generators.bump_at _ _ _
    rw [hb, if_pos rfl] at hmid
    obtain ⟨up, hup⟩ : ∃ up : Bool, s = if up then 1 else -1 := by
      rcases hsg with rfl | rfl
      · exact ⟨true, rfl⟩
      · exact ⟨false, rfl⟩
    obtain ⟨q0, q1, q2⟩ := nb_spec hs hd h0 h1 up
    have hc := checkBoundary_closed (x0 := g.x0 d) (x1 := g.x1 d) (hs.closed d hd) pn.1 pn.2
    have hin : checkBoundary .serial (g.position n d + s) (g.x0 d) (g.x1 d) (g.b0 d) (g.b1 d) = g.position n d + s := by
      rcases hsg with rfl | rfl
      · rw [hc.1, if_pos (by omega)]
      · have := hc.2
        rw [if_pos (by omega)] at this
        exact this
    have hpos : ∀ j, j < g.dim → g.position (nb g d n up) j = Stencil.bump (g.position n) d s j := by
      intro j hj
      rw [q2 j hj, hb]
      by_cases e : j = d
      · rw [if_pos e, if_pos e, ← hup, hin, e]
      · rw [if_neg e, if_neg e, add_zero]
    have h2 := ih (nb g d n up) q0 q1 (by rw [taxi_congr hpos (fun _ _ => rfl), hcl]; omega)
    have h3 := hS d hd n h0 h1 up
    set x := a (nb g d n up) - a m
    set y := a (nb g d n up) - a n
    have e : a n - a m = x - y := by simp only [x, y]; ring
    rw [e]
    have hk : (0 : α) ≤ k := Nat.cast_nonneg k
    rcases Nat.eq_zero_or_pos k with rfl | hk0
    · have hx : x = 0 := by
        have : x ^ 2 ≤ 0 := by simpa using h2
        exact pow_eq_zero_iff two_ne_zero |>.1 (le_antisymm this (sq_nonneg _))
      rw [hx]
      simpa using h3
    · have hkp : (0 : α) < k := Nat.cast_pos.2 hk0
      -- 2xy is at most x²/k + k y²
      have t : -(2 * x * y) * k ≤ x ^ 2 + (k : α) ^ 2 * y ^ 2 := by nlinarith [sq_nonneg (x + k * y)]
      have t2 : x ^ 2 + (k : α) ^ 2 * y ^ 2 ≤ 2 * (k : α) ^ 2 * S := by
        have := mul_le_mul_of_nonneg_left h3 (sq_nonneg (k : α))
        linarith
      have t3 : -(2 * x * y) ≤ 2 * k * S := by
        have : -(2 * x * y) * k ≤ (2 * k * S) * k := by
          calc -(2 * x * y) * k ≤ 2 * (k : α) ^ 2 * S := le_trans t t2
            _ = (2 * k * S) * k := by ring
        exact le_of_mul_le_mul_right this hkp
      have e2 : (x - y) ^ 2 = x ^ 2 + y ^ 2 + -(2 * x * y) := by ring
      rw [e2]
      push_cast
      have e3 : ((k : α) + 1) ^ 2 * S = (k : α) ^ 2 * S + S + 2 * k * S := by ring
      rw [e3]
      linarith

theorem taxi_le_steps {x y : Nat → Int} (hx : g.IsNode x) (hy : g.IsNode y) : taxi g.dim x y ≤ steps g := by
  refine Finset.sum_le_sum fun d hd => ?_
  have h1 := hx d (Finset.mem_range.1 hd)
  have h2 := hy d (Finset.mem_range.1 hd)
  rw [abs_le]; omega

/-- The number of nodes times the squared number of steps times a squared spacing. -/
def extent (g : Shape) (h : α) : α := (g.nodes.toNat : α) * (1 + (steps g : α)) ^ 2 * h

/-- **C136.** Poincaré's inequality on a grid: the sum of the squares of a field is bounded by its differences between neighbours and its sum. -/
theorem poincare (hs : Serial g) {dx : Nat → α} {h : α} (hd : ∀ i, i < g.dim → dx i ≠ 0 ∧ dx i ^ 2 ≤ h) (a : Int → α) :
    (g.nodes.toNat : α) * total g (fun n => a n ^ 2) ≤ (g.nodes.toNat : α) * (extent g h * bonds g dx a a) + total g a ^ 2 := by
  set N := g.nodes.toNat with hN
  have hdim : 0 < g.dim := hs.wf.dim_pos
  have hh : 0 ≤ h := le_trans (sq_nonneg _) (hd 0 hdim).2
  have hB := bonds_nonneg (g := g) dx a
  set S := 2 * h * bonds g dx a a with hS
  have hS0 : 0 ≤ S := by rw [hS]; positivity
  have pair : ∀ n ∈ Finset.range N, ∀ m ∈ Finset.range N, (a (n : Int) - a (m : Int)) ^ 2 ≤ (1 + (steps g : α)) ^ 2 * S := by
    intro n hn m hm
    have hn' := Finset.mem_range.1 hn
    have hm' := Finset.mem_range.1 hm
    have n1 : (n : Int) < g.nodes := by omega
    have m1 : (m : Int) < g.nodes := by omega
    have t0 := taxi_nonneg g.dim (g.position n) (g.position m)
    have t1 := taxi_le_steps (Shape.position_isNode hs.wf (by omega) n1) (Shape.position_isNode hs.wf (by omega) m1)
    refine le_trans (path_le hs a (S := S) (fun i hi k k0 k1 up => bond_le hd a hi k0 k1 up) (by omega) m1 _ _ (by omega) n1 (Int.toNat_of_nonneg t0).symm) ?_
    refine mul_le_mul_of_nonneg_right ?_ hS0
    refine pow_le_pow_left₀ (Nat.cast_nonneg _) ?_ 2
    have e : (((taxi g.dim (g.position n) (g.position m)).toNat : Nat) : α) = ((taxi g.dim (g.position n) (g.position m) : Int) : α) := by
      conv_rhs => rw [← Int.toNat_of_nonneg t0]
      rw [Int.cast_natCast]
    rw [e]
    have : ((taxi g.dim (g.position n) (g.position m) : Int) : α) ≤ (steps g : α) := by exact_mod_cast t1
    linarith
  have dbl : ∑ n ∈ Finset.range N, ∑ m ∈ Finset.range N, (a (n : Int) - a (m : Int)) ^ 2 = 2 * ((N : α) * total g (fun n => a n ^ 2)) - 2 * total g a ^ 2 := by
    have e : ∀ n ∈ Finset.range N, ∑ m ∈ Finset.range N, (a (n : Int) - a (m : Int)) ^ 2 = (N : α) * a n ^ 2 - 2 * a n * total g a + total g (fun n => a n ^ 2) := by
      intro n _
      have : ∀ m ∈ Finset.range N, (a (n : Int) - a (m : Int)) ^ 2 = a n ^ 2 - 2 * a n * a m + a m ^ 2 := fun m _ => by ring
      rw [Finset.sum_congr rfl this, Finset.sum_add_distrib, Finset.sum_sub_distrib, ← Finset.mul_sum, Finset.sum_const, Finset.card_range, nsmul_eq_mul]
      rfl
    rw [Finset.sum_congr rfl e, Finset.sum_add_distrib, Finset.sum_sub_distrib, ← Finset.mul_sum, Finset.sum_const, Finset.card_range, nsmul_eq_mul, ← Finset.sum_mul, ← Finset.mul_sum]
    have e1 : ∑ i ∈ Finset.range N, a (i : Int) ^ 2 = total g (fun n => a n ^ 2) := rfl
    have e2 : ∑ i ∈ Finset.range N, a (i : Int) = total g a := rfl
    rw [e1, e2]
    ring
  have up : ∑ n ∈ Finset.range N, ∑ m ∈ Finset.range N, (a (n : Int) - a (m : Int)) ^ 2 ≤ (N : α) * ((N : α) * ((1 + (steps g : α)) ^ 2 * S)) := by
    refine le_trans (Finset.sum_le_sum fun n hn => Finset.sum_le_sum fun m hm => pair n hn m hm) ?_
    rw [Finset.sum_const, Finset.sum_const, Finset.card_range, nsmul_eq_mul, nsmul_eq_mul]
  rw [dbl, hS] at up
  unfold extent
  rw [← hN]
  linarith

theorem bonds_half (dx : Nat → α) (a c : Int → α) : -bonds g dx a c ≤ 1 / 2 * bonds g dx c c + 1 / 2 * bonds g dx a a := by
  unfold bonds
  rw [← Finset.sum_neg_distrib, Finset.mul_sum, Finset.mul_sum, ← Finset.sum_add_distrib]
  refine Finset.sum_le_sum fun i _ => ?_
  rw [← neg_div, ← mul_div_assoc, ← mul_div_assoc, ← add_div]
  refine div_le_div_of_nonneg_right ?_ (sq_nonneg _)
  rw [← Finset.sum_neg_distrib, Finset.mul_sum, Finset.mul_sum, ← Finset.sum_add_distrib]
  refine Finset.sum_le_sum fun n _ => ?_
  nlinarith [sq_nonneg (a (nb g i n true) - a n + (c (nb g i n true) - c n)), sq_nonneg (a (nb g i n false) - a n + (c (nb g i n false) - c n))]

theorem node_bound' {q m M R a d x y η : α} (hq : 0 ≤ q) (hm : 0 ≤ m) (ha : a ^ 2 ≤ M) (hx : x ^ 2 ≤ R) (hη : 0 < η) :
    0 ≤ quot q m a d * d ^ 2 - (y * d - x * (quot q m a d * d) + x * y) +
      ((η + q * R) * d ^ 2 + 1 / (4 * η) * y ^ 2 + 1 / 2 * (x ^ 2 + y ^ 2) + 1 / 2 * (21 / 4 * q * M + m) * x ^ 2) := by
  have h1 := quot_ge (m := m) (a := a) (d := d) hq
  have h2 := quot_le (m := m) (d := d) hq ha
  have hw : 0 ≤ quot q m a d := by linarith
  generalize quot q m a d = w at h1 h2 hw
  have t1 : -(x * (w * d)) ≤ 1 / 2 * w * d ^ 2 + 1 / 2 * w * x ^ 2 := by nlinarith [mul_nonneg hw (sq_nonneg (x + d))]
  have t2 : y * d ≤ η * d ^ 2 + 1 / (4 * η) * y ^ 2 := by
    have e : η * d ^ 2 + 1 / (4 * η) * y ^ 2 - y * d = 1 / (4 * η) * (2 * η * d - y) ^ 2 := by field_simp; ring
    have : 0 ≤ 1 / (4 * η) * (2 * η * d - y) ^ 2 := by positivity
    linarith
  have t3 : x * y ≤ 1 / 2 * (x ^ 2 + y ^ 2) := by nlinarith [sq_nonneg (x - y)]
  have t4 : w * x ^ 2 ≤ (21 / 4 * q * M + m) * x ^ 2 + 2 * q * d ^ 2 * x ^ 2 := by
    have := mul_le_mul_of_nonneg_right h2 (sq_nonneg x)
    linarith
  have t5 : q * d ^ 2 * x ^ 2 ≤ q * R * d ^ 2 := by
    have a1 : q * x ^ 2 ≤ q * R := mul_le_mul_of_nonneg_left hx hq
    have := mul_le_mul_of_nonneg_right a1 (sq_nonneg d)
    linarith
  have t6 : 0 ≤ 1 / 2 * w * d ^ 2 := by positivity
  linarith

/-- The factor between squared residual and squared error; `P` is `extent`. -/
def factor' (g : Shape) (dx : Nat → α) (P K q m M : α) : α :=
  P * (4 / K * (K / (4 * P) + 2 * P / K + 1 / 2 + 1 / 2 * (21 / 4 * q * M + m) + K / 2 * stiffness g dx)) + 1

theorem steps_nonneg (hs : Serial g) (hn : 0 < g.nodes) : 0 ≤ steps g :=
  Finset.sum_nonneg fun d hd => by
    have := Shape.position_isNode hs.wf le_rfl hn d (Finset.mem_range.1 hd)
    omega

theorem extent_pos (hs : Serial g) (hn : 0 < g.nodes) {h : α} (hh : 0 < h) : 0 < extent g h := by
  have h1 : (0 : α) < g.nodes.toNat := Nat.cast_pos.2 (by omega)
  have h2 : (0 : α) ≤ steps g := by exact_mod_cast steps_nonneg hs hn
  unfold extent
  positivity

/-- **C136.** Any state and the solution of the step, also for an energy whose contractive part is flat somewhere: if the sum of the squared residuals is small enough, the sum of the squared
errors of the composition is at most a factor times it. `h` bounds the squared spacings. -/
theorem residual_error' (hs : Serial g) {p : Params α} (hK : 0 < p.K) (hD : 0 ≤ p.D * p.dt) {q m M : α} (hq : 0 ≤ q) (hm : 0 ≤ m) (hφ : ∀ x, p.contractive x = q * x ^ 3 + m * x)
    {dx : Nat → α} {h : α} (hd : ∀ i, i < g.dim → dx i ≠ 0 ∧ dx i ^ 2 ≤ h) {old new exact : Int → α × α} (hex : Scheme p g dx old exact)
    (hM : ∀ n, 0 ≤ n → n < g.nodes → (new n).1 ^ 2 ≤ M) (hsmall : 8 * q * missing p g dx old new * extent g h ≤ p.K) :
    total g (fun n => ((new n).1 - (exact n).1) ^ 2) ≤ factor' g dx (extent g h) p.K q m M * missing p g dx old new := by
  have hn0 := nodes_pos hs
  rcases eq_or_lt_of_le hn0 with e0 | hpos
  · unfold missing total; rw [← e0]; simp
  have hh : 0 < h := by
    have := hd 0 hs.wf.dim_pos
    have h1 : 0 < dx 0 ^ 2 := by have := this.1; positivity
    exact lt_of_lt_of_le h1 this.2
  have hP := extent_pos hs hpos hh
  set P := extent g h with hPdef
  have hM0 : 0 ≤ M := le_trans (sq_nonneg _) (hM 0 le_rfl hpos)
  have hR0 := missing_nonneg (g := g) p dx old new
  set R := missing p g dx old new with hR
  set c : Int → α := fun n => (new n).1 - (exact n).1 with hc
  set u : Int → α := fun n => (new n).2 - (exact n).2 with hu
  set x : Int → α := fun n => r1 p g dx old new n with hx
  set y : Int → α := fun n => r2 p g dx old new n with hy
  set w : Int → α := fun n => quot q m (new n).1 (c n) with hw
  have e1 : ∀ n, 0 ≤ n → n < g.nodes → c n = p.D * p.dt * lap g dx u n - x n := by
    intro n h0 h1
    have b := (hex n h0 h1).1
    rw [hu, lap_sub, hc, hx]
    beta_reduce
    unfold r1 at b ⊢
    linear_combination b
  have e2 : ∀ n, 0 ≤ n → n < g.nodes → u n = w n * c n - p.K * lap g dx c n - y n := by
    intro n h0 h1
    have b := (hex n h0 h1).2
    rw [hw, hy, hu]
    beta_reduce
    rw [hc, lap_sub]
    beta_reduce
    unfold r2 at b ⊢
    rw [hφ] at b ⊢
    unfold quot
    linear_combination b
  have s1 : total g (fun n => u n * c n) = -(p.D * p.dt * bonds g dx u u) - total g (fun n => x n * u n) := by
    rw [← mul_neg, ← sum_by_parts hs dx u u]
    unfold total
    rw [Finset.mul_sum, ← Finset.sum_sub_distrib]
    refine Finset.sum_congr rfl fun n hn => ?_
    have := Finset.mem_range.1 hn
    beta_reduce
    rw [e1 n (by omega) (by omega)]; ring
  have s2 : total g (fun n => u n * c n) = total g (fun n => w n * c n ^ 2 - y n * c n) + p.K * bonds g dx c c := by
    rw [← neg_neg (bonds g dx c c), ← sum_by_parts hs dx c c]
    unfold total
    rw [mul_neg, Finset.mul_sum, ← sub_eq_add_neg, ← Finset.sum_sub_distrib]
    refine Finset.sum_congr rfl fun n hn => ?_
    have := Finset.mem_range.1 hn
    beta_reduce
    rw [e2 n (by omega) (by omega)]; ring
  have s3 : total g (fun n => x n * u n) = total g (fun n => x n * (w n * c n) - x n * y n) + p.K * bonds g dx x c := by
    rw [← neg_neg (bonds g dx x c), ← sum_by_parts hs dx x c]
    unfold total
    rw [mul_neg, Finset.mul_sum, ← sub_eq_add_neg, ← Finset.sum_sub_distrib]
    refine Finset.sum_congr rfl fun n hn => ?_
    have := Finset.mem_range.1 hn
    beta_reduce
    rw [e2 n (by omega) (by omega)]; ring
  have hxR : ∀ n ∈ Finset.range g.nodes.toNat, x (n : Int) ^ 2 ≤ R := by
    intro n hn
    refine le_trans ?_ (Finset.single_le_sum (f := fun k : Nat => r1 p g dx old new k ^ 2 + r2 p g dx old new k ^ 2) (fun k _ => by positivity) hn)
    have := sq_nonneg (r2 p g dx old new n)
    linarith
  have hxx : total g (fun n => x n ^ 2) ≤ R := Finset.sum_le_sum fun n _ => by
    have := sq_nonneg (r2 p g dx old new n)
    linarith
  have hη : 0 < p.K / (8 * P) := by positivity
  set η := p.K / (8 * P) with hηdef
  have key : 0 ≤ total g (fun n => w n * c n ^ 2 - (y n * c n - x n * (w n * c n) + x n * y n)) + ((η + q * R) * total g (fun n => c n ^ 2) +
      total g (fun n => 1 / (4 * η) * y n ^ 2 + 1 / 2 * (x n ^ 2 + y n ^ 2) + 1 / 2 * (21 / 4 * q * M + m) * x n ^ 2)) := by
    unfold total
    rw [Finset.mul_sum, ← Finset.sum_add_distrib, ← Finset.sum_add_distrib]
    refine Finset.sum_nonneg fun n hn => ?_
    have := node_bound' (d := c n) (y := y n) hq hm (hM n (by omega) (by have := Finset.mem_range.1 hn; omega)) (hxR n hn) hη
    show 0 ≤ quot q m (new n).1 (c n) * c n ^ 2 - (y n * c n - x n * (quot q m (new n).1 (c n) * c n) + x n * y n) + _
    linarith
  have s4 : total g (fun n => w n * c n ^ 2 - (y n * c n - x n * (w n * c n) + x n * y n)) =
      total g (fun n => w n * c n ^ 2 - y n * c n) + total g (fun n => x n * (w n * c n) - x n * y n) := by
    unfold total
    rw [← Finset.sum_add_distrib]
    exact Finset.sum_congr rfl fun n _ => by ring
  have s5 : total g (fun n => 1 / (4 * η) * y n ^ 2 + 1 / 2 * (x n ^ 2 + y n ^ 2) + 1 / 2 * (21 / 4 * q * M + m) * x n ^ 2) ≤ (1 / (4 * η) + 1 / 2 + 1 / 2 * (21 / 4 * q * M + m)) * R := by
    rw [hR]
    unfold missing total
    rw [Finset.mul_sum]
    refine Finset.sum_le_sum fun n _ => ?_
    have a1 : 0 ≤ 1 / (4 * η) := by positivity
    have a2 : 0 ≤ 1 / 2 * (21 / 4 * q * M + m) := by positivity
    have a3 := mul_nonneg a1 (sq_nonneg (x n))
    have a4 := mul_nonneg a2 (sq_nonneg (y n))
    show _ ≤ (1 / (4 * η) + 1 / 2 + 1 / 2 * (21 / 4 * q * M + m)) * (x n ^ 2 + y n ^ 2)
    linarith
  have b0 := mul_nonneg hD (bonds_nonneg (g := g) dx u)
  have b1 := mul_le_mul_of_nonneg_left (bonds_half (g := g) dx x c) hK.le
  have b2 := mul_le_mul_of_nonneg_left (le_trans (bonds_le hs dx x) (mul_le_mul_of_nonneg_left hxx (stiffness_nonneg dx))) (show 0 ≤ p.K / 2 by linarith)
  -- the mass of the error is that of the residual
  have hsum : total g c = -total g x := by
    have z : total g (fun n => 1 * lap g dx u n) = -bonds g dx (fun _ => 1) u := sum_by_parts hs dx (fun _ => 1) u
    have z2 : bonds g dx (fun _ => (1 : α)) u = 0 := by unfold bonds; simp
    rw [z2, neg_zero] at z
    have : total g c = p.D * p.dt * total g (fun n => 1 * lap g dx u n) - total g x := by
      unfold total
      rw [Finset.mul_sum, ← Finset.sum_sub_distrib]
      refine Finset.sum_congr rfl fun n hn => ?_
      have := Finset.mem_range.1 hn
      rw [e1 n (by omega) (by omega)]; ring
    rw [this, z]; ring
  have hN : (0 : α) < g.nodes.toNat := Nat.cast_pos.2 (by omega)
  have hcs : total g x ^ 2 ≤ (g.nodes.toNat : α) * R := by
    have := sq_sum_le_card_mul_sum_sq (s := Finset.range g.nodes.toNat) (f := fun n : Nat => x n)
    rw [Finset.card_range] at this
    exact le_trans this (mul_le_mul_of_nonneg_left hxx hN.le)
  have hT : total g (fun n => c n ^ 2) ≤ P * bonds g dx c c + R := by
    have := poincare hs hd c
    rw [hsum, neg_sq] at this
    have t : (g.nodes.toNat : α) * total g (fun n => c n ^ 2) ≤ (g.nodes.toNat : α) * (P * bonds g dx c c + R) := by
      rw [mul_add]; linarith
    exact le_of_mul_le_mul_left t hN
  have hB0 := bonds_nonneg (g := g) dx c
  generalize bonds g dx c c = B at *
  generalize total g (fun n => c n ^ 2) = T at *
  have f1 : p.K / 2 * B ≤ (η + q * R) * T + (1 / (4 * η) + 1 / 2 + 1 / 2 * (21 / 4 * q * M + m) + p.K / 2 * stiffness g dx) * R := by
    linarith
  have f2 : 1 / (4 * η) = 2 * P / p.K := by rw [hηdef]; field_simp; norm_num
  have f3 : η + q * R ≤ p.K / (4 * P) := by
    have : q * R ≤ p.K / (8 * P) := by
      rw [le_div_iff₀ (by positivity)]; linarith
    have e : p.K / (4 * P) = p.K / (8 * P) + p.K / (8 * P) := by field_simp; norm_num
    rw [e]; linarith
  have f4 : (η + q * R) * T ≤ p.K / 4 * B + p.K / (4 * P) * R := by
    have g0 : 0 ≤ η + q * R := by positivity
    have g1 := mul_le_mul_of_nonneg_left hT g0
    have g2 := mul_le_mul_of_nonneg_right f3 (show 0 ≤ P * B + R by positivity)
    have e : p.K / (4 * P) * (P * B + R) = p.K / 4 * B + p.K / (4 * P) * R := by field_simp
    linarith
  rw [f2] at f1
  have f5 : B ≤ 4 / p.K * (p.K / (4 * P) + 2 * P / p.K + 1 / 2 + 1 / 2 * (21 / 4 * q * M + m) + p.K / 2 * stiffness g dx) * R := by
    have : p.K / 4 * B ≤ (p.K / (4 * P) + 2 * P / p.K + 1 / 2 + 1 / 2 * (21 / 4 * q * M + m) + p.K / 2 * stiffness g dx) * R := by linarith
    have := mul_le_mul_of_nonneg_left this (show 0 ≤ 4 / p.K by positivity)
    rw [← mul_assoc, show 4 / p.K * (p.K / 4) = 1 by field_simp, one_mul, ← mul_assoc] at this
    exact this
  have f6 := mul_le_mul_of_nonneg_left f5 hP.le
  unfold factor'
  linarith

end

/-- **C136.** The simple energy, any time step: a step that the program accepts ends near the only solution of its equations. `N` is the number of nodes, and the tolerance of the program is
10⁻¹⁴. -/
theorem vanilla_accepted_error {g : Shape} (hs : Serial g) {dt : ℝ} (ht : 0 < dt) {dx : Nat → ℝ} {h : ℝ} (hd : ∀ i, i < g.dim → dx i ≠ 0 ∧ dx i ^ 2 ≤ h) {maxIter : Nat}
    {old start new : Int → ℝ × ℝ} (hrun : solve (withStep vanilla dt) g dx Real.sqrt old maxIter 0 true start = .ok new) {M : ℝ} (hM : ∀ n, 0 ≤ n → n < g.nodes → (new n).1 ^ 2 ≤ M)
    (hsmall : 8 * ((2 * (g.nodes.toNat : ℝ) * (1 / 10 ^ 14)) ^ 2 * rhs vanilla g old) * extent g h ≤ 1) :
    ∃ exact, Scheme (withStep vanilla dt) g dx old exact ∧
      (∀ other, Scheme (withStep vanilla dt) g dx old other → ∀ n, 0 ≤ n → n < g.nodes → other n = exact n) ∧
      total g (fun n => ((new n).1 - (exact n).1) ^ 2) ≤ factor' g dx (extent g h) 1 1 0 M * ((2 * (g.nodes.toNat : ℝ) * (1 / 10 ^ 14)) ^ 2 * rhs vanilla g old) := by
  have hn0 := nodes_pos hs
  have hsol : Solvable (withStep (vanilla : Params ℝ) dt) g dx :=
    solvable_of_nonneg (by simp [vanilla, withStep]) (by simp [vanilla, withStep]) ht.le (fun c => by
      show 0 ≤ c ^ 2
      positivity) dx
  have hlin : Linearised (withStep (vanilla : Params ℝ) dt) := vanilla_nonlinear
  have hpass : Passed (withStep (vanilla : Params ℝ) dt) g dx Real.sqrt old new := by
    rcases solve_spec hs hlin hsol Real.sqrt maxIter old start with e | ⟨new', e, hp⟩
    · rw [hrun] at e; cases e
    · rw [hrun] at e; cases e; exact hp
  have hbound : missing (withStep (vanilla : Params ℝ) dt) g dx old new ≤ (2 * (g.nodes.toNat : ℝ) * (1 / 10 ^ 14)) ^ 2 * rhs vanilla g old :=
    passed_bound (fun x hx => ⟨Real.sqrt_nonneg x, Real.sq_sqrt hx⟩) hpass
  obtain ⟨exact, hex, huniq⟩ := vanilla_step hs ht dx old
  refine ⟨exact, hex, huniq, ?_⟩
  rcases eq_or_lt_of_le hn0 with e0 | hpos
  · unfold rhs total; rw [← e0]; simp
  have hh : 0 < h := by
    have := hd 0 hs.wf.dim_pos
    have h1 : 0 < dx 0 ^ 2 := by have := this.1; positivity
    exact lt_of_lt_of_le h1 this.2
  have hP := extent_pos hs hpos hh
  have hM0 : 0 ≤ M := le_trans (sq_nonneg _) (hM 0 le_rfl hpos)
  have err := residual_error' (p := withStep (vanilla : Params ℝ) dt) (q := 1) (m := 0) hs (by simp [vanilla, withStep]) (by simpa [vanilla, withStep] using ht.le) zero_le_one le_rfl
    (fun x => by simp [vanilla, withStep]) hd hex hM (by
      have := mul_le_mul_of_nonneg_right hbound hP.le
      show _ ≤ (1 : ℝ)
      linarith)
  have hK : (withStep (vanilla : Params ℝ) dt).K = 1 := rfl
  rw [hK] at err
  have hf : 0 ≤ factor' g dx (extent g h) 1 1 0 M := by
    have := stiffness_nonneg (g := g) dx
    unfold factor'
    positivity
  exact le_trans err (mul_le_mul_of_nonneg_left hbound hf)

/-- The program accepts a uniform state after one iteration, unchanged, so `vanilla_accepted_error` is about runs that exist. -/
theorem vanilla_uniform_accepted {g : Shape} (hs : Serial g) (hg : Nonneg g) {dt : ℝ} (ht : 0 < dt) (dx : Nat → ℝ) (k : Nat) (c : ℝ) :
    solve (withStep vanilla dt) g dx Real.sqrt (uniform (withStep vanilla dt) c) (k + 2) 0 true (uniform (withStep vanilla dt) c) = .ok (uniform (withStep vanilla dt) c) := by
  set p : Params ℝ := withStep vanilla dt with hp
  have hsol : Solvable p g dx :=
    solvable_of_nonneg (by simp [p, vanilla, withStep]) (by simp [p, vanilla, withStep]) ht.le (fun c => by
      show 0 ≤ c ^ 2
      positivity) dx
  have hlin : Linearised p := vanilla_nonlinear
  have hsch : Scheme p g dx (uniform p c) (uniform p c) := uniform_scheme (p := p) (fun c => vanilla_split c) g dx c
  have hit := (iteration_fixed_iff hs hg hlin (by simp [p, vanilla, withStep]) hsol _ _).2 hsch
  have hn0 := nodes_pos hs
  have hmiss : missing p g dx (uniform p c) (uniform p c) = 0 := by
    unfold missing total
    refine Finset.sum_eq_zero fun n hn => ?_
    have := hsch n (by omega) (by have := Finset.mem_range.1 hn; omega)
    beta_reduce
    rw [this.1, this.2]; ring
  have hres : tooLarge p g Real.sqrt (missing p g dx (uniform p c) (uniform p c), rhs p g (uniform p c)) = false := by
    unfold tooLarge
    rw [hmiss]
    split_ifs
    · simp
    · simp [p, vanilla, withStep]
  rw [solve, if_pos rfl, hit, Outcome.ok_bind, if_pos (by omega), residual_ok hs, Outcome.ok_bind, Outcome.ok_bind, hres, solve]
  rfl

/-- A ring of four nodes with the composition 1/2 everywhere meets every hypothesis, the limit on the residual included. -/
example : Serial (ring 4) ∧ Nonneg (ring 4) ∧ (∀ i, i < (ring 4).dim → (1 : ℝ) ≠ 0 ∧ (1 : ℝ) ^ 2 ≤ 1) ∧
    8 * ((2 * ((ring 4).nodes.toNat : ℝ) * (1 / 10 ^ 14)) ^ 2 * rhs vanilla (ring 4) (uniform (withStep vanilla 1) (1 / 2))) * extent (ring 4) 1 ≤ 1 :=
  ⟨ring_serial (by norm_num), fun j hj => by
    show (0 : Int) ≤ (ring 4).x0 j
    simp [ring], fun _ _ => by norm_num, by
    have hN : (ring 4).nodes.toNat = 4 := by decide
    have hS : steps (ring 4) = 3 := by decide
    unfold extent rhs total
    rw [hN, hS]
    simp only [uniform, vanilla, withStep, Finset.sum_const, Finset.card_range, nsmul_eq_mul]
    norm_num⟩

end MMSP.ConvexVanilla
