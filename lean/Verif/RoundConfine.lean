import Verif.RoundConserveRanks
import Verif.SymmetryTurn
import Verif.RelaxProps
import Verif.Rounded
import Mathlib.Tactic.IntervalCases
/-!
# Property C111: the Allen-Cahn example in floating point stays bounded

The programs of C50 (`allenCahnUpdate`, `acRhs`: allen-cahn.cpp 47-75) with numbers of `p` significant binary digits (`Num p` of C107). Rounding acts like a small noise, and the double well
turns it back at a bound just outside the wells, so nothing accumulates. That every value stays bounded is also why nothing can overflow.
-/

namespace MMSP.RoundConfine

open Finset
open Rounding MMSP.Stencil MMSP.ParallelRun MMSP.RoundConserve MMSP.Symmetry

/-! ## Specification -/

/-- All values of a grid lie within `±R`. -/
def Within {p : Nat} (g : Shape) (R : ℝ) (data : Int → Num p) : Prop := ∀ x, g.IsNode x → |(cellAt g data x).val| ≤ R

/-- Sum of the weights `1/(dx*dx)` of `d` axes. -/
noncomputable def weights {p : Nat} (d : Nat) (dx : Nat → Num p) : ℝ := ∑ i ∈ range d, (lapWeight (dx i)).val

/-- Rounding error of one evaluation of the right-hand side on a field within `±R`. -/
noncomputable def slip {p : Nat} (d : Nat) (dx : Nat → Num p) (c r u k : Num p) (R : ℝ) : ℝ :=
  eps p * R + ((1 + eps p) ^ (d + 7) - 1) * (|c.val| * (|r.val| * R + |u.val| * R ^ 3 + |k.val| * (4 * weights d dx * R)))

/-- The call `pow(phi,3)` of allen-cahn.cpp 69: exact up to two roundings, odd, and exact at 1. -/
structure Cube {p : Nat} (cube : Num p → Num p) : Prop where
  near : ∀ x, Near p 2 (cube x).val (x.val ^ 3) (|x.val| ^ 3)
  odd : ∀ x, cube (-x) = -cube x
  one : (cube 1).val = 1

/-- allen-cahn.cpp 69 with a given `pow(·,3)`. -/
noncomputable def powRhs {p : Nat} (cube : Num p → Num p) (dt m r u k phi l : Num p) : Num p := phi - dt * m * (-r * phi + u * cube phi - k * l)

/-- The well turns back at `R` what drift and rounding bring there, and the time step is small. `c` is `dt*M`. -/
structure Turns {p : Nat} (d : Nat) (dx : Nat → Num p) (c r u k : Num p) (R : ℝ) : Prop where
  c0 : 0 < c.val
  u0 : 0 ≤ u.val
  k0 : 0 ≤ k.val
  turn : c.val * (r.val * R) + slip d dx c r u k R ≤ c.val * (u.val * R ^ 3)
  small : c.val * (k.val * (2 * weights d dx) + 3 * u.val * R ^ 2 - r.val) ≤ 1

/-- `pow(phi,3)` as two products. -/
noncomputable def timesThree {p : Nat} (x : Num p) : Num p := x * x * x

/-- `pow(phi,3)` rounded once. -/
noncomputable def roundedCube {p : Nat} (x : Num p) : Num p := Num.of (x.val ^ 3)

/-- With the product for `pow` the right-hand side is that of C108. -/
theorem powRhs_timesThree {p : Nat} (dt m r u k : Num p) : powRhs timesThree dt m r u k = acRhs dt m r u k := rfl

theorem timesThree_cube {p : Nat} (hp : 1 ≤ p) : Cube (timesThree (p := p)) where
  near x := by
    unfold timesThree
    rw [Num.mul_val, Num.mul_val, mul_comm]
    have := ((Near.exact p 0 x.val).mul x.val).mul x.val
    rwa [show x.val * (x.val * x.val) = x.val ^ 3 by ring, show |x.val| * (|x.val| * |x.val|) = |x.val| ^ 3 by ring] at this
  odd x := by
    unfold timesThree
    apply Num.ext
    simp only [Num.mul_val, Num.neg_exact hp]
    rw [neg_mul_neg, ← fl_neg, mul_neg]
  one := by
    unfold timesThree
    rw [Num.mul_val, Num.mul_val, Num.one_val, mul_one, mul_one, fl_one hp, fl_one hp]

theorem roundedCube_cube {p : Nat} (hp : 1 ≤ p) : Cube (roundedCube (p := p)) where
  near x := by
    have := (Near.exact p 0 (x.val ^ 3)).round
    rw [abs_pow] at this
    exact this.weaken (by omega)
  odd x := by
    apply Num.ext
    show fl p ((-x).val ^ 3) = (-roundedCube x).val
    rw [Num.neg_exact hp, Num.neg_exact hp]
    show _ = -fl p (x.val ^ 3)
    rw [← fl_neg]; congr 1; ring
  one := by
    show fl p ((1 : Num p).val ^ 3) = 1
    rw [Num.one_val, one_pow, fl_one hp]

/-! ## One node -/

section
variable {p : Nat} (hp : 1 ≤ p)

theorem weight_nonneg (h : Num p) : 0 ≤ (lapWeight h).val := by
  unfold lapWeight
  rw [Num.div_val, Num.mul_val, Num.one_val]
  exact fl_nonneg (div_nonneg zero_le_one (fl_nonneg (mul_self_nonneg _)))

include hp

/-- What is subtracted on the right-hand side, operation by operation. -/
theorem change_near {cube : Num p → Num p} (hcube : Cube cube) {d : Nat} {m r u k phi l : Num p} {dt : Num p} {y q : ℝ} (hl : Near p (d + 3) l.val y q) :
    Near p (d + 6) (dt * m * (-r * phi + u * cube phi - k * l)).val ((dt * m).val * (-r.val * phi.val + u.val * phi.val ^ 3 - k.val * y))
      (|(dt * m).val| * (|r.val| * |phi.val| + |u.val| * |phi.val| ^ 3 + |k.val| * q)) := by
  have a1 : Near p 1 (-r * phi).val (-r.val * phi.val) (|r.val| * |phi.val|) := by
    rw [Num.mul_val, Num.neg_exact hp]
    have := (Near.exact p 0 phi.val).mul (-r.val)
    rwa [abs_neg] at this
  have a2 := hcube.near phi
  have a3 : Near p 4 (-r * phi + u * cube phi).val (-r.val * phi.val + u.val * phi.val ^ 3) (|r.val| * |phi.val| + |u.val| * |phi.val| ^ 3) := by
    rw [Num.add_val]
    refine (a1.weaken (by omega)).add ?_
    rw [Num.mul_val]
    exact a2.mul u.val
  have a4 : Near p (d + 5) (-r * phi + u * cube phi - k * l).val (-r.val * phi.val + u.val * phi.val ^ 3 - k.val * y) (|r.val| * |phi.val| + |u.val| * |phi.val| ^ 3 + |k.val| * q) := by
    rw [Num.sub_val]
    refine (a3.weaken (by omega)).sub ?_
    rw [Num.mul_val]
    exact hl.mul k.val
  rw [Num.mul_val]
  exact a4.mul (dt * m).val

/-- The right-hand side, operation by operation. -/
theorem powRhs_near {cube : Num p → Num p} (hcube : Cube cube) {d : Nat} {m r u k phi l : Num p} {dt : Num p} {y q : ℝ} (hl : Near p (d + 3) l.val y q) :
    |(powRhs cube dt m r u k phi l).val - (phi.val - (dt * m).val * (-r.val * phi.val + u.val * phi.val ^ 3 - k.val * y))| ≤
      eps p * |phi.val| + ((1 + eps p) ^ (d + 7) - 1) * (|(dt * m).val| * (|r.val| * |phi.val| + |u.val| * |phi.val| ^ 3 + |k.val| * q)) := by
  have := (change_near hp hcube hl (dt := dt) (m := m) (r := r) (u := u) (k := k) (phi := phi)).neg.add_exact phi.val
  unfold powRhs
  rw [Num.sub_val, sub_eq_add_neg, sub_eq_add_neg phi.val ((dt * m).val * _)]
  exact this

omit hp in
/-- The Laplacian of a field within `±R` before rounding. -/
theorem lap_range {d : Nat} (dx : Nat → Num p) {phi : ℝ} (F G : Nat → Num p) {R : ℝ} (hF : ∀ i, i < d → (F i).val ≤ R) (hG : ∀ i, i < d → (G i).val ≤ R) :
    ∑ i ∈ range d, (lapWeight (dx i)).val * ((F i).val - 2 * phi + (G i).val) ≤ (R - phi) * (2 * weights d dx) := by
  unfold weights
  rw [mul_comm (2 : ℝ) (∑ i ∈ range d, _), ← mul_assoc, mul_sum, sum_mul]
  refine sum_le_sum fun i hi => ?_
  have h1 := hF i (mem_range.1 hi)
  have h2 := hG i (mem_range.1 hi)
  nlinarith [weight_nonneg (dx i)]

omit hp in
theorem lap_size {d : Nat} (dx : Nat → Num p) {phi : Num p} (F G : Nat → Num p) {R : ℝ} (hphi : |phi.val| ≤ R) (hF : ∀ i, i < d → |(F i).val| ≤ R) (hG : ∀ i, i < d → |(G i).val| ≤ R) :
    ∑ i ∈ range d, |(lapWeight (dx i)).val| * (|(F i).val| + 2 * |phi.val| + |(G i).val|) ≤ 4 * weights d dx * R := by
  unfold weights
  rw [mul_comm 4, mul_assoc, sum_mul]
  refine sum_le_sum fun i hi => ?_
  rw [abs_of_nonneg (weight_nonneg _)]
  have := hF i (mem_range.1 hi)
  have := hG i (mem_range.1 hi)
  exact mul_le_mul_of_nonneg_left (by linarith) (weight_nonneg _)

/-- Rounding error of one node. -/
theorem node_slip {cube : Num p → Num p} (hcube : Cube cube) {d : Nat} (dx : Nat → Num p) (dt m r u k : Num p) {R : ℝ} {phi : Num p} (F G : Nat → Num p) (hphi : |phi.val| ≤ R)
    (hF : ∀ i, i < d → |(F i).val| ≤ R) (hG : ∀ i, i < d → |(G i).val| ≤ R) :
    |(powRhs cube dt m r u k phi ((List.range d).foldl (fun a i => a + lapWeight (dx i) * (F i - (1 + 1) * phi + G i)) 0)).val -
      (phi.val - (dt * m).val * (-r.val * phi.val + u.val * phi.val ^ 3 - k.val * ∑ i ∈ range d, (lapWeight (dx i)).val * ((F i).val - 2 * phi.val + (G i).val)))| ≤ slip d dx (dt * m) r u k R := by
  have hn := (fold_near hp (fun i => lapWeight (dx i)) F G phi d).wider (lap_size dx F G hphi hF hG)
  refine (powRhs_near hp hcube hn).trans ?_
  unfold slip
  refine add_le_add (mul_le_mul_of_nonneg_left hphi (eps_pos p).le) (mul_le_mul_of_nonneg_left (mul_le_mul_of_nonneg_left ?_ (abs_nonneg _)) (Near.grow_pos p _))
  have e1 := mul_le_mul_of_nonneg_left hphi (abs_nonneg r.val)
  have e2 := mul_le_mul_of_nonneg_left (pow_le_pow_left₀ (abs_nonneg _) hphi 3) (abs_nonneg u.val)
  linarith

/-- One node: the new value is within `±R` again. -/
theorem node_within {cube : Num p → Num p} (hcube : Cube cube) {d : Nat} {dx : Nat → Num p} {dt m r u k : Num p} {R : ℝ} (ht : Turns d dx (dt * m) r u k R) {phi : Num p} (F G : Nat → Num p) (hphi : |phi.val| ≤ R)
    (hF : ∀ i, i < d → |(F i).val| ≤ R) (hG : ∀ i, i < d → |(G i).val| ≤ R) :
    |(powRhs cube dt m r u k phi ((List.range d).foldl (fun a i => a + lapWeight (dx i) * (F i - (1 + 1) * phi + G i)) 0)).val| ≤ R := by
  have hR : 0 ≤ R := (abs_nonneg _).trans hphi
  have herr := node_slip hp hcube dx dt m r u k F G hphi hF hG
  set l := (List.range d).foldl (fun a i => a + lapWeight (dx i) * (F i - (1 + 1) * phi + G i)) 0
  set y := ∑ i ∈ range d, (lapWeight (dx i)).val * ((F i).val - 2 * phi.val + (G i).val)
  obtain ⟨p1, p2⟩ := abs_le.1 hphi
  have hy : (-R - phi.val) * (2 * weights d dx) ≤ y ∧ y ≤ (R - phi.val) * (2 * weights d dx) := by
    refine ⟨?_, lap_range dx F G (fun i hi => (abs_le.1 (hF i hi)).2) fun i hi => (abs_le.1 (hG i hi)).2⟩
    have := lap_range dx (phi := -phi.val) (fun i => -F i) (fun i => -G i) (R := R) (fun i hi => by rw [Num.neg_exact hp]; linarith [(abs_le.1 (hF i hi)).1])
      (fun i hi => by rw [Num.neg_exact hp]; linarith [(abs_le.1 (hG i hi)).1])
    have e : ∑ i ∈ range d, (lapWeight (dx i)).val * ((-F i).val - 2 * -phi.val + (-G i).val) = -y := by
      rw [← sum_neg_distrib]; exact sum_congr rfl fun i _ => by rw [Num.neg_exact hp, Num.neg_exact hp]; ring
    rw [e] at this
    linarith
  -- rounding as a noise
  have hc := ht.c0
  set c := (dt * m).val
  set v := (powRhs cube dt m r u k phi l).val
  set b := slip d dx (dt * m) r u k R / c with hb
  set n := (phi.val - c * (-r.val * phi.val + u.val * phi.val ^ 3 - k.val * y) - v) / c with hnd
  have hcn : c * n = phi.val - c * (-r.val * phi.val + u.val * phi.val ^ 3 - k.val * y) - v := by rw [hnd]; field_simp
  have hcb : c * b = slip d dx (dt * m) r u k R := by rw [hb]; field_simp
  obtain ⟨e1, e2⟩ := abs_le.1 herr
  have hn1 : -b ≤ n := by
    refine le_of_mul_le_mul_left ?_ hc
    rw [hcn, mul_neg, hcb]; linarith
  have hn2 : -b ≤ -n := by
    refine le_of_mul_le_mul_left ?_ hc
    rw [mul_neg, mul_neg, hcn, hcb]; linarith
  have turn : r.val * R + b ≤ u.val * R ^ 3 := by
    refine le_of_mul_le_mul_left ?_ hc
    rw [mul_add, hcb]; exact ht.turn
  have up := Relax.confined_step (phi := phi.val) (l := y) (n := n) hc.le ht.u0 ht.k0 turn ht.small p1 p2 hy.2 hn1
  have down := Relax.confined_step (phi := -phi.val) (l := -y) (n := -n) hc.le ht.u0 ht.k0 turn ht.small (by linarith) (by linarith) (by linarith [hy.1]) hn2
  have ev : v = phi.val - c * (u.val * phi.val ^ 3 - r.val * phi.val - k.val * y + n) := by linear_combination hcn
  refine abs_le.2 ⟨?_, by rw [ev]; exact up⟩
  have ed : -v = -phi.val - c * (u.val * (-phi.val) ^ 3 - r.val * -phi.val - k.val * -y + -n) := by linear_combination -hcn
  linarith

/-! ## The bound 1 -/

omit hp in
/-- A field at or below `R` leaves room in exact arithmetic. -/
theorem confined_slack {c r u k w R phi l : ℝ} (c0 : 0 ≤ c) (u0 : 0 ≤ u) (k0 : 0 ≤ k) (turn : r * R ≤ u * R ^ 3) (h1 : -R ≤ phi) (h2 : phi ≤ R) (hl : l ≤ (R - phi) * w) :
    phi - c * (-r * phi + u * phi ^ 3 - k * l) ≤ R - (R - phi) * (1 - c * (k * w + 3 * u * R ^ 2 - r)) := by
  have a1 : 0 ≤ c * (k * ((R - phi) * w - l)) := mul_nonneg c0 (mul_nonneg k0 (sub_nonneg.2 hl))
  have a2 : 0 ≤ c * (u * R ^ 3 - r * R) := mul_nonneg c0 (by linarith)
  have a5 : 0 ≤ c * u * ((R - phi) * ((R - phi) * (2 * R + phi))) := mul_nonneg (mul_nonneg c0 u0) (mul_nonneg (by linarith) (mul_nonneg (by linarith) (by linarith)))
  have e : R - (R - phi) * (1 - c * (k * w + 3 * u * R ^ 2 - r)) - (phi - c * (-r * phi + u * phi ^ 3 - k * l)) =
    c * (k * ((R - phi) * w - l)) + c * (u * R ^ 3 - r * R) + c * u * ((R - phi) * ((R - phi) * (2 * R + phi))) := by ring
  linarith

/-- At the value 1 no neighbour is higher, and no operation of the Laplacian changes sign. -/
theorem lap_at_one {d : Nat} (dx : Nat → Num p) (F G : Nat → Num p) {phi : Num p} (hphi : phi.val = 1) (hF : ∀ i, i < d → (F i).val ≤ 1) (hG : ∀ i, i < d → (G i).val ≤ 1) :
    ((List.range d).foldl (fun a i => a + lapWeight (dx i) * (F i - (1 + 1) * phi + G i)) 0).val ≤ 0 := by
  induction d with
  | zero => simp [Num.zero_val]
  | succ d ih =>
    rw [List.range_succ, List.foldl_append, List.foldl_cons, List.foldl_nil, Num.add_val, Num.mul_val, Num.add_val, Num.sub_val, Num.two_mul_exact hp, hphi]
    have hi := ih (fun i h => hF i (by omega)) (fun i h => hG i (by omega))
    have down : ∀ {x : ℝ}, x ≤ 0 → fl p x ≤ 0 := fun {x} hx => by have := fl_mono hp hx; rwa [fl_zero] at this
    have s1 : fl p ((F d).val - 2 * 1) ≤ -1 := by
      have := fl_mono hp (show (F d).val - 2 * 1 ≤ -1 by have := hF d (by omega); linarith)
      rwa [fl_neg, fl_one hp] at this
    have s2 := down (show fl p ((F d).val - 2 * 1) + (G d).val ≤ 0 by have := hG d (by omega); linarith)
    have s3 := down (mul_nonpos_of_nonneg_of_nonpos (weight_nonneg (dx d)) s2)
    exact down (add_nonpos hi s3)

omit hp in
/-- The bound 1 holds in floating point: the well does not push outwards there, and `2^-p` of relative error is not enough to jump over the room left. `c` is `dt*M`. -/
structure Pinned (d : Nat) (dx : Nat → Num p) (c r u k : Num p) : Prop where
  c0 : 0 ≤ c.val
  u0 : 0 ≤ u.val
  k0 : 0 ≤ k.val
  turn : r.val ≤ u.val
  small : c.val * (k.val * (2 * weights d dx) + 3 * u.val - r.val) ≤ 1
  fine : ((1 + eps p) ^ (d + 6) - 1) * (c.val * (|r.val| + u.val + k.val * (4 * weights d dx))) ≤ (2 - c.val * (k.val * (2 * weights d dx) + 3 * u.val - r.val)) * eps p

theorem node_le_one (hp2 : 2 ≤ p) {cube : Num p → Num p} (hcube : Cube cube) {d : Nat} {dx : Nat → Num p} {dt m r u k : Num p} (ht : Pinned d dx (dt * m) r u k) {phi : Num p} (F G : Nat → Num p) (hphi : |phi.val| ≤ 1)
    (hF : ∀ i, i < d → |(F i).val| ≤ 1) (hG : ∀ i, i < d → |(G i).val| ≤ 1) :
    (powRhs cube dt m r u k phi ((List.range d).foldl (fun a i => a + lapWeight (dx i) * (F i - (1 + 1) * phi + G i)) 0)).val ≤ 1 := by
  have hn := fold_near hp (fun i => lapWeight (dx i)) F G phi d
  have hone := fun h1 => lap_at_one hp dx F G (phi := phi) h1 (fun i hi => (abs_le.1 (hF i hi)).2) (fun i hi => (abs_le.1 (hG i hi)).2)
  set l := (List.range d).foldl (fun a i => a + lapWeight (dx i) * (F i - (1 + 1) * phi + G i)) 0
  obtain ⟨p1, p2⟩ := abs_le.1 hphi
  unfold powRhs
  rw [Num.sub_val]
  refine fl_le_one hp2 ?_
  show phi.val - _ ≤ 1 + eps p
  have hε := eps_pos p
  rcases p2.eq_or_lt with h1 | h1
  · -- at the bound
    have hl := hone h1
    have up : ∀ {x : ℝ}, 0 ≤ x → 0 ≤ fl p x := fun {x} hx => fl_nonneg hx
    have b1 : (-r * phi + u * cube phi).val = fl p (-r.val + u.val) := by
      have e1 : (cube phi).val = 1 := by
        have : phi = 1 := Num.ext (h1.trans (Num.one_val).symm)
        rw [this, hcube.one]
      rw [Num.add_val, Num.mul_val, Num.neg_exact hp, Num.mul_val, e1, h1, mul_one, mul_one, fl_rep hp u.rep, fl_neg, fl_rep hp r.rep]
    have b2 : 0 ≤ (dt * m * (-r * phi + u * cube phi - k * l)).val := by
      rw [Num.mul_val, Num.sub_val, b1]
      refine up (mul_nonneg ht.c0 (up ?_))
      have c1 := up (show 0 ≤ -r.val + u.val by linarith [ht.turn])
      have c2 : (k * l).val ≤ 0 := by
        rw [Num.mul_val]
        have := fl_mono hp (mul_nonpos_of_nonneg_of_nonpos ht.k0 hl)
        rwa [fl_zero] at this
      linarith
    linarith
  · -- below it
    have hlt : phi.val ≤ 1 - eps p := Rounded.rep_lt_one hp phi.rep h1
    have hq := (change_near hp hcube (hn.wider (lap_size dx F G hphi hF hG)) (dt := dt) (m := m) (r := r) (u := u) (k := k) (phi := phi)).1
    set y := ∑ i ∈ range d, (lapWeight (dx i)).val * ((F i).val - 2 * phi.val + (G i).val) with hy
    have hl := lap_range dx (phi := phi.val) F G (R := 1) (fun i hi => (abs_le.1 (hF i hi)).2) fun i hi => (abs_le.1 (hG i hi)).2
    have hs := confined_slack (c := (dt * m).val) (r := r.val) (u := u.val) (k := k.val) (w := 2 * weights d dx) (R := 1) (phi := phi.val) (l := y) ht.c0 ht.u0 ht.k0
      (by linarith [ht.turn]) p1 p2 hl
    have hm : |(dt * m).val| * (|r.val| * |phi.val| + |u.val| * |phi.val| ^ 3 + |k.val| * (4 * weights d dx * 1)) ≤ (dt * m).val * (|r.val| + u.val + k.val * (4 * weights d dx)) := by
      rw [abs_of_nonneg ht.c0, abs_of_nonneg ht.u0, abs_of_nonneg ht.k0]
      refine mul_le_mul_of_nonneg_left ?_ ht.c0
      have e1 := mul_le_mul_of_nonneg_left hphi (abs_nonneg r.val)
      have e2 := mul_le_mul_of_nonneg_left (pow_le_one₀ (n := 3) (abs_nonneg _) hphi) ht.u0
      linarith
    have hq2 := hq.trans (mul_le_mul_of_nonneg_left hm (Near.grow_pos p _))
    have hf := hq2.trans ht.fine
    have hsm := ht.small
    have h5 := (abs_le.1 hf).1
    have e1 : (1 : ℝ) ^ 2 = 1 := one_pow 2
    rw [e1, mul_one] at hs
    nlinarith

/-- One node: the new value is within `±1` again. -/
theorem node_pinned (hp2 : 2 ≤ p) {cube : Num p → Num p} (hcube : Cube cube) {d : Nat} {dx : Nat → Num p} {dt m r u k : Num p} (ht : Pinned d dx (dt * m) r u k) {phi : Num p} (F G : Nat → Num p) (hphi : |phi.val| ≤ 1)
    (hF : ∀ i, i < d → |(F i).val| ≤ 1) (hG : ∀ i, i < d → |(G i).val| ≤ 1) :
    |(powRhs cube dt m r u k phi ((List.range d).foldl (fun a i => a + lapWeight (dx i) * (F i - (1 + 1) * phi + G i)) 0)).val| ≤ 1 := by
  refine abs_le.2 ⟨?_, node_le_one hp hp2 hcube ht F G hphi hF hG⟩
  have hT := oddNumbers_num hp
  have neg : ∀ a : Num p, |(-a).val| = |a.val| := fun a => by rw [Num.neg_exact hp, abs_neg]
  have h := node_le_one hp hp2 hcube ht (phi := -phi) (fun i => -F i) (fun i => -G i) (by rwa [neg]) (fun i hi => by rw [neg]; exact hF i hi) (fun i hi => by rw [neg]; exact hG i hi)
  have key : ∀ (is : List Nat) (acc : Num p), is.foldl (fun a i => a + lapWeight (dx i) * (-F i - (1 + 1) * -phi + -G i)) (-acc) =
      -is.foldl (fun a i => a + lapWeight (dx i) * (F i - (1 + 1) * phi + G i)) acc := by
    intro is
    induction is with
    | nil => intro acc; rfl
    | cons i is ih =>
      intro acc
      simp only [List.foldl_cons]
      have step : -acc + lapWeight (dx i) * (-F i - (1 + 1) * -phi + -G i) = -(acc + lapWeight (dx i) * (F i - (1 + 1) * phi + G i)) := by
        rw [hT.mul, hT.sub, hT.add, hT.mul, hT.add]
      rw [step]
      exact ih _
  have e := key (List.range d) 0
  rw [hT.zero] at e
  have eo : powRhs cube dt m r u k (-phi) (-(List.range d).foldl (fun a i => a + lapWeight (dx i) * (F i - (1 + 1) * phi + G i)) 0) =
      -powRhs cube dt m r u k phi ((List.range d).foldl (fun a i => a + lapWeight (dx i) * (F i - (1 + 1) * phi + G i)) 0) := by
    unfold powRhs
    rw [hcube.odd, hT.mul, hT.mul, hT.add, hT.mul, hT.sub, hT.mul, hT.sub]
  rw [e, eo, Num.neg_exact hp] at h
  linarith

/-! ## Runs -/

omit hp in
/-- A bound that every node keeps is kept by every run. -/
theorem run_within {g : Shape} (hg : Room 1 g) {dx : Nat → Num p} {f : Num p → Num p → Num p} {R : ℝ}
    (hnode : ∀ (phi : Num p) (F G : Nat → Num p), |phi.val| ≤ R → (∀ i, i < g.dim → |(F i).val| ≤ R) → (∀ i, i < g.dim → |(G i).val| ≤ R) →
      |(f phi ((List.range g.dim).foldl (fun a i => a + lapWeight (dx i) * (F i - (1 + 1) * phi + G i)) 0)).val| ≤ R) (steps : Nat) {σ : Grids (Num p)}
    (h : Within g R (σ 0)) : ∃ σ', serialRun g (allenCahnUpdate g.dim dx f steps) σ = .ok σ' ∧ Within g R (σ' 0) := by
  induction steps with
  | zero => exact ⟨σ, rfl, h⟩
  | succ n ih =>
    obtain ⟨σ1, e1, h1⟩ := ih
    obtain ⟨σ2, e2, h2⟩ := allenCahn_one hg dx f σ1
    refine ⟨σ2, ?_, fun x hx => ?_⟩
    · have ea : allenCahnUpdate g.dim dx f (n + 1) = allenCahnUpdate g.dim dx f n ++ allenCahn g.dim dx f := by
        unfold allenCahnUpdate; rw [repeatProg_succ]; rfl
      rw [ea, serialRun_append, e1, Outcome.ok_bind]
      exact e2
    · rw [h2 x hx]
      have near : ∀ i t, -1 ≤ t → t ≤ 1 → g.IsNode (wrap g (bump x i t)) := fun i t h0 h1 =>
        near_reach hg.reach hx fun j _ => by unfold bump; by_cases e : j = i <;> simp [e]; omega
      have own : cellAt g (σ1 0) (wrap g x) = cellAt g (σ1 0) x := by
        unfold cellAt
        rw [rawOffset_congr fun j hj => ?_]
        have := hx j hj
        unfold wrap checkBoundary
        split_ifs <;> omega
      unfold lapF
      beta_reduce
      rw [own]
      exact hnode _ _ _ (h1 x hx) (fun i _ => h1 _ (near i 1 (by decide) (by decide))) (fun i _ => h1 _ (near i (-1) (by decide) (by decide)))

/-- **C111.** Allen-Cahn in floating point: from a field within `±R` every run ends, with a field within `±R`, after any number of steps. -/
theorem allenCahn_within {cube : Num p → Num p} (hcube : Cube cube) {g : Shape} (hg : Room 1 g) {dx : Nat → Num p} {dt m r u k : Num p} {R : ℝ} (ht : Turns g.dim dx (dt * m) r u k R) (steps : Nat) {σ : Grids (Num p)}
    (h : Within g R (σ 0)) : ∃ σ', serialRun g (allenCahnUpdate g.dim dx (powRhs cube dt m r u k) steps) σ = .ok σ' ∧ Within g R (σ' 0) := by
  exact run_within hg (fun _ F G h1 h2 h3 => node_within hp hcube ht F G h1 h2 h3) steps h

/-- **C111.** Allen-Cahn in floating point, values within `±1`: they stay there exactly, although the right-hand side is rounded. -/
theorem allenCahn_pinned (hp2 : 2 ≤ p) {cube : Num p → Num p} (hcube : Cube cube) {g : Shape} (hg : Room 1 g) {dx : Nat → Num p} {dt m r u k : Num p} (ht : Pinned g.dim dx (dt * m) r u k) (steps : Nat) {σ : Grids (Num p)}
    (h : Within g 1 (σ 0)) : ∃ σ', serialRun g (allenCahnUpdate g.dim dx (powRhs cube dt m r u k) steps) σ = .ok σ' ∧ Within g 1 (σ' 0) :=
  run_within hg (fun _ F G h1 h2 h3 => node_pinned hp hp2 hcube ht F G h1 h2 h3) steps h

omit hp in
theorem ranks_of_serial {w : World} {np : Nat} {c : Nat → Cell (Num p)} (hc : ∀ k, RoundTrips (c k)) (hv : ∀ k v, (c k).Valid v) (h : w.Ok np) (hgh : 1 ≤ w.ghosts)
    {dx : Nat → Num p} {f : Num p → Num p → Num p} {R : ℝ} (steps : Nat) {σ : Grids (Num p)} {D : Int → Grids (Num p)} (hF : SameField w np σ D 0)
    (hσ : ∃ σ', serialRun w.serial (allenCahnUpdate w.d dx f steps) σ = .ok σ' ∧ Within w.serial R (σ' 0)) :
    ∃ D', Finished np (mpiRun c w (allenCahnUpdate w.d dx f steps) fun r => .ok (D r)) D' ∧ ∀ r, Ghost.IsRank np r → Within (w.shape r) R (D' r 0) := by
  have hd : Disciplined w.d w.ghosts (fun _ (_ : Num p) => True) ⟨fun k => k = 0, fun _ => False⟩ (allenCahnUpdate w.d dx f steps) oldKnown :=
    .ghostswap rfl (((allenCahn_disciplined w.d hgh dx _).steps steps).mono ⟨fun _ => id, fun _ hk => Or.inr hk⟩)
  obtain ⟨σ', D', e1, e2, hA, _⟩ := parallel_eq_serial hc (fun k v _ => hv k v) h hd (σ := σ) (D := D) (S := fun r => .ok (D r)) (fun _ _ => rfl)
    ⟨fun k hk => hk ▸ hF, fun _ hk => hk.elim⟩ (fun _ => ⟨fun _ _ _ => trivial, fun _ _ _ _ _ => trivial⟩)
  obtain ⟨σ2, e3, hw⟩ := hσ
  have e : σ2 = σ' := Outcome.ok.inj (e3.symm.trans e1)
  subst e
  refine ⟨D', e2, fun r hr x hx => ?_⟩
  rw [hA.1 0 rfl r hr x hx]
  exact hw x (Ghost.isNode_global h.setup hr hx)

/-- **C111.** The same on any decomposition: the ranks end, and hold values within `±R` in all their nodes. -/
theorem ranks_within {cube : Num p → Num p} (hcube : Cube cube) {w : World} {np : Nat} {c : Nat → Cell (Num p)} (hc : ∀ k, RoundTrips (c k)) (hv : ∀ k v, (c k).Valid v) (h : w.Ok np) (hgh : 1 ≤ w.ghosts) (hg : Room 1 w.serial)
    {dx : Nat → Num p} {dt m r u k : Num p} {R : ℝ} (ht : Turns w.d dx (dt * m) r u k R) (steps : Nat) {σ : Grids (Num p)} {D : Int → Grids (Num p)} (hF : SameField w np σ D 0)
    (hσ : Within w.serial R (σ 0)) :
    ∃ D', Finished np (mpiRun c w (allenCahnUpdate w.d dx (powRhs cube dt m r u k) steps) fun r => .ok (D r)) D' ∧ ∀ r, Ghost.IsRank np r → Within (w.shape r) R (D' r 0) :=
  ranks_of_serial hc hv h hgh steps hF (allenCahn_within hp hcube hg ht steps hσ)

/-- **C111.** The bound 1 on any decomposition. -/
theorem ranks_pinned (hp2 : 2 ≤ p) {cube : Num p → Num p} (hcube : Cube cube) {w : World} {np : Nat} {c : Nat → Cell (Num p)} (hc : ∀ k, RoundTrips (c k)) (hv : ∀ k v, (c k).Valid v) (h : w.Ok np) (hgh : 1 ≤ w.ghosts)
    (hg : Room 1 w.serial) {dx : Nat → Num p} {dt m r u k : Num p} (ht : Pinned w.d dx (dt * m) r u k) (steps : Nat) {σ : Grids (Num p)} {D : Int → Grids (Num p)} (hF : SameField w np σ D 0)
    (hσ : Within w.serial 1 (σ 0)) :
    ∃ D', Finished np (mpiRun c w (allenCahnUpdate w.d dx (powRhs cube dt m r u k) steps) fun r => .ok (D r)) D' ∧ ∀ r, Ghost.IsRank np r → Within (w.shape r) 1 (D' r 0) :=
  ranks_of_serial hc hv h hgh steps hF (allenCahn_pinned hp hp2 hcube hg ht steps hσ)

end

/-! ## The example as shipped -/

/-- **C111.** The initial values `1.0-2.0*double(rand())/double(RAND_MAX)` of allen-cahn.cpp 19-39 lie within `±1`, rounding included. -/
theorem initial_within {p : Nat} (hp : 1 ≤ p) {a b : Num p} (h0 : 0 ≤ a.val) (h1 : a.val ≤ b.val) : |((1 : Num p) - (1 + 1) * a / b).val| ≤ 1 := by
  have hd := Num.two_mul_exact hp a
  have q0 : 0 ≤ ((1 + 1) * a / b).val := by
    rw [Num.div_val, hd]; exact fl_nonneg (div_nonneg (by linarith) (h0.trans h1))
  have q2 : ((1 + 1) * a / b).val ≤ 2 := by
    have r2 : Rep p (2 : ℝ) := by have := rep_scale (rep_one p) 1; simpa using this
    rw [Num.div_val, hd, ← fl_rep hp r2]
    refine fl_mono hp ?_
    rw [fl_rep hp r2]
    rcases (h0.trans h1).eq_or_lt with hb | hb
    · rw [← hb, div_zero]; norm_num
    · rw [div_le_iff₀ hb]; linarith
  rw [Num.sub_val, Num.one_val]
  refine abs_le.2 ⟨?_, ?_⟩
  · have := fl_mono hp (show (-1 : ℝ) ≤ 1 - ((1 + 1) * a / b).val by linarith)
    rwa [fl_neg, fl_one hp] at this
  · have := fl_mono hp (show 1 - ((1 + 1) * a / b).val ≤ (1 : ℝ) by linarith)
    rwa [fl_one hp] at this

/-- **C111.** The constants of allen-cahn.cpp 58-62 in `double`s, spacing 1, in one, two or three dimensions. -/
theorem shipped_pinned {d : Nat} (hd : d ≤ 3) : Pinned d (fun _ => (1 : Num 53)) (dtNum * 1) 1 1 1 := by
  have hw : weights d (fun _ => (1 : Num 53)) = d := by
    unfold weights
    simp [lapWeight_one (p := 53) (by norm_num), Num.one_val]
  have he : eps 53 = 1 / 9007199254740992 := by unfold eps; norm_num
  rw [mul_one_num (by norm_num)]
  refine ⟨by rw [dtNum_val]; norm_num, by rw [Num.one_val]; norm_num, by rw [Num.one_val]; norm_num, le_rfl, ?_, ?_⟩
  · rw [hw, dtNum_val, Num.one_val]
    interval_cases d <;> norm_num
  · rw [hw, he, dtNum_val, Num.one_val]
    interval_cases d <;> norm_num

/-- **C111.** The example in `double`s: started within `±1`, as `generate` does, the values never leave `±1`. -/
theorem shipped_within {cube : Num 53 → Num 53} (hcube : Cube cube) {g : Shape} (hg : Room 1 g) (hd : g.dim ≤ 3) (steps : Nat) {σ : Grids (Num 53)} (h : Within g 1 (σ 0)) :
    ∃ σ', serialRun g (allenCahnUpdate g.dim (fun _ => 1) (powRhs cube dtNum 1 1 1 1) steps) σ = .ok σ' ∧ Within g 1 (σ' 0) :=
  allenCahn_pinned (by norm_num) (by norm_num) hcube hg (shipped_pinned hd) steps h

/-- Started further outside, up to `±2`, they stay within `±2`. -/
theorem shipped_turns {d : Nat} (hd : d ≤ 3) : Turns d (fun _ => (1 : Num 53)) (dtNum * 1) 1 1 1 2 := by
  have hw : weights d (fun _ => (1 : Num 53)) = d := by
    unfold weights
    simp [lapWeight_one (p := 53) (by norm_num), Num.one_val]
  have he : eps 53 = 1 / 9007199254740992 := by unfold eps; norm_num
  rw [mul_one_num (by norm_num)]
  refine ⟨by rw [dtNum_val]; norm_num, by rw [Num.one_val]; norm_num, by rw [Num.one_val]; norm_num, ?_, ?_⟩
  · unfold slip
    rw [hw, he, dtNum_val, Num.one_val]
    interval_cases d <;> norm_num
  · rw [hw, dtNum_val, Num.one_val]
    interval_cases d <;> norm_num

/-- A million steps from the field -1, 1/2, 1 on three periodic nodes. -/
example : ∃ σ', serialRun (Conserve.line .periodic .periodic) (allenCahnUpdate 1 (fun _ => 1) (powRhs timesThree dtNum 1 1 1 1) 1000000) (fun _ n => if n = 0 then -1 else if n = 1 then half else 1) = .ok σ' ∧
    Within (Conserve.line .periodic .periodic) 1 (σ' 0) := by
  refine shipped_within (timesThree_cube (by norm_num)) (line_room .periodic (by decide)) (by decide) _ fun x _ => ?_
  show |(if _ = (0 : Int) then (-1 : Num 53) else if _ = (1 : Int) then half else 1).val| ≤ 1
  split_ifs
  · rw [Num.neg_exact (by norm_num), Num.one_val]; norm_num
  · rw [half_val]; norm_num
  · rw [Num.one_val]; norm_num

/-- Two ranks, one thousand steps, stale ghosts, values up to 2. -/
example : ∃ D', Finished 2 (mpiRun (fun _ => unaryCell (Num 53)) smallWorld (allenCahnUpdate 1 (fun _ => 1) (powRhs roundedCube dtNum 1 1 1 1) 1000)
      fun r => .ok fun k => if k = 0 then shared (fun x => if x = 0 then 1 else 0) (-1) r else fun _ => 0) D' ∧ ∀ r, Ghost.IsRank 2 r → Within (smallWorld.shape r) 2 (D' r 0) := by
  refine ranks_within (by norm_num) (roundedCube_cube (by norm_num)) (fun _ => unaryCell_roundTrips _) (fun _ _ => trivial) smallWorld_ok (by decide) ?_ (shipped_turns (by decide)) 1000
    (σ := fun k => if k = 0 then fun x => if x = 0 then 1 else 0 else fun _ => 0) (shared_same _ (-1) rfl fun _ => rfl) fun x _ => ?_
  · exact ⟨serial_wf smallWorld_ok, rfl, by decide, fun _ _ => ⟨by simp [smallWorld, World.serial, FileIO.serialShape], by simp [smallWorld, World.serial, FileIO.serialShape]⟩, fun _ _ => by simp [smallWorld, World.serial, FileIO.serialShape],
      fun _ _ h => by simp [smallWorld, World.serial, FileIO.serialShape] at h⟩
  · show |(if _ = (0 : Int) then (1 : Num 53) else 0).val| ≤ 2
    split_ifs
    · rw [Num.one_val]; norm_num
    · rw [Num.zero_val]; norm_num

end MMSP.RoundConfine
