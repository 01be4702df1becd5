import Verif.MultigridRun
import Mathlib.LinearAlgebra.FiniteDimensional.Basic
import Mathlib.LinearAlgebra.FiniteDimensional.Lemmas
import Mathlib.Algebra.Order.Archimedean.Basic
import Mathlib.Tactic.Positivity
/-!
# Property C91: the smoother converges, and what to

`smooth` of `examples/differential_equations/elliptic/Poisson/poisson.cpp` 13-99 (`Multigrid.smooth`). The specification is `Solves`, Poisson's equation on the nodes of a level.
-/

namespace MMSP.Multigrid

open Stencil (gridAt)

section
variable {α : Type} [Field α]

/-- Strides along axis `b`. -/
def cells (g : Shape) (s b : Nat) : α := ((g.x1 b - 1 : Int) : α) / s

/-- What one iteration takes off the error, at least: 4 divided by the squared number of strides along `b` and the sum of the squared ratios of the spacings. -/
def rate (g : Shape) (dx : Nat → α) (s b : Nat) : α := 4 / ((cells g s b : α) ^ 2 * ∑ a ∈ Finset.range g.dim, (dx b / dx a) ^ 2)

/-- Helper: strides from one end times strides from the other. -/
def hump (g : Shape) (s b : Nat) (x : Nat → Int) : α := (x b : α) / s * (cells g s b - (x b : α) / s)

theorem relax_diff (g : Shape) (dx : Nat → α) (s : Nat) (f u v : Int → α) (x : Nat → Int) : relax g dx s f u x - relax g dx s f v x =
    ∑ a ∈ Finset.range g.dim, weight g dx s / h2 dx s a * ((val g u (move x a (-s)) - val g v (move x a (-s))) + (val g u (move x a s) - val g v (move x a s))) := by
  unfold relax
  rw [add_sub_add_left_eq_sub, ← Finset.sum_sub_distrib]
  apply Finset.sum_congr rfl
  intro a _
  ring

theorem hump_sum {g : Shape} {dx : Nat → α} {s : Nat} (hs : (s : α) ≠ 0) (hd : Spaced g dx s) {b : Nat} (hb : b < g.dim) (x : Nat → Int) :
    ∑ a ∈ Finset.range g.dim, weight g dx s / h2 dx s a * (hump g s b (move x a (-s)) + hump g s b (move x a s)) = hump g s b x - 2 * (weight g dx s / h2 dx s b) := by
  have e1 : ∀ a ∈ Finset.range g.dim, weight g dx s / h2 dx s a * (hump g s b (move x a (-s)) + hump g s b (move x a s)) =
      weight g dx s * (2 / h2 dx s a) * hump g s b x - if a = b then 2 * (weight g dx s / h2 dx s b) else 0 := by
    intro a _
    by_cases e : a = b
    · subst e
      rw [if_pos rfl]
      unfold hump move
      rw [Function.update_self, Function.update_self]
      have e2 : (((x a + -(s : Int) : Int)) : α) / s = (x a : α) / s - 1 := by push_cast; field_simp; ring
      have e3 : (((x a + (s : Int) : Int)) : α) / s = (x a : α) / s + 1 := by push_cast; field_simp
      rw [e2, e3]
      ring
    · rw [if_neg e]
      unfold hump move
      rw [Function.update_of_ne (Ne.symm e), Function.update_of_ne (Ne.symm e)]
      ring
  rw [Finset.sum_congr rfl e1, Finset.sum_sub_distrib, ← Finset.sum_mul, ← Finset.mul_sum, Finset.sum_ite_eq' (Finset.range g.dim) b, if_pos (Finset.mem_range.2 hb)]
  congr 1
  unfold weight
  rw [one_div, inv_mul_cancel₀ hd.2, one_mul]

omit [Field α] in
/-- A loop that visits every place once: what holds of an assigned value holds at the end. -/
theorem loop_each {off : (Nat → Int) → Int} {e : (Int → α) → (Nat → Int) → α} {L : List (Nat → Int)} (hn : (L.map off).Nodup) (P : (Int → α) → Prop) (Q : (Nat → Int) → α → Prop)
    (hQ : ∀ u, ∀ x ∈ L, P u → Q x (e u x)) (hP : ∀ u, ∀ x ∈ L, P u → P (Function.update u (off x) (e u x))) {u : Int → α} (hu : P u) :
    ∀ x ∈ L, Q x (L.foldl (fun u x => Function.update u (off x) (e u x)) u (off x)) := by
  induction L generalizing u with
  | nil => intro x hx; cases hx
  | cons y L ih =>
    rw [List.map_cons, List.nodup_cons] at hn
    intro x hx
    rw [List.foldl_cons]
    rcases List.mem_cons.1 hx with rfl | hx
    · rw [loop_other fun z hz e => hn.1 (List.mem_map.2 ⟨z, hz, e⟩), Function.update_self]
      exact hQ u x (by simp) hu
    · exact ih hn.2 (fun u z hz => hQ u z (by simp [hz])) (fun u z hz => hP u z (by simp [hz])) (hP u y (by simp) hu) x hx

end

section
variable {α : Type} [Field α] [LinearOrder α] [IsStrictOrderedRing α]

theorem h2_pos {dx : Nat → α} {s a : Nat} (hs : 0 < s) (h : dx a ≠ 0) : 0 < h2 dx s a := by
  unfold h2
  have : (s : α) * dx a ≠ 0 := mul_ne_zero (by exact_mod_cast (show s ≠ 0 by omega)) h
  exact mul_self_pos.2 this

theorem weight_pos {g : Shape} (hg : 0 < g.dim) {dx : Nat → α} (hdx : ∀ a, a < g.dim → dx a ≠ 0) {s : Nat} (hs : 0 < s) : 0 < weight g dx s := by
  unfold weight
  exact one_div_pos.2 (Finset.sum_pos (fun a h => div_pos two_pos (h2_pos hs (hdx a (Finset.mem_range.1 h)))) ⟨0, Finset.mem_range.2 hg⟩)

theorem ratios_ge {g : Shape} {dx : Nat → α} (hdx : ∀ a, a < g.dim → dx a ≠ 0) {b : Nat} (hb : b < g.dim) : 1 ≤ ∑ a ∈ Finset.range g.dim, (dx b / dx a) ^ 2 := by
  have h1 := Finset.single_le_sum (f := fun a => (dx b / dx a) ^ 2) (fun a _ => sq_nonneg _) (Finset.mem_range.2 hb)
  simp only [div_self (hdx b hb), one_pow] at h1
  exact h1

theorem cells_ge {g : Shape} {s : Nat} (hs : 0 < s) {b : Nat} (hN : 2 * (s : Int) ≤ g.x1 b - 1) : (2 : α) ≤ cells g s b := by
  unfold cells
  have hs' : (0 : α) < s := by exact_mod_cast hs
  rw [le_div_iff₀ hs']
  exact_mod_cast hN

theorem rate_eq {g : Shape} {dx : Nat → α} (hdx : ∀ a, a < g.dim → dx a ≠ 0) {s : Nat} (hs : 0 < s) {b : Nat} (hb : b < g.dim) (hN : 2 * (s : Int) ≤ g.x1 b - 1) :
    rate g dx s b * (cells g s b ^ 2 / 4) = 2 * (weight g dx s / h2 dx s b) := by
  have hs' : (s : α) ≠ 0 := by exact_mod_cast (show s ≠ 0 by omega)
  have hc : (cells g s b : α) ≠ 0 := by have := cells_ge (α := α) hs hN; intro h; rw [h] at this; linarith
  have hb2 := (h2_pos hs (hdx b hb)).ne'
  have e1 : ∑ a ∈ Finset.range g.dim, 2 / h2 dx s a = 2 / h2 dx s b * ∑ a ∈ Finset.range g.dim, (dx b / dx a) ^ 2 := by
    rw [Finset.mul_sum]
    apply Finset.sum_congr rfl
    intro a ha
    have := hdx a (Finset.mem_range.1 ha)
    have := hdx b hb
    unfold h2
    field_simp
  have hS : (∑ a ∈ Finset.range g.dim, (dx b / dx a) ^ 2) ≠ 0 := by have := ratios_ge hdx hb; intro h; rw [h] at this; linarith
  unfold rate weight
  rw [e1]
  field_simp

theorem rate_pos {g : Shape} {dx : Nat → α} (hdx : ∀ a, a < g.dim → dx a ≠ 0) {s : Nat} (hs : 0 < s) {b : Nat} (hb : b < g.dim) (hN : 2 * (s : Int) ≤ g.x1 b - 1) :
    0 < rate g dx s b ∧ rate g dx s b ≤ 1 := by
  have h1 := cells_ge (α := α) hs hN
  have h2 := ratios_ge hdx hb
  have h3 : 4 ≤ (cells g s b : α) ^ 2 := by nlinarith
  unfold rate
  constructor
  · positivity
  · rw [div_le_one (by positivity)]
    nlinarith

theorem hump_le {g : Shape} {s b : Nat} (x : Nat → Int) : (hump g s b x : α) ≤ cells g s b ^ 2 / 4 := by
  unfold hump
  nlinarith [sq_nonneg ((cells g s b : α) - 2 * ((x b : α) / s))]

theorem hump_nonneg {g : Shape} {s : Nat} (hs : 0 < s) {b : Nat} {x : Nat → Int} (h0 : 0 ≤ x b) (h1 : x b ≤ g.x1 b - 1) : 0 ≤ (hump g s b x : α) := by
  have hs' : (0 : α) < s := by exact_mod_cast hs
  unfold hump cells
  rw [← sub_div]
  apply mul_nonneg
  · exact div_nonneg (by exact_mod_cast h0) hs'.le
  · exact div_nonneg (by rw [sub_nonneg]; exact_mod_cast h1) hs'.le

theorem one_le_hump {g : Shape} {s : Nat} (ha : Aligned g s) {b : Nat} (hb : b < g.dim) {x : Nat → Int} (hx : Inner g s x) : 1 ≤ (hump g s b x : α) := by
  have hs' : (0 : α) < s := by exact_mod_cast ha.pos
  have h := hx b hb
  have h1 := Int.le_of_dvd h.1 h.2.2
  have h2 := dvd_le (ha.dvd b hb) h.2.2 h.2.1
  unfold hump cells
  rw [← sub_div]
  have e1 : 1 ≤ (x b : α) / s := by rw [le_div_iff₀ hs', one_mul]; exact_mod_cast h1
  have e2 : 1 ≤ (((g.x1 b - 1 : Int) : α) - (x b : α)) / s := by
    rw [le_div_iff₀ hs', one_mul, le_sub_iff_add_le]
    have : (s : Int) + x b ≤ g.x1 b - 1 := by omega
    exact_mod_cast this
  nlinarith

theorem inner_long {g : Shape} {s : Nat} (ha : Aligned g s) {b : Nat} (hb : b < g.dim) {x : Nat → Int} (hx : Inner g s x) : 2 * (s : Int) ≤ g.x1 b - 1 := by
  have h := hx b hb
  have h1 := Int.le_of_dvd h.1 h.2.2
  have h2 := dvd_le (ha.dvd b hb) h.2.2 h.2.1
  omega

theorem move_node {g : Shape} {s : Nat} (ha : Aligned g s) {x : Nat → Int} (hx : Inner g s x) (a : Nat) {k : Int} (hk : k = s ∨ k = -s) : Node g s (move x a k) := by
  intro j hj
  have h := move_isNode ha hx a hk j hj
  rw [ha.x0 j hj] at h
  refine ⟨by omega, by omega, ?_⟩
  unfold move
  by_cases e : j = a
  · subst e
    rw [Function.update_self]
    exact Int.dvd_add (hx j hj).2.2 (by rcases hk with rfl | rfl <;> simp)
  · rw [Function.update_of_ne e]; exact (hx j hj).2.2

/-- One assignment of the smoother. -/
theorem relax_contracts {g : Shape} {s : Nat} (ha : Aligned g s) {dx : Nat → α} (hdx : ∀ a, a < g.dim → dx a ≠ 0) {f sol : Int → α} (hsol : Solves g dx s f sol) {b : Nat} (hb : b < g.dim)
    {M : α} (hM : 0 ≤ M) {u : Int → α} (hu : ∀ y, Node g s y → |val g u y - val g sol y| ≤ M * hump g s b y) {x : Nat → Int} (hx : Inner g s x) :
    |relax g dx s f u x - val g sol x| ≤ M * (1 - rate g dx s b) * hump g s b x := by
  have hs := ha.pos
  have hs' : (s : α) ≠ 0 := by exact_mod_cast (show s ≠ 0 by omega)
  have hd := spaced_of_pos ha.wf.dim_pos hdx hs
  have hN := inner_long ha hb hx
  have hw := weight_pos ha.wf.dim_pos hdx hs
  rw [← (relax_fixed hd f sol x).2 (hsol x hx), relax_diff]
  have e1 : ∀ a ∈ Finset.range g.dim, |weight g dx s / h2 dx s a * ((val g u (move x a (-s)) - val g sol (move x a (-s))) + (val g u (move x a s) - val g sol (move x a s)))| ≤
      M * (weight g dx s / h2 dx s a * (hump g s b (move x a (-s)) + hump g s b (move x a s))) := by
    intro a hag
    have hp := div_pos hw (h2_pos hs (hdx a (Finset.mem_range.1 hag)))
    rw [abs_mul, abs_of_pos hp]
    have b1 := hu _ (move_node ha hx a (Or.inr rfl))
    have b2 := hu _ (move_node ha hx a (Or.inl rfl))
    calc _ ≤ weight g dx s / h2 dx s a * (M * hump g s b (move x a (-s)) + M * hump g s b (move x a s)) :=
          mul_le_mul_of_nonneg_left ((abs_add_le _ _).trans (add_le_add b1 b2)) hp.le
      _ = _ := by ring
  refine (Finset.abs_sum_le_sum_abs _ _).trans ((Finset.sum_le_sum e1).trans ?_)
  rw [← Finset.mul_sum, hump_sum hs' hd hb, ← rate_eq hdx hs hb hN, mul_assoc]
  apply mul_le_mul_of_nonneg_left _ hM
  have h1 := mul_le_mul_of_nonneg_left (hump_le (α := α) (g := g) (s := s) (b := b) x) (rate_pos hdx hs hb hN).1.le
  linarith

/-- One iteration. -/
theorem sweep_contracts {g : Shape} {s : Nat} (ha : Aligned g s) {dx : Nat → α} (hdx : ∀ a, a < g.dim → dx a ≠ 0) {f sol : Int → α} (hsol : Solves g dx s f sol) {b : Nat} (hb : b < g.dim)
    {M : α} (hM : 0 ≤ M) {u : Int → α} (hu : ∀ y, Node g s y → |val g u y - val g sol y| ≤ M * hump g s b y)
    {x : Nat → Int} (hx : Inner g s x) : |val g (swept g dx s f u) x - val g sol x| ≤ M * (1 - rate g dx s b) * hump g s b x := by
  have hN := inner_long ha hb hx
  have hr := rate_pos hdx ha.pos hb hN
  have key := loop_each (nodup_order (s := s) ha) (e := relax g dx s f) (fun u => ∀ y, Node g s y → |val g u y - val g sol y| ≤ M * hump g s b y)
    (fun y v => |v - val g sol y| ≤ M * (1 - rate g dx s b) * hump g s b y)
    (fun u y hy hu => relax_contracts ha hdx hsol hb hM hu ((mem_inner ha.pos).1 ((mem_order ha).1 hy)).1)
    (by
      intro u y hy hu z hz
      have hy' := ((mem_inner ha.pos).1 ((mem_order ha).1 hy)).1
      by_cases e : g.rawOffset z = g.rawOffset y
      · have same := raw_inj ha.ghosts (node_isNode ha hz) (inner_isNode ha hy') e
        have h1 : val g (Function.update u (g.rawOffset y) (relax g dx s f u y)) z = relax g dx s f u y := by unfold val; rw [e, Function.update_self]
        have h2 : val g sol z = val g sol y := by unfold val; rw [e]
        have h3 : (hump g s b z : α) = hump g s b y := by unfold hump; rw [same b hb]
        rw [h1, h2, h3]
        refine (relax_contracts ha hdx hsol hb hM hu hy').trans ?_
        have hh := hump_nonneg (α := α) ha.pos (hy' b hb).1.le (hy' b hb).2.1.le
        have := mul_nonneg (mul_nonneg hM hh) hr.1.le
        nlinarith
      · have h1 : val g (Function.update u (g.rawOffset y) (relax g dx s f u y)) z = val g u z := by unfold val; rw [Function.update_of_ne e]
        rw [h1]; exact hu z hz) hu
  obtain ⟨y, hyx, hy0⟩ := exists_rep g x
  have hy : y ∈ order g s := (mem_order ha).2 ((mem_inner ha.pos).2 ⟨fun j hj => by rw [hyx j hj]; exact hx j hj, hy0⟩)
  have h1 := key y hy
  have h3 : (hump g s b y : α) = hump g s b x := by unfold hump; rw [hyx b hb]
  rw [h3, val_congr hyx sol] at h1
  have h4 : val g (swept g dx s f u) x = swept g dx s f u (g.rawOffset y) := by rw [← val_congr hyx]; rfl
  rw [h4]
  exact h1

omit [LinearOrder α] [IsStrictOrderedRing α] in
theorem swept_boundary {g : Shape} {s : Nat} (ha : Aligned g s) (dx : Nat → α) (f : Int → α) (n : Nat) (u : Int → α) {x : Nat → Int} (hx : Node g s x) (hb : Boundary g x) :
    val g ((swept g dx s f)^[n] u) x = val g u x := by
  induction n generalizing u with
  | zero => rfl
  | succ n ih => rw [Function.iterate_succ_apply, ih, swept_other ha dx f u (node_isNode ha hx) fun h => not_boundary_of_inner h hb]

theorem iterate_contracts {g : Shape} {s : Nat} (ha : Aligned g s) {dx : Nat → α} (hdx : ∀ a, a < g.dim → dx a ≠ 0) {f sol : Int → α} (hsol : Solves g dx s f sol) {b : Nat} (hb : b < g.dim)
    (hN : 2 * (s : Int) ≤ g.x1 b - 1) {M : α} (hM : 0 ≤ M) {u : Int → α} (hbd : ∀ y, Node g s y → Boundary g y → val g u y = val g sol y)
    (hu : ∀ y, Node g s y → |val g u y - val g sol y| ≤ M * hump g s b y) (n : Nat) :
    ∀ y, Node g s y → |val g ((swept g dx s f)^[n] u) y - val g sol y| ≤ M * (1 - rate g dx s b) ^ n * hump g s b y := by
  have hr := rate_pos hdx ha.pos hb hN
  induction n generalizing M u with
  | zero => intro y hy; rw [pow_zero, mul_one]; exact hu y hy
  | succ n ih =>
    intro y hy
    rw [Function.iterate_succ_apply, pow_succ', ← mul_assoc]
    refine ih (M := M * (1 - rate g dx s b)) (mul_nonneg hM (by linarith [hr.2])) ?_ ?_ y hy
    · intro z hz hzb
      rw [← hbd z hz hzb]
      exact swept_boundary ha dx f 1 u hz hzb
    · intro z hz
      by_cases hzb : Boundary g z
      · have e := swept_boundary ha dx f 1 u hz hzb
        rw [Function.iterate_one] at e
        rw [e, hbd z hz hzb, sub_self, abs_zero]
        exact mul_nonneg (mul_nonneg hM (by linarith [hr.2])) (hump_nonneg ha.pos (hz b hb).1 (hz b hb).2.1)
      · exact sweep_contracts ha hdx hsol hb hM hu (inner_of_node hz hzb)

/-- **C91.** Started from the boundary values of a solution and within `M` of it, `smooth` with `n` iterations is within `M·N²/4·(1-rate)ⁿ` of it, `N` the number of strides along an axis. -/
theorem smooth_converges {g : Shape} {s : Nat} (ha : Aligned g s) {dx : Nat → α} (hdx : ∀ a, a < g.dim → dx a ≠ 0) {f sol : Int → α} (hsol : Solves g dx s f sol) {b : Nat} (hb : b < g.dim)
    {M : α} {u : Int → α} (hbd : ∀ y, Node g s y → Boundary g y → val g u y = val g sol y) (hu : ∀ y, Inner g s y → |val g u y - val g sol y| ≤ M) (n : Nat) :
    ∃ u', smooth g dx s f n u = .ok u' ∧ ∀ x, Inner g s x → |val g u' x - val g sol x| ≤ M * (cells g s b ^ 2 / 4) * (1 - rate g dx s b) ^ n := by
  refine ⟨_, smooth_ok ha dx f n u, fun x hx => ?_⟩
  have hN := inner_long ha hb hx
  have hr := rate_pos hdx ha.pos hb hN
  have hM : 0 ≤ M := (abs_nonneg _).trans (hu x hx)
  have h1 := iterate_contracts ha hdx hsol hb hN hM hbd (u := u) (fun y hy => by
    by_cases hyb : Boundary g y
    · rw [hbd y hy hyb, sub_self, abs_zero]
      exact mul_nonneg hM (hump_nonneg ha.pos (hy b hb).1 (hy b hb).2.1)
    · have hi := inner_of_node hy hyb
      exact (hu y hi).trans (le_mul_of_one_le_right hM (one_le_hump ha hb hi))) n x (fun j hj => ⟨(hx j hj).1.le, (hx j hj).2.1.le, (hx j hj).2.2⟩)
  refine h1.trans ?_
  have h2 : 0 ≤ M * (1 - rate g dx s b) ^ n := mul_nonneg hM (pow_nonneg (by linarith [hr.2]) n)
  have h3 := mul_le_mul_of_nonneg_left (hump_le (α := α) (g := g) (s := s) (b := b) x) h2
  linarith

omit [LinearOrder α] [IsStrictOrderedRing α] in
/-- **C91.** The rate for equal spacings: 4 divided by the number of axes and the square of the number of strides. -/
theorem rate_equal {g : Shape} {dx : Nat → α} {h : α} (hh : h ≠ 0) (hdx : ∀ a, a < g.dim → dx a = h) {s b : Nat} (hb : b < g.dim) : rate g dx s b = 4 / (g.dim * cells g s b ^ 2) := by
  unfold rate
  rw [Finset.sum_congr rfl fun a ha => by rw [hdx a (Finset.mem_range.1 ha), hdx b hb, div_self hh, one_pow], Finset.sum_const, Finset.card_range, nsmul_eq_mul, mul_one, mul_comm]

/-- **C91.** On the coarsest level (`2*s+1` nodes along some axis) with equal spacings the 40 iterations leave at most `(1-1/dim)⁴⁰` of the error; in one dimension none. -/
theorem coarsest_error {g : Shape} {s : Nat} (ha : Aligned g s) (hc : coarsest g s = true) {dx : Nat → α} {h : α} (hh : h ≠ 0) (hdx : ∀ a, a < g.dim → dx a = h) {f sol : Int → α}
    (hsol : Solves g dx s f sol) {M : α} {u : Int → α} (hbd : ∀ y, Node g s y → Boundary g y → val g u y = val g sol y) (hu : ∀ y, Inner g s y → |val g u y - val g sol y| ≤ M) :
    ∃ u', smooth g dx s f 40 u = .ok u' ∧ ∀ x, Inner g s x → |val g u' x - val g sol x| ≤ M * (1 - 1 / g.dim) ^ 40 := by
  obtain ⟨b, hb, e⟩ := List.any_eq_true.1 hc
  have hb := List.mem_range.1 hb
  rw [decide_eq_true_iff] at e
  have hs' : (s : α) ≠ 0 := by have := ha.pos; exact_mod_cast (show s ≠ 0 by omega)
  have hcells : (cells g s b : α) = 2 := by
    unfold cells
    rw [← e, add_sub_cancel_right]
    push_cast
    field_simp
  obtain ⟨u', h1, h2⟩ := smooth_converges ha (fun a hag => by rw [hdx a hag]; exact hh) hsol hb hbd hu 40
  refine ⟨u', h1, fun x hx => (h2 x hx).trans (le_of_eq ?_)⟩
  rw [rate_equal hh hdx hb, hcells]
  have hd : (g.dim : α) ≠ 0 := by have := ha.wf.dim_pos; exact_mod_cast (show g.dim ≠ 0 by omega)
  have : (4 : α) / (g.dim * 2 ^ 2) = 1 / g.dim := by field_simp; norm_num
  rw [this]
  norm_num

/-- Solutions are determined by their boundary values. -/
theorem solution_unique {g : Shape} {s : Nat} (ha : Aligned g s) {dx : Nat → α} (hdx : ∀ a, a < g.dim → dx a ≠ 0) {f u v : Int → α} (hu : Solves g dx s f u) (hv : Solves g dx s f v)
    (hbd : ∀ y, Node g s y → Boundary g y → val g u y = val g v y) {x : Nat → Int} (hx : Inner g s x) : val g u x = val g v x := by
  classical
  have hb := ha.wf.dim_pos
  have hN := inner_long ha hb hx
  have hr := rate_pos hdx ha.pos hb hN
  obtain ⟨y0, hy0, hy0z⟩ := exists_rep g x
  have hmem : y0 ∈ (inner g s).toFinset := List.mem_toFinset.2 ((mem_inner ha.pos).2 ⟨fun j hj => by rw [hy0 j hj]; exact hx j hj, hy0z⟩)
  obtain ⟨m, hm, hmax⟩ := Finset.exists_max_image (inner g s).toFinset (fun y => |val g u y - val g v y| / hump g s 0 y) ⟨y0, hmem⟩
  have hm' := ((mem_inner ha.pos).1 (List.mem_toFinset.1 hm)).1
  have hpos : ∀ y, Inner g s y → 0 < (hump g s 0 y : α) := fun y hy => lt_of_lt_of_le one_pos (one_le_hump ha hb hy)
  have hM : 0 ≤ |val g u m - val g v m| / hump g s 0 m := div_nonneg (abs_nonneg _) (hpos m hm').le
  have hall : ∀ y, Inner g s y → |val g u y - val g v y| ≤ |val g u m - val g v m| / hump g s 0 m * hump g s 0 y := by
    intro y hy
    obtain ⟨z, hz, hzz⟩ := exists_rep g y
    have h1 := hmax z (List.mem_toFinset.2 ((mem_inner ha.pos).2 ⟨fun j hj => by rw [hz j hj]; exact hy j hj, hzz⟩))
    have h3 : (hump g s 0 z : α) = hump g s 0 y := by unfold hump; rw [hz 0 hb]
    simp only [val_congr hz u, val_congr hz v, h3] at h1
    rwa [div_le_iff₀ (hpos y hy)] at h1
  have h1 := sweep_contracts ha hdx hv hb hM (fun y hy => by
    by_cases hyb : Boundary g y
    · rw [hbd y hy hyb, sub_self, abs_zero]
      exact mul_nonneg hM (hump_nonneg ha.pos (hy 0 hb).1 (hy 0 hb).2.1)
    · exact hall y (inner_of_node hy hyb)) hm'
  rw [swept_fixed ha (spaced_of_pos hb hdx ha.pos) hu, mul_right_comm, div_mul_cancel₀ _ (hpos m hm').ne'] at h1
  have h0 : |val g u m - val g v m| = 0 := by
    have := abs_nonneg (val g u m - val g v m)
    nlinarith [hr.1]
  have h2 := hall x hx
  rw [h0, zero_div, zero_mul] at h2
  exact sub_eq_zero.1 (abs_nonpos_iff.1 h2)

/-- **C91.** For every right-hand side and all boundary values the equation of a level has one solution. -/
theorem solvable {g : Shape} {s : Nat} (ha : Aligned g s) {dx : Nat → α} (hdx : ∀ a, a < g.dim → dx a ≠ 0) (f u : Int → α) :
    ∃ sol, Solves g dx s f sol ∧ (∀ x, g.IsNode x → ¬ Inner g s x → val g sol x = val g u x) ∧
      ∀ sol', Solves g dx s f sol' → (∀ y, Node g s y → Boundary g y → val g sol' y = val g u y) → ∀ x, Inner g s x → val g sol' x = val g sol x := by
  classical
  let S : Finset Int := ((inner g s).map g.rawOffset).toFinset
  let ext : (S → α) → Int → α := fun e p => if h : p ∈ S then e ⟨p, h⟩ else 0
  have ext_add : ∀ e e' : S → α, ext (e + e') = fun p => ext e p + ext e' p := fun e e' => by
    funext p; simp only [ext]; split_ifs <;> simp
  have ext_smul : ∀ (c : α) (e : S → α), ext (c • e) = fun p => c * ext e p := fun c e => by
    funext p; simp only [ext]; split_ifs <;> simp
  have inS : ∀ x, Inner g s x → g.rawOffset x ∈ S := fun x hx => by
    obtain ⟨y, hy, hyz⟩ := exists_rep g x
    refine List.mem_toFinset.2 (List.mem_map.2 ⟨y, (mem_inner ha.pos).2 ⟨fun j hj => by rw [hy j hj]; exact hx j hj, hyz⟩, rawOffset_congr hy⟩)
  have notS : ∀ x, g.IsNode x → ¬ Inner g s x → g.rawOffset x ∉ S := fun x hx hn h => by
    obtain ⟨y, hy, e⟩ := List.mem_map.1 (List.mem_toFinset.1 h)
    have hy' := ((mem_inner ha.pos).1 hy).1
    have := raw_inj ha.ghosts (inner_isNode ha hy') hx e
    exact hn fun j hj => by rw [← this j hj]; exact hy' j hj
  have hnode : ∀ q : S, ∃ x, Inner g s x ∧ g.rawOffset x = q.1 := fun q => by
    obtain ⟨y, hy, e⟩ := List.mem_map.1 (List.mem_toFinset.1 q.2)
    exact ⟨y, ((mem_inner ha.pos).1 hy).1, e⟩
  choose node node_inner node_off using hnode
  have lap_add : ∀ (v w : Int → α) x, lap g dx s (fun p => v p + w p) x = lap g dx s v x + lap g dx s w x := fun v w x => by
    unfold lap val; rw [← Finset.sum_add_distrib]; exact Finset.sum_congr rfl fun a _ => by ring
  have lap_mul : ∀ (c : α) (v : Int → α) x, lap g dx s (fun p => c * v p) x = c * lap g dx s v x := fun c v x => by
    unfold lap val; rw [Finset.mul_sum]; exact Finset.sum_congr rfl fun a _ => by ring
  let A : (S → α) →ₗ[α] (S → α) :=
    { toFun := fun e q => lap g dx s (ext e) (node q)
      map_add' := fun e e' => by funext q; simp only [ext_add, lap_add]; rfl
      map_smul' := fun c e => by funext q; simp only [ext_smul, lap_mul]; rfl }
  have same : ∀ x (hx : Inner g s x), g.SamePoint (node ⟨g.rawOffset x, inS x hx⟩) x := fun x hx =>
    raw_inj ha.ghosts (inner_isNode ha (node_inner _)) (inner_isNode ha hx) (node_off _)
  have inj : Function.Injective A := by
    rw [injective_iff_map_eq_zero]
    intro e he
    have hz : Solves g dx s (fun _ => 0) (ext e) := fun x hx => by
      rw [← lap_congr (same x hx)]
      exact congrFun he ⟨g.rawOffset x, inS x hx⟩
    have hz' : Solves g dx s (fun _ => (0 : α)) fun _ => 0 := fun x _ => by unfold lap val; simp
    funext q
    have h1 := solution_unique ha hdx hz hz' (fun y hy hyb => by
      show ext e (g.rawOffset y) = 0
      exact dif_neg (notS y (node_isNode ha hy) fun h => not_boundary_of_inner h hyb)) (node_inner q)
    have h2 : val g (ext e) (node q) = e q := by
      show ext e (g.rawOffset (node q)) = e q
      rw [node_off q]
      exact dif_pos q.2
    rw [h2] at h1
    exact h1
  obtain ⟨e, he⟩ := LinearMap.injective_iff_surjective.1 inj fun q => val g f (node q) - lap g dx s u (node q)
  have hsol : Solves g dx s f fun p => u p + ext e p := fun x hx => by
    have h1 : lap g dx s (ext e) (node ⟨g.rawOffset x, inS x hx⟩) = _ := congrFun he ⟨g.rawOffset x, inS x hx⟩
    rw [lap_add, ← lap_congr (same x hx) dx s u, ← lap_congr (same x hx) dx s (ext e), h1, add_sub_cancel, val_congr (same x hx)]
  have hother : ∀ x, g.IsNode x → ¬ Inner g s x → val g (fun p => u p + ext e p) x = val g u x := fun x hx hn => by
    show u (g.rawOffset x) + ext e (g.rawOffset x) = u (g.rawOffset x)
    have : ext e (g.rawOffset x) = 0 := dif_neg (notS x hx hn)
    rw [this, add_zero]
  refine ⟨_, hsol, hother, fun sol' hs' hb' x hx => solution_unique ha hdx hs' hsol (fun y hy hyb => ?_) hx⟩
  rw [hb' y hy hyb, hother y (node_isNode ha hy) fun h => not_boundary_of_inner h hyb]

/-- **C91.** Whatever it is started from, the smoother converges: to the solution with the boundary values it was given. -/
theorem smooth_limit [Archimedean α] {g : Shape} {s : Nat} (ha : Aligned g s) {dx : Nat → α} (hdx : ∀ a, a < g.dim → dx a ≠ 0) (f u : Int → α) :
    ∃ sol, Solves g dx s f sol ∧ (∀ y, Node g s y → Boundary g y → val g sol y = val g u y) ∧
      ∀ ε, 0 < ε → ∃ n0, ∀ n, n0 ≤ n → ∃ u', smooth g dx s f n u = .ok u' ∧ ∀ x, Node g s x → |val g u' x - val g sol x| < ε := by
  classical
  obtain ⟨sol, hsol, hoth, -⟩ := solvable ha hdx f u
  have hbd : ∀ y, Node g s y → Boundary g y → val g sol y = val g u y := fun y hy hyb => hoth y (node_isNode ha hy) fun h => not_boundary_of_inner h hyb
  refine ⟨sol, hsol, hbd, fun ε hε => ?_⟩
  have hb := ha.wf.dim_pos
  -- a bound of the error at the start
  obtain ⟨M, hM0, hM⟩ : ∃ M : α, 0 < M ∧ ∀ y, Inner g s y → |val g u y - val g sol y| ≤ M := by
    refine ⟨∑ y ∈ (inner g s).toFinset, |val g u y - val g sol y| + 1, by positivity, fun y hy => ?_⟩
    obtain ⟨z, hz, hzz⟩ := exists_rep g y
    have h1 := Finset.single_le_sum (f := fun y => |val g u y - val g sol y|) (fun _ _ => abs_nonneg _)
      (List.mem_toFinset.2 ((mem_inner ha.pos).2 ⟨fun j hj => by rw [hz j hj]; exact hy j hj, hzz⟩))
    simp only [val_congr hz u, val_congr hz sol] at h1
    linarith
  by_cases hin : ∃ x, Inner g s x
  · obtain ⟨x0, hx0⟩ := hin
    have hN := inner_long ha hb hx0
    have hr := rate_pos hdx ha.pos hb hN
    have hC : 0 < M * (cells g s 0 ^ 2 / 4) := by have := cells_ge (α := α) ha.pos hN; positivity
    obtain ⟨n0, hn0⟩ := exists_pow_lt_of_lt_one (div_pos hε hC) (show 1 - rate g dx s 0 < 1 by linarith [hr.1])
    refine ⟨n0, fun n hn => ?_⟩
    obtain ⟨u', h1, h2⟩ := smooth_converges ha hdx hsol hb (fun y hy hyb => (hbd y hy hyb).symm) hM n
    refine ⟨u', h1, fun x hx => ?_⟩
    by_cases hxb : Boundary g x
    · rw [smooth_ok ha] at h1
      rw [← Outcome.ok.inj h1, swept_boundary ha dx f n u hx hxb, hbd x hx hxb, sub_self, abs_zero]
      exact hε
    · refine lt_of_le_of_lt (h2 x (inner_of_node hx hxb)) ?_
      have h3 : (1 - rate g dx s 0) ^ n ≤ (1 - rate g dx s 0) ^ n0 := pow_le_pow_of_le_one (by linarith [hr.2]) (by linarith [hr.1]) hn
      calc _ ≤ M * (cells g s 0 ^ 2 / 4) * (1 - rate g dx s 0) ^ n0 := mul_le_mul_of_nonneg_left h3 hC.le
        _ < M * (cells g s 0 ^ 2 / 4) * (ε / (M * (cells g s 0 ^ 2 / 4))) := mul_lt_mul_of_pos_left hn0 hC
        _ = ε := mul_div_cancel₀ _ hC.ne'
  · refine ⟨0, fun n _ => ⟨_, smooth_ok ha dx f n u, fun x hx => ?_⟩⟩
    by_cases hxb : Boundary g x
    · rw [swept_boundary ha dx f n u hx hxb, hbd x hx hxb, sub_self, abs_zero]; exact hε
    · exact absurd ⟨x, inner_of_node hx hxb⟩ hin

end

/-! ## Examples -/

-- 9×5 nodes, right-hand side 52, started from 0 inside and from the boundary values of (5x+y)²: 1000 iterations are within 1/10 of it.
example : ∃ u', smooth (plane 5) (fun _ => (1 : ℚ)) 1 (fun _ => 52) 1000 (fun p => if p ∈ (inner (plane 5) 1).map (plane 5).rawOffset then 0 else (p : ℚ) ^ 2) = .ok u' ∧
    ∀ x, Inner (plane 5) 1 x → |val (plane 5) u' x - val (plane 5) (fun p => (p : ℚ) ^ 2) x| ≤ 1936 * (4 ^ 2 / 4) * (1 - 4 / (2 * 4 ^ 2)) ^ 1000 := by
  have ha := plane_dyadic.aligned
  have hc : (cells (plane 5) 1 1 : ℚ) = 4 := by simp [cells, plane]
  have hr := rate_equal (g := plane 5) (dx := fun _ => (1 : ℚ)) (s := 1) one_ne_zero (fun _ _ => rfl) (show 1 < 2 by norm_num)
  obtain ⟨u', h1, h2⟩ := smooth_converges ha (dx := fun _ => (1 : ℚ)) (fun _ _ => one_ne_zero) plane_solves (b := 1) (show 1 < 2 by norm_num) (M := 1936)
    (u := fun p => if p ∈ (inner (plane 5) 1).map (plane 5).rawOffset then 0 else (p : ℚ) ^ 2)
    (fun y hy hyb => by
      show (if _ then _ else _) = _
      rw [if_neg]
      · rfl
      · intro h
        obtain ⟨z, hz, e⟩ := List.mem_map.1 h
        have hz' := ((mem_inner ha.pos).1 hz).1
        have := raw_inj ha.ghosts (inner_isNode ha hz') (node_isNode ha hy) e
        exact not_boundary_of_inner (fun j hj => by rw [← this j hj]; exact hz' j hj) hyb)
    (fun y hy => by
      have e : val (plane 5) (fun p => if p ∈ (inner (plane 5) 1).map (plane 5).rawOffset then 0 else (p : ℚ) ^ 2) y = 0 := by
        show (if _ then _ else _) = _
        obtain ⟨z, hz, hzz⟩ := exists_rep (plane 5) y
        exact if_pos (List.mem_map.2 ⟨z, (mem_inner ha.pos).2 ⟨fun j hj => by rw [hz j hj]; exact hy j hj, hzz⟩, rawOffset_congr hz⟩)
      rw [e]
      have hy0 := hy 0 (show 0 < 2 by norm_num)
      have hy1 := hy 1 (show 1 < 2 by norm_num)
      have b0 : y 0 < 8 := hy0.2.1
      have b1 : y 1 < 4 := hy1.2.1
      have hb : 0 ≤ y 0 * 5 + y 1 ∧ y 0 * 5 + y 1 ≤ 44 := ⟨by omega, by omega⟩
      show |(0 : ℚ) - (((plane 5).rawOffset y : Int) : ℚ) ^ 2| ≤ 1936
      rw [plane_raw]
      have h1 : (0 : ℚ) ≤ ((y 0 * 5 + y 1 : Int) : ℚ) := by exact_mod_cast hb.1
      have h2 : ((y 0 * 5 + y 1 : Int) : ℚ) ≤ 44 := by exact_mod_cast hb.2
      rw [zero_sub, abs_neg, abs_of_nonneg (sq_nonneg _)]
      nlinarith) 1000
  refine ⟨u', h1, fun x hx => ?_⟩
  have := h2 x hx
  rw [hr, hc] at this
  exact_mod_cast this

example : ∃ sol, Solves (plane 5) (fun _ => (1 : ℚ)) 1 (fun _ => 52) sol ∧ (∀ y, Node (plane 5) 1 y → Boundary (plane 5) y → val (plane 5) sol y = 0) ∧
    ∀ ε, 0 < ε → ∃ n0, ∀ n, n0 ≤ n → ∃ u', smooth (plane 5) (fun _ => 1) 1 (fun _ => 52) n (fun _ => 0) = .ok u' ∧ ∀ x, Node (plane 5) 1 x → |val (plane 5) u' x - val (plane 5) sol x| < ε :=
  smooth_limit plane_dyadic.aligned (dx := fun _ => (1 : ℚ)) (fun _ _ => one_ne_zero) (fun _ => 52) fun _ => 0

end MMSP.Multigrid
