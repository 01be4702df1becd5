import Verif.ConvexSplit
import Mathlib.Algebra.Order.BigOperators.Group.Finset
import Mathlib.Algebra.Polynomial.Derivative
import Mathlib.Tactic.FieldSimp
import Mathlib.Tactic.Linarith
import Mathlib.Tactic.Positivity
/-!
# The Cahn-Hilliard example with convex splitting: claims

The specification is the scheme itself, written for the values at the nodes: `Scheme` are the two equations of a step, `freeEnergy` is the energy of a state (free energy density plus squared
differences between neighbouring nodes).
-/

namespace MMSP.ConvexSplit

open Conserve (Serial nb nb_spec cross cross_cross total view_position inReach cells_eq_nodes axis_sum)
open Stencil (gridAt neighbours neighbours_eq lapLoop lapLoop_eq bump view gridAt_ok InReach foldl_sum sum_list_range)

/-! ## Specification -/

section Spec
variable {α : Type} [Field α]

/-- Laplacian at a node, from the neighbouring nodes. -/
def lap (g : Shape) (dx : Nat → α) (u : Int → α) (n : Int) : α := ∑ i ∈ Finset.range g.dim, (u (nb g i n true) - 2 * u n + u (nb g i n false)) / dx i ^ 2

/-- What is missing in the first equation of the step. -/
def r1 (p : Params α) (g : Shape) (dx : Nat → α) (old new : Int → α × α) (n : Int) : α := (old n).1 - ((new n).1 - p.D * p.dt * lap g dx (fun m => (new m).2) n)

/-- What is missing in the second equation of the step. -/
def r2 (p : Params α) (g : Shape) (dx : Nat → α) (old new : Int → α × α) (n : Int) : α :=
  p.expansive (old n).1 - ((new n).2 - p.contractive (new n).1 + p.K * lap g dx (fun m => (new m).1) n)

/-- `new` is the next state: the implicit equations of the step hold at every node. -/
def Scheme (p : Params α) (g : Shape) (dx : Nat → α) (old new : Int → α × α) : Prop := ∀ n, 0 ≤ n → n < g.nodes → r1 p g dx old new n = 0 ∧ r2 p g dx old new n = 0

/-- Sum of a product of differences over all pairs of neighbours; every pair is met from both sides. -/
def bonds (g : Shape) (dx : Nat → α) (a c : Int → α) : α :=
  ∑ i ∈ Finset.range g.dim, (∑ n ∈ Finset.range g.nodes.toNat,
    ((a (nb g i n true) - a n) * (c (nb g i n true) - c n) + (a (nb g i n false) - a n) * (c (nb g i n false) - c n)) / 2) / dx i ^ 2

/-- Energy of a state: free energy density plus half of `K` times the squared difference quotients between neighbouring nodes. -/
def freeEnergy (p : Params α) (g : Shape) (dx : Nat → α) (c : Int → α) : α := total g (fun n => p.energy (c n)) + 1 / 2 * p.K * bonds g dx c c

end Spec

/-! ## Free energy -/

section Energy
variable {α : Type} [Field α]

/-- **C57.** The two parts add up to the derivative. -/
theorem vanilla_split (c : α) : vanilla.contractive c + vanilla.expansive c = vanilla.full c := by simp only [vanilla]; ring

/-- **C57.** The two parts add up to the derivative, whatever the compositions and coefficients. -/
theorem parametric_split (c0 ca cb a b c : α) : (parametric c0 ca cb a b).contractive c + (parametric c0 ca cb a b).expansive c = (parametric c0 ca cb a b).full c := by
  simp only [parametric, qa, qb, qc, qd]; ring

/-- **C57.** `full_dfdc` is the derivative of `energy_density`. -/
theorem vanilla_derivative [CharZero α] : ∃ e : Polynomial α, (∀ c, e.eval c = vanilla.energy c) ∧ ∀ c, e.derivative.eval c = vanilla.full c := by
  open Polynomial in
  refine ⟨C (1 / 4) * X ^ 4 - C (1 / 2) * X ^ 2, fun c => ?_, fun c => ?_⟩
  · simp [vanilla]
  · simp [vanilla]
    ring

/-- **C57.** The same for the other energy. -/
theorem parametric_derivative [CharZero α] (c0 ca cb a b : α) :
    ∃ e : Polynomial α, (∀ c, e.eval c = (parametric c0 ca cb a b).energy c) ∧ ∀ c, e.derivative.eval c = (parametric c0 ca cb a b).full c := by
  open Polynomial in
  refine ⟨C (-(1 / 2) * a) * (X - C c0) ^ 2 + C (1 / 4 * b) * (X - C c0) ^ 4 + C (1 / 4 * ca) * (X - C ca) ^ 4 + C (1 / 4 * cb) * (X - C cb) ^ 4, fun c => ?_, fun c => ?_⟩
  · simp [parametric]
  · simp [parametric, Polynomial.derivative_pow]
    ring

/-- The coefficient of the linearisation. -/
theorem vanilla_nonlinear (c : α) : vanilla.contractive c = vanilla.nonlinear c * c := by simp only [vanilla]; ring

theorem parametric_nonlinear (c0 ca cb a b c : α) : (parametric c0 ca cb a b).contractive c = (parametric c0 ca cb a b).nonlinear c * c := by simp only [parametric]; ring

end Energy

section Convex
variable {α : Type} [Field α] [LinearOrder α] [IsStrictOrderedRing α]

/-- What convex splitting needs: the energy changes by no more than the contractive derivative at the new value and the expansive one at the old value say. -/
def Splits (p : Params α) (old new : α) : Prop := p.energy new - p.energy old ≤ (p.contractive new + p.expansive old) * (new - old)

/-- **C57.** The plain energy is split properly, for all compositions. -/
theorem vanilla_splits (old new : α) : Splits vanilla old new := by
  simp only [Splits, vanilla]
  nlinarith [mul_nonneg (sq_nonneg (new - old)) (sq_nonneg (new + old)), mul_nonneg (sq_nonneg (new - old)) (sq_nonneg new), sq_nonneg (new - old)]

/-- **C57.** The parametric energy is split properly between compositions that are not negative. -/
theorem parametric_splits {c0 ca cb a b : α} (h0 : 0 ≤ c0) (ha : 0 ≤ ca) (hb : 0 ≤ cb) (hA : 0 ≤ a) (hB : 0 ≤ b) {old new : α} (ho : 0 ≤ old) (hn : 0 ≤ new) :
    Splits (parametric c0 ca cb a b) old new := by
  simp only [Splits, parametric]
  have e : ∀ (k : α), (1 / 4 * (new - k) ^ 4 - 1 / 4 * (old - k) ^ 4) = (new ^ 3 + 3 * k ^ 2 * new - 3 * k * old ^ 2 - k ^ 3) * (new - old)
      - (new - old) ^ 2 * (1 / 4 * (new + old) ^ 2 + 1 / 2 * new ^ 2 + 3 / 2 * k ^ 2 + k * (new + 2 * old)) := by intro k; ring
  have pos : ∀ k : α, 0 ≤ k → 0 ≤ (new - old) ^ 2 * (1 / 4 * (new + old) ^ 2 + 1 / 2 * new ^ 2 + 3 / 2 * k ^ 2 + k * (new + 2 * old)) := fun k hk => by positivity
  have q0 := mul_nonneg hB (pos c0 h0)
  have q1 := mul_nonneg ha (pos ca ha)
  have q2 := mul_nonneg hb (pos cb hb)
  have q3 := mul_nonneg hA (sq_nonneg (new - old))
  have e0 := congrArg (b * ·) (e c0)
  have e1 := congrArg (ca * ·) (e ca)
  have e2 := congrArg (cb * ·) (e cb)
  beta_reduce at e0 e1 e2
  unfold qa qb qc qd
  nlinarith

/-- **C57, negation.** With the constants of the example the split is not a proper one for all compositions: from -2 to 0 the energy changes by more than the derivatives say. -/
theorem benchmark_not_split : ¬ Splits (benchmark : Params ℚ) (-2) 0 := by
  unfold Splits benchmark parametric qa qb qc qd
  norm_num

/-- **C57, negation.** The comment "Minima at C = 0 and 1" is wrong: the derivative vanishes at neither. -/
theorem benchmark_minima : (benchmark : Params ℚ).full 0 ≠ 0 ∧ (benchmark : Params ℚ).full 1 ≠ 0 := by
  unfold benchmark parametric
  norm_num

end Convex

/-! ## The stencils -/

section Stencils
variable {α : Type} [Field α]

omit [Field α] in
theorem fieldAt_ok {g : Shape} {x : Nat → Int} (h : Stencil.Touches .serial g x) (sel : α × α → α) (data : Int → α × α) : fieldAt g sel data x = .ok (sel (view .serial g data x)) := by
  unfold fieldAt; rw [gridAt_ok h]; rfl

theorem fringeLoop_eq {at' : (Nat → Int) → Outcome α} {F : (Nat → Int) → α} (w : Nat → α) (s : Nat → Int) : ∀ (is : List Nat) (acc : α),
    (∀ i ∈ is, at' (bump s i 1) = .ok (F (bump s i 1)) ∧ at' (bump s i (-1)) = .ok (F (bump s i (-1)))) →
    fringeLoop at' w is s acc = .ok (is.foldl (fun a i => a + w i * (F (bump s i 1) + F (bump s i (-1)))) acc) := by
  intro is
  induction is with
  | nil => intro acc _; rfl
  | cons i is ih =>
    intro acc h
    have hi := h i (by simp)
    simp only [fringeLoop, neighbours_eq, hi.1, hi.2, Outcome.ok_bind, List.foldl_cons]
    exact ih _ fun j hj => h j (by simp [hj])

variable {g : Shape}

theorem fieldLaplacian_ok (hs : Serial g) (dx : Nat → α) (sel : α × α → α) (data : Int → α × α) {n : Int} (h0 : 0 ≤ n) (h1 : n < g.nodes) :
    fieldLaplacian g dx sel data (g.position n) = .ok (lap g dx (fun m => sel (data m)) n) := by
  have hr := inReach hs h0 h1
  unfold fieldLaplacian
  rw [fieldAt_ok hr.1, Outcome.ok_bind, lapLoop_eq (F := fun x => sel (view .serial g data x)) _ _ _ _ _
    (fun i hi => ⟨fieldAt_ok (hr.2 i (List.mem_range.mp hi)).1 _ _, fieldAt_ok (hr.2 i (List.mem_range.mp hi)).2 _ _⟩), foldl_sum, sum_list_range, zero_add, view_position hs data h0 h1]
  congr 1
  refine Finset.sum_congr rfl fun i _ => ?_
  simp only [axisWeight, view, nb, if_true, Bool.false_eq_true, if_false]
  ring

theorem centre_eq (dx : Nat → α) : centre g dx = ∑ i ∈ Finset.range g.dim, 2 / dx i ^ 2 := by
  unfold centre; rw [foldl_sum, sum_list_range, zero_add]

theorem fringe_ok (hs : Serial g) (dx : Nat → α) (sel : α × α → α) (data : Int → α × α) {n : Int} (h0 : 0 ≤ n) (h1 : n < g.nodes) :
    fringe g dx sel data (g.position n) = .ok (lap g dx (fun m => sel (data m)) n + centre g dx * sel (data n)) := by
  have hr := inReach hs h0 h1
  unfold fringe
  rw [fringeLoop_eq (F := fun x => sel (view .serial g data x)) _ _ _ _
    (fun i hi => ⟨fieldAt_ok (hr.2 i (List.mem_range.mp hi)).1 _ _, fieldAt_ok (hr.2 i (List.mem_range.mp hi)).2 _ _⟩), foldl_sum, sum_list_range, zero_add, centre_eq, lap, Finset.sum_mul, ← Finset.sum_add_distrib]
  congr 1
  refine Finset.sum_congr rfl fun i _ => ?_
  simp only [axisWeight, view, nb, if_true, Bool.false_eq_true, if_false]
  ring

/-- Determinant of the two equations of a node, linearised about the current composition `c`. -/
def det (p : Params α) (g : Shape) (dx : Nat → α) (c : α) : α := 1 + p.dt * p.D * centre g dx * (p.nonlinear c + p.K * centre g dx)

/-- The new value of a node: the old one and `omega` times the solution of the two equations with the residuals on the right-hand side. -/
def relax (p : Params α) (g : Shape) (dx : Nat → α) (old new : Int → α × α) (n : Int) : α × α :=
  ((new n).1 + p.omega * ((r1 p g dx old new n - p.dt * p.D * centre g dx * r2 p g dx old new n) / det p g dx (new n).1),
    (new n).2 + p.omega * ((r2 p g dx old new n + (p.nonlinear (new n).1 + p.K * centre g dx) * r1 p g dx old new n) / det p g dx (new n).1))

/-- The coefficient of the linearisation is that of the contractive part. -/
def Linearised (p : Params α) : Prop := ∀ c, p.contractive c = p.nonlinear c * c

theorem node_ok (hs : Serial g) {p : Params α} (hp : Linearised p) (dx : Nat → α) (old new : Int → α × α) {n : Int} (h0 : 0 ≤ n) (h1 : n < g.nodes) (hd : det p g dx (new n).1 ≠ 0) :
    node p g dx old new n = .ok (relax p g dx old new n) := by
  have hc : 0 ≤ n ∧ n < g.cells := by rw [cells_eq_nodes hs]; exact ⟨h0, h1⟩
  have hdr : ∀ d : Int → α × α, deref g d (g.atNode .serial n) = .ok (d n) := fun d => if_pos hc
  unfold node
  simp only [hdr, Outcome.ok_bind, fringe_ok hs dx _ _ h0 h1]
  have e : 1 - p.dt * p.D * centre g dx * (-p.nonlinear (new n).1 - p.K * centre g dx) = det p g dx (new n).1 := by unfold det; ring
  rw [e]
  congr 1
  have q := hp (new n).1
  refine Prod.ext ?_ ?_ <;> simp only [relax, r1, r2, q] <;> field_simp <;> simp only [det] <;> ring

end Stencils

end MMSP.ConvexSplit
