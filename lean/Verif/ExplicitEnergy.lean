import Verif.RelaxProps
/-!
# Property C110: the explicit Cahn-Hilliard update loses energy

About `Conserve.update` with `Conserve.chPotential`, the model of `examples/phase_transitions/cahn-hilliard/explicit/cahn-hilliard.cpp` 47-81, in exact arithmetic.
-/

namespace MMSP.Explicit

open Finset
open Stencil (laplacianNode)
open Conserve (Serial Fields step update chPotential total nb nb_spec forNodes_eq cells_eq_nodes)
open ConvexSplit (lap bonds sum_by_parts bonds_nonneg)
open Relax (weight energy Between bonds_le bonds_expand bonds_congr energy_congr total_congr lapl_between reach_of_serial)

/-! ## One pass -/

section
variable {α : Type} [Field α]

/-- Chemical potential, the derivative of the energy. -/
def potential (g : Shape) (dx : Nat → α) (r u k : α) (phi : Int → α) (n : Int) : α := u * phi n ^ 3 - r * phi n - k * lap g dx phi n

/-- One explicit step along the Laplacian of the potential. -/
def next (g : Shape) (dx : Nat → α) (c r u k : α) (phi : Int → α) (n : Int) : α := phi n + c * lap g dx (potential g dx r u k phi) n

theorem lap_congr {g : Shape} (hs : Serial g) (dx : Nat → α) {a b : Int → α} (h : ∀ n, 0 ≤ n → n < g.nodes → a n = b n) {n : Int} (n0 : 0 ≤ n) (n1 : n < g.nodes) :
    lap g dx a n = lap g dx b n := by
  unfold lap
  refine sum_congr rfl fun i hi => ?_
  have s := fun up => nb_spec hs (mem_range.1 hi) n0 n1 up
  rw [h _ (s true).1 (s true).2.1, h _ (s false).1 (s false).2.1, h n n0 n1]

theorem step_exact {g : Shape} (hs : Serial g) (dx : Nat → α) (c r u k : α) (s : Fields α) :
    ∃ s', step g dx (fun _ => chPotential r u k) c s = .ok s' ∧
      (∀ n, 0 ≤ n → n < g.nodes → s'.temp n = potential g dx r u k s.old n) ∧ ∀ n, 0 ≤ n → n < g.nodes → s'.old n = next g dx c r u k s.old n := by
  have hr := reach_of_serial hs
  have hd : ∀ (n : Int), 0 ≤ n → n < g.nodes → deref g s.old (g.atNode .serial n) = .ok (s.old n) := by
    intro n h0 h1; unfold deref; exact if_pos ⟨h0, by rw [cells_eq_nodes hs]; exact h1⟩
  have t1 := forNodes_eq hs (fun i => (deref g s.old (g.atNode .serial i)).bind fun phi =>
    (laplacianNode .serial g dx s.old i).bind fun l => .ok (chPotential r u k phi l)) (potential g dx r u k s.old) s.temp (by
      intro n h0 h1
      simp only [hd n h0 h1, Relax.laplacianNode_eq hs.wf hs.ghosts hr dx s.old h0 h1, Relax.lapl_eq_lap, Outcome.ok_bind]
      congr 1; unfold chPotential potential; ring)
  have hmu : ∀ n, 0 ≤ n → n < g.nodes → (fun p => if 0 ≤ p ∧ p < g.nodes then potential g dx r u k s.old p else s.temp p) n = potential g dx r u k s.old n := by
    intro n h0 h1; exact if_pos ⟨h0, h1⟩
  generalize (fun p => if 0 ≤ p ∧ p < g.nodes then potential g dx r u k s.old p else s.temp p) = temp at t1 hmu
  have t2 := forNodes_eq hs (fun i => (deref g s.old (g.atNode .serial i)).bind fun phi =>
    (laplacianNode .serial g dx temp i).bind fun l => .ok (phi + c * l)) (next g dx c r u k s.old) s.new (by
      intro n h0 h1
      simp only [hd n h0 h1, Relax.laplacianNode_eq hs.wf hs.ghosts hr dx temp h0 h1, Relax.lapl_eq_lap, Outcome.ok_bind]
      rw [lap_congr hs dx hmu h0 h1]; rfl)
  exact ⟨⟨fun p => if 0 ≤ p ∧ p < g.nodes then next g dx c r u k s.old p else s.new p, s.old, temp⟩, by unfold step; rw [t1, Outcome.ok_bind, t2, Outcome.ok_bind], hmu,
    fun n h0 h1 => if_pos ⟨h0, h1⟩⟩

end

/-! ## Energy of one step -/

section
variable {α : Type} [Field α] [LinearOrder α] [IsStrictOrderedRing α] {g : Shape}

/-- Parameters for which a step between fields within `±B` cannot raise the energy: `L` bounds the curvature of the energy there, and the time step is small against it. -/
structure Damped (g : Shape) (dx : Nat → α) (c r u k B L : α) : Prop where
  c0 : 0 ≤ c
  u0 : 0 ≤ u
  k0 : 0 ≤ k
  w0 : 0 < weight g dx
  l0 : 0 ≤ L
  curve : 3 * u * B ^ 2 - r + 2 * k * weight g dx ≤ L
  small : c * weight g dx * L ≤ 1

theorem lap_sq_le (hs : Serial g) (dx : Nat → α) (a : Int → α) : total g (fun n => lap g dx a n ^ 2) ≤ 2 * weight g dx * bonds g dx a a := by
  have hw : 0 ≤ weight g dx := sum_nonneg fun j _ => by positivity
  have hsym : bonds g dx a (lap g dx a) = bonds g dx (lap g dx a) a := by
    unfold bonds; refine sum_congr rfl fun i _ => ?_; congr 1; exact sum_congr rfl fun n _ => by ring
  have h1 : total g (fun n => lap g dx a n ^ 2) = -bonds g dx (lap g dx a) a := by
    rw [← sum_by_parts hs]; exact total_congr fun n _ _ => by ring
  have h2 := bonds_le hs dx (lap g dx a)
  rcases hw.eq_or_lt with hw | hw
  · have hz : ∀ i ∈ range g.dim, 2 / dx i ^ 2 = 0 := (sum_eq_zero_iff_of_nonneg fun j _ => by positivity).1 hw.symm
    have : ∀ n, lap g dx a n = 0 := fun n => sum_eq_zero fun i hi => by
      have : dx i ^ 2 = 0 := by
        rcases div_eq_zero_iff.1 (hz i hi) with h | h
        · norm_num at h
        · exact h
      rw [this, div_zero]
    rw [← hw]; simp [this, total]
  · have h3 := bonds_nonneg (g := g) dx (fun n => 2 * weight g dx * a n + lap g dx a n)
    rw [bonds_expand] at h3
    have e1 : bonds g dx (fun n => 2 * weight g dx * a n) (fun n => 2 * weight g dx * a n) = 4 * weight g dx ^ 2 * bonds g dx a a := by
      unfold bonds; rw [mul_sum]; refine sum_congr rfl fun i _ => ?_
      rw [← mul_div_assoc]; congr 1; rw [mul_sum]; exact sum_congr rfl fun n _ => by ring
    have e2 : bonds g dx (lap g dx a) (fun n => 2 * weight g dx * a n) = 2 * weight g dx * bonds g dx (lap g dx a) a := by
      unfold bonds; rw [mul_sum]; refine sum_congr rfl fun i _ => ?_
      rw [← mul_div_assoc]; congr 1; rw [mul_sum]; exact sum_congr rfl fun n _ => by ring
    rw [e1, e2] at h3
    have : 0 ≤ (2 * weight g dx) * (2 * weight g dx * bonds g dx a a - total g (fun n => lap g dx a n ^ 2)) := by nlinarith
    have := nonneg_of_mul_nonneg_right this (by positivity)
    linarith

/-- A step between fields within `±B` lowers the energy by at least `c (1 - c w L)` times the squared difference quotients of the potential. -/
theorem next_energy (hs : Serial g) {dx : Nat → α} {c r u k B L : α} (hc : Damped g dx c r u k B L) {phi : Int → α} (hp : Between g (-B) B phi) (hq : Between g (-B) B (next g dx c r u k phi)) :
    energy g dx r u k (next g dx c r u k phi) + c * (1 - c * weight g dx * L) * bonds g dx (potential g dx r u k phi) (potential g dx r u k phi) ≤ energy g dx r u k phi := by
  set q := next g dx c r u k phi with hqd
  set m := potential g dx r u k phi with hm
  let e : Int → α := fun n => c * lap g dx m n
  have he : ∀ n, q n = phi n + e n := fun n => rfl
  have h1 : total g (fun n => -r / 2 * q n ^ 2 + u / 4 * q n ^ 4) ≤
      total g (fun n => -r / 2 * phi n ^ 2 + u / 4 * phi n ^ 4) + total g (fun n => e n * (u * phi n ^ 3 - r * phi n)) + (3 * u * B ^ 2 - r) / 2 * total g (fun n => e n ^ 2) := by
    unfold total
    rw [mul_sum, ← sum_add_distrib, ← sum_add_distrib]
    refine sum_le_sum fun n hn => ?_
    have hn1 : (n : Int) < g.nodes := by have := mem_range.1 hn; omega
    obtain ⟨p1, p2⟩ := hp n (by omega) hn1
    obtain ⟨q1, q2⟩ := hq n (by omega) hn1
    have hs1 : phi n ^ 2 ≤ B ^ 2 := by nlinarith
    have hs2 : q n ^ 2 ≤ B ^ 2 := by nlinarith
    have hs3 : q n ^ 2 + 2 * phi n * q n + 3 * phi n ^ 2 ≤ 6 * B ^ 2 := by nlinarith [sq_nonneg (q n - phi n)]
    have hs4 := mul_nonneg (mul_nonneg hc.u0 (sq_nonneg (e n))) (sub_nonneg.2 hs3)
    have ex : -r / 2 * q n ^ 2 + u / 4 * q n ^ 4 = -r / 2 * phi n ^ 2 + u / 4 * phi n ^ 4 + e n * (u * phi n ^ 3 - r * phi n) + (3 * u * B ^ 2 - r) / 2 * e n ^ 2
        - u * e n ^ 2 * (6 * B ^ 2 - (q n ^ 2 + 2 * phi n * q n + 3 * phi n ^ 2)) / 4 := by
      rw [he n]; ring
    beta_reduce
    rw [ex]; linarith
  have h2 : bonds g dx q q = bonds g dx phi phi - 2 * total g (fun n => e n * lap g dx phi n) + bonds g dx e e := by
    have : q = fun n => phi n + e n := funext he
    rw [this, bonds_expand, sum_by_parts hs dx e phi]; ring
  have h3 := bonds_le hs dx e
  have h4 : total g (fun n => e n * (u * phi n ^ 3 - r * phi n)) - k * total g (fun n => e n * lap g dx phi n) = -(c * bonds g dx m m) := by
    have : -(c * bonds g dx m m) = c * total g (fun n => m n * lap g dx m n) := by rw [sum_by_parts hs]; ring
    rw [this]
    unfold total
    rw [mul_sum, mul_sum, ← sum_sub_distrib]
    exact sum_congr rfl fun n _ => by simp only [e, hm, potential]; ring
  have h5 : total g (fun n => e n ^ 2) = c ^ 2 * total g (fun n => lap g dx m n ^ 2) := by
    unfold total; rw [mul_sum]; exact sum_congr rfl fun n _ => by simp only [e]; ring
  have h6 := lap_sq_le hs dx m
  set S := total g (fun n => e n ^ 2)
  have hS0 : 0 ≤ S := sum_nonneg fun n _ => sq_nonneg _
  have a1 : k / 2 * bonds g dx e e ≤ k / 2 * (2 * weight g dx * S) := mul_le_mul_of_nonneg_left h3 (by have := hc.k0; linarith)
  have a2 : (3 * u * B ^ 2 - r + 2 * k * weight g dx) * S ≤ L * S := mul_le_mul_of_nonneg_right hc.curve hS0
  have a3 : L / 2 * S ≤ L / 2 * (c ^ 2 * (2 * weight g dx * bonds g dx m m)) := by
    rw [h5]; exact mul_le_mul_of_nonneg_left (mul_le_mul_of_nonneg_left h6 (sq_nonneg _)) (by have := hc.l0; linarith)
  unfold energy
  rw [h2]
  nlinarith

/-! ## Runs -/

/-- **C110.** Every pass ends. If the fields before and after a pass stay within `±B`, the energy has fallen by at least `c (1 - c w L)` times the squared difference quotients of the potential in `temp`. -/
theorem cahnHilliard_energy (hs : Serial g) {dx : Nat → α} {dt m r u k B L : α} (hc : Damped g dx (dt * m) r u k B L) (s : Fields α) :
    ∃ S : Nat → Fields α, (∀ n, update g dx (fun _ _ => chPotential r u k) (dt * m) n s = .ok (S n)) ∧ S 0 = s ∧
      ∀ n, Between g (-B) B (S n).old → Between g (-B) B (S (n + 1)).old →
        energy g dx r u k (S (n + 1)).old + dt * m * (1 - dt * m * weight g dx * L) * bonds g dx (S (n + 1)).temp (S (n + 1)).temp ≤ energy g dx r u k (S n).old := by
  have hex : ∀ n, ∃ s', update g dx (fun _ _ => chPotential r u k) (dt * m) n s = .ok s' := by
    intro n
    induction n with
    | zero => exact ⟨s, rfl⟩
    | succ n ih =>
      obtain ⟨s1, e1⟩ := ih
      obtain ⟨s2, e2, -⟩ := step_exact hs dx (dt * m) r u k s1
      exact ⟨s2, by rw [update, e1, Outcome.ok_bind, e2]⟩
  choose S hS using hex
  refine ⟨S, hS, (Outcome.ok.inj (hS 0)).symm, fun n hp hq => ?_⟩
  have hstep : step g dx (fun _ => chPotential r u k) (dt * m) (S n) = .ok (S (n + 1)) := by have e := hS (n + 1); rwa [update, hS n, Outcome.ok_bind] at e
  obtain ⟨s2, e2, ht, ho⟩ := step_exact hs dx (dt * m) r u k (S n)
  rw [Outcome.ok.inj (hstep.symm.trans e2)] at hq ⊢
  rw [energy_congr hs dx r u k ho, bonds_congr hs dx ht]
  exact next_energy hs hc hp fun p a b => by rw [← ho p a b]; exact hq p a b

/-- The energy cannot fall below that of a grid at the bottom of the double well. -/
theorem energy_ge {dx : Nat → α} {r u k : α} (hu : 0 < u) (hk : 0 ≤ k) (phi : Int → α) : -(g.nodes.toNat * (r ^ 2 / (4 * u))) ≤ energy g dx r u k phi := by
  have h1 := mul_nonneg (show 0 ≤ k / 2 by linarith) (bonds_nonneg (g := g) dx phi)
  have h2 : -(g.nodes.toNat * (r ^ 2 / (4 * u))) ≤ total g (fun n => -r / 2 * phi n ^ 2 + u / 4 * phi n ^ 4) := by
    unfold total
    calc -((g.nodes.toNat : α) * (r ^ 2 / (4 * u))) = ∑ n ∈ range g.nodes.toNat, -(r ^ 2 / (4 * u)) := by rw [sum_const, card_range, nsmul_eq_mul]; ring
      _ ≤ _ := sum_le_sum fun n _ => by
        have : -r / 2 * phi n ^ 2 + u / 4 * phi n ^ 4 = -(r ^ 2 / (4 * u)) + u / 4 * (phi n ^ 2 - r / u) ^ 2 := by field_simp; ring
        beta_reduce
        rw [this]; nlinarith [mul_nonneg hu.le (sq_nonneg (phi n ^ 2 - r / u))]
  unfold energy; linarith

/-- Energy of a node at the value `x`. -/
def well (r u x : α) : α := -r / 2 * x ^ 2 + u / 4 * x ^ 4

/-- A field of low energy stays below the walls. -/
theorem between_of_energy {dx : Nat → α} {r u k B E : α} (hu : 0 < u) (hk : 0 ≤ k) (hB : 0 ≤ B) (hBu : r ≤ u * B ^ 2) (hE : E + g.nodes.toNat * (r ^ 2 / (4 * u)) < well r u B) {phi : Int → α}
    (he : energy g dx r u k phi ≤ E) : Between g (-B) B phi := by
  intro n n0 n1
  have h1 := mul_nonneg (show 0 ≤ k / 2 by linarith) (bonds_nonneg (g := g) dx phi)
  have hq : 0 ≤ r ^ 2 / (4 * u) := by positivity
  have hw : ∀ x : α, 0 ≤ well r u x + r ^ 2 / (4 * u) := fun x => by
    have : well r u x + r ^ 2 / (4 * u) = u / 4 * (x ^ 2 - r / u) ^ 2 := by unfold well; field_simp; ring
    rw [this]; positivity
  have h2 : well r u (phi n) + r ^ 2 / (4 * u) ≤ total g (fun n => well r u (phi n) + r ^ 2 / (4 * u)) := by
    have := single_le_sum (f := fun i : Nat => well r u (phi i) + r ^ 2 / (4 * u)) (s := range g.nodes.toNat) (fun i _ => hw _) (mem_range.2 (show n.toNat < g.nodes.toNat by omega))
    simp only [Int.toNat_of_nonneg n0] at this
    exact this
  have h3 : total g (fun n => well r u (phi n) + r ^ 2 / (4 * u)) = total g (fun n => -r / 2 * phi n ^ 2 + u / 4 * phi n ^ 4) + g.nodes.toNat * (r ^ 2 / (4 * u)) := by
    unfold total well; rw [sum_add_distrib, sum_const, card_range, nsmul_eq_mul]
  have h4 : well r u (phi n) < well r u B := by unfold energy at he; linarith
  have h5 : phi n ^ 2 < B ^ 2 := by
    by_contra hcon
    have hcon := not_lt.1 hcon
    have : well r u (phi n) - well r u B = (phi n ^ 2 - B ^ 2) * (u * (phi n ^ 2 - B ^ 2) + 2 * (u * B ^ 2 - r)) / 4 := by unfold well; ring
    have : 0 ≤ (phi n ^ 2 - B ^ 2) * (u * (phi n ^ 2 - B ^ 2) + 2 * (u * B ^ 2 - r)) :=
      mul_nonneg (by linarith) (add_nonneg (mul_nonneg hu.le (by linarith)) (by linarith))
    linarith
  exact ⟨(abs_le.1 (abs_le_of_sq_le_sq h5.le hB)).1, (abs_le.1 (abs_le_of_sq_le_sq h5.le hB)).2⟩

/-- How far a step can move a field within `±B`. -/
def reachOf (g : Shape) (dx : Nat → α) (c r u k B : α) : α := B + c * (2 * weight g dx * (u * B ^ 3 + |r| * B + k * (2 * weight g dx * B)))

theorem lap_abs (hs : Serial g) (dx : Nat → α) {a : Int → α} {A : α} (ha : Between g (-A) A a) {n : Int} (n0 : 0 ≤ n) (n1 : n < g.nodes) : |lap g dx a n| ≤ 2 * weight g dx * A := by
  have hw : 0 ≤ weight g dx := sum_nonneg fun j _ => by positivity
  obtain ⟨l1, l2⟩ := lapl_between hs.ghosts (reach_of_serial hs) dx ha n0 n1
  obtain ⟨a1, a2⟩ := ha n n0 n1
  rw [Relax.lapl_eq_lap] at l1 l2
  exact abs_le.2 ⟨by nlinarith, by nlinarith⟩

theorem next_reach (hs : Serial g) {dx : Nat → α} {c r u k B : α} (c0 : 0 ≤ c) (u0 : 0 ≤ u) (k0 : 0 ≤ k) {phi : Int → α} (hp : Between g (-B) B phi) :
    Between g (-reachOf g dx c r u k B) (reachOf g dx c r u k B) (next g dx c r u k phi) := by
  have hm : Between g (-(u * B ^ 3 + |r| * B + k * (2 * weight g dx * B))) (u * B ^ 3 + |r| * B + k * (2 * weight g dx * B)) (potential g dx r u k phi) := by
    intro n n0 n1
    have hl := lap_abs hs dx hp n0 n1
    have hx : |phi n| ≤ B := abs_le.2 (hp n n0 n1)
    refine abs_le.1 ?_
    unfold potential
    have b1 : |u * phi n ^ 3| ≤ u * B ^ 3 := by rw [abs_mul, abs_of_nonneg u0, abs_pow]; exact mul_le_mul_of_nonneg_left (pow_le_pow_left₀ (abs_nonneg _) hx 3) u0
    have b2 : |r * phi n| ≤ |r| * B := by rw [abs_mul]; exact mul_le_mul_of_nonneg_left hx (abs_nonneg _)
    have b3 : |k * lap g dx phi n| ≤ k * (2 * weight g dx * B) := by rw [abs_mul, abs_of_nonneg k0]; exact mul_le_mul_of_nonneg_left hl k0
    have := abs_sub (u * phi n ^ 3 - r * phi n) (k * lap g dx phi n)
    have := abs_sub (u * phi n ^ 3) (r * phi n)
    linarith
  intro n n0 n1
  have hl := mul_le_mul_of_nonneg_left (lap_abs hs dx hm n0 n1) c0
  rw [← abs_of_nonneg c0, ← abs_mul, abs_of_nonneg c0] at hl
  obtain ⟨x1, x2⟩ := hp n n0 n1
  obtain ⟨y1, y2⟩ := abs_le.1 hl
  unfold next reachOf
  constructor <;> linarith

/-- Start of a run that stays within `±B` for ever: the energy does not suffice to climb to `B`, and the step is small enough for everything a step can reach from there. -/
structure Trapped (g : Shape) (dx : Nat → α) (c r u k B L E : α) : Prop where
  damped : Damped g dx c r u k (reachOf g dx c r u k B) L
  u1 : 0 < u
  b0 : 0 ≤ B
  wall : r ≤ u * B ^ 2
  low : E + g.nodes.toNat * (r ^ 2 / (4 * u)) < well r u B

/-- **C110.** Started with energy at most `E`, no value ever leaves `±B`, and the energy falls in every pass by at least `c (1 - c w L)` times the squared difference quotients of the potential. -/
theorem cahnHilliard_trapped (hs : Serial g) {dx : Nat → α} {dt m r u k B L E : α} (hc : Trapped g dx (dt * m) r u k B L E) {s : Fields α} (he : energy g dx r u k s.old ≤ E) :
    ∃ S : Nat → Fields α, (∀ n, update g dx (fun _ _ => chPotential r u k) (dt * m) n s = .ok (S n)) ∧ S 0 = s ∧ (∀ n, Between g (-B) B (S n).old) ∧
      ∀ n, energy g dx r u k (S (n + 1)).old + dt * m * (1 - dt * m * weight g dx * L) * bonds g dx (S (n + 1)).temp (S (n + 1)).temp ≤ energy g dx r u k (S n).old := by
  obtain ⟨S, hS, h0, h⟩ := cahnHilliard_energy hs hc.damped s
  have hd := hc.damped
  have hwB : B ≤ reachOf g dx (dt * m) r u k B := by
    have hu := hc.u1; have hb := hc.b0; have hw := hd.w0; have hk := hd.k0
    have := mul_nonneg hd.c0 (show 0 ≤ 2 * weight g dx * (u * B ^ 3 + |r| * B + k * (2 * weight g dx * B)) by positivity)
    unfold reachOf; linarith
  have hg : ∀ n, 0 ≤ dt * m * (1 - dt * m * weight g dx * L) * bonds g dx (S (n + 1)).temp (S (n + 1)).temp := fun n =>
    mul_nonneg (mul_nonneg hd.c0 (sub_nonneg.2 hd.small)) (bonds_nonneg dx _)
  have key : ∀ n, Between g (-B) B (S n).old →
      energy g dx r u k (S (n + 1)).old + dt * m * (1 - dt * m * weight g dx * L) * bonds g dx (S (n + 1)).temp (S (n + 1)).temp ≤ energy g dx r u k (S n).old := by
    intro n hb
    refine h n (fun p a b => ⟨by linarith [(hb p a b).1], by linarith [(hb p a b).2]⟩) ?_
    have hstep : step g dx (fun _ => chPotential r u k) (dt * m) (S n) = .ok (S (n + 1)) := by have e := hS (n + 1); rwa [update, hS n, Outcome.ok_bind] at e
    obtain ⟨s2, e2, -, ho⟩ := step_exact hs dx (dt * m) r u k (S n)
    rw [Outcome.ok.inj (hstep.symm.trans e2)]
    intro p a b
    rw [ho p a b]
    exact next_reach hs hd.c0 hc.u1.le hd.k0 hb p a b
  have hE : ∀ n, energy g dx r u k (S n).old ≤ E := by
    intro n
    induction n with
    | zero => rwa [h0]
    | succ n ih =>
      have := key n (between_of_energy hc.u1 hd.k0 hc.b0 hc.wall hc.low ih)
      linarith [hg n]
  have hB : ∀ n, Between g (-B) B (S n).old := fun n => between_of_energy hc.u1 hd.k0 hc.b0 hc.wall hc.low (hE n)
  exact ⟨S, hS, h0, hB, fun n => key n (hB n)⟩

/-- **C110.** Such a run comes to rest: among the first `n` passes there is one whose potential has squared difference quotients of at most `(E + N r² / 4u) / (n c (1 - c w L))`. -/
theorem cahnHilliard_rests (hs : Serial g) {dx : Nat → α} {dt m r u k B L E : α} (hc : Trapped g dx (dt * m) r u k B L E) {s : Fields α} (he : energy g dx r u k s.old ≤ E) {n : Nat} (hn : 0 < n) :
    ∃ j < n, ∃ t, update g dx (fun _ _ => chPotential r u k) (dt * m) (j + 1) s = .ok t ∧
      n * (dt * m * (1 - dt * m * weight g dx * L)) * bonds g dx t.temp t.temp ≤ E + g.nodes.toNat * (r ^ 2 / (4 * u)) := by
  obtain ⟨S, hS, h0, -, h⟩ := cahnHilliard_trapped hs hc he
  set q := dt * m * (1 - dt * m * weight g dx * L)
  have hsum : ∀ n, energy g dx r u k (S n).old + ∑ j ∈ range n, q * bonds g dx (S (j + 1)).temp (S (j + 1)).temp ≤ energy g dx r u k s.old := by
    intro n
    induction n with
    | zero => simp [h0]
    | succ n ih => rw [sum_range_succ]; linarith [h n]
  by_contra hcon
  push Not at hcon
  have hlt : ∀ j ∈ range n, (E + g.nodes.toNat * (r ^ 2 / (4 * u))) / n < q * bonds g dx (S (j + 1)).temp (S (j + 1)).temp := by
    intro j hj
    have := hcon j (mem_range.1 hj) _ (hS (j + 1))
    rw [div_lt_iff₀ (by exact_mod_cast hn)]
    linarith
  have := sum_lt_sum_of_nonempty ⟨0, mem_range.2 hn⟩ hlt
  rw [sum_const, card_range, nsmul_eq_mul, mul_div_cancel₀ _ (by exact_mod_cast hn.ne')] at this
  have := hsum n
  have := energy_ge (g := g) (dx := dx) (r := r) hc.u1 hc.damped.k0 (S n).old
  linarith

/-- **C110.** A pass within `±B` that does not lower the energy leaves every node as it is. -/
theorem cahnHilliard_stationary (hs : Serial g) {dx : Nat → α} {dt m r u k B L : α} (hc : Damped g dx (dt * m) r u k B L) (c0 : 0 < dt * m) (hsm : dt * m * weight g dx * L < 1) {s t : Fields α}
    (hp : Between g (-B) B s.old) (hq : Between g (-B) B t.old) (ht : update g dx (fun _ _ => chPotential r u k) (dt * m) 1 s = .ok t) (he : energy g dx r u k s.old ≤ energy g dx r u k t.old) :
    ∀ n, 0 ≤ n → n < g.nodes → t.old n = s.old n := by
  obtain ⟨S, hS, h0, h⟩ := cahnHilliard_energy hs hc s
  have h1 : S 1 = t := Outcome.ok.inj ((hS 1).symm.trans ht)
  have := h 0 (by rw [h0]; exact hp) (by rw [h1]; exact hq)
  rw [h0, zero_add, h1] at this
  have hb : bonds g dx t.temp t.temp = 0 := by
    refine le_antisymm ?_ (bonds_nonneg dx _)
    by_contra hcon
    have := mul_pos (mul_pos c0 (sub_pos.2 hsm)) (not_le.1 hcon)
    linarith
  obtain ⟨s2, e2, htm, ho⟩ := step_exact hs dx (dt * m) r u k s
  have e : s2 = t := Outcome.ok.inj (e2.symm.trans ht)
  subst e
  rw [bonds_congr hs dx htm] at hb
  have hl := lap_sq_le hs dx (potential g dx r u k s.old)
  rw [hb, mul_zero] at hl
  intro n n0 n1
  have := (sum_eq_zero_iff_of_nonneg (fun (i : Nat) _ => sq_nonneg (lap g dx (potential g dx r u k s.old) i))).1 (le_antisymm hl (sum_nonneg fun i _ => sq_nonneg _)) n.toNat (by rw [mem_range]; omega)
  rw [Int.toNat_of_nonneg n0] at this
  rw [ho n n0 n1, next, pow_eq_zero_iff two_ne_zero |>.1 this, mul_zero, add_zero]

/-! ## The constants of the example -/

/-- **C110.** With the constants of cahn-hilliard.cpp 60-64 and unit spacing the time step is small enough for fields within `±B` if `d (3 B² - 1 + 4 d) ≤ 50` on a grid of `d` axes. -/
theorem shipped_damped (hs : Serial g) {B : α} (h1 : 1 ≤ B) (hB : (g.dim : α) * (3 * B ^ 2 - 1 + 4 * g.dim) ≤ 50) :
    Damped g (fun _ => 1) (1 / 100 * 1) 1 1 1 B (3 * B ^ 2 - 1 + 4 * g.dim) := by
  have hw : weight g (fun _ => (1 : α)) = 2 * g.dim := by unfold weight; rw [sum_const, card_range, nsmul_eq_mul]; norm_num; ring
  have hd : (0 : α) < g.dim := by exact_mod_cast hs.wf.1
  refine ⟨by norm_num, by norm_num, by norm_num, by rw [hw]; linarith, by nlinarith, by rw [hw]; linarith, by rw [hw]; linarith⟩

/-- Bounds on one, two and three axes. -/
example (hs : Serial g) (h : g.dim = 1) : Damped g (fun _ => (1 : ℚ)) (1 / 100 * 1) 1 1 1 (39 / 10) (3 * (39 / 10) ^ 2 - 1 + 4 * g.dim) := shipped_damped hs (by norm_num) (by rw [h]; norm_num)
example (hs : Serial g) (h : g.dim = 2) : Damped g (fun _ => (1 : ℚ)) (1 / 100 * 1) 1 1 1 (12 / 5) (3 * (12 / 5) ^ 2 - 1 + 4 * g.dim) := shipped_damped hs (by norm_num) (by rw [h]; norm_num)
example (hs : Serial g) (h : g.dim = 3) : Damped g (fun _ => (1 : ℚ)) (1 / 100 * 1) 1 1 1 (13 / 10) (3 * (13 / 10) ^ 2 - 1 + 4 * g.dim) := shipped_damped hs (by norm_num) (by rw [h]; norm_num)

/-! ## Too large a step -/

theorem line_serial : Serial (Conserve.line .periodic .periodic) := by
  refine ⟨⟨by decide, fun _ _ => ?_, by decide⟩, rfl, fun _ _ => Or.inl ⟨rfl, rfl⟩⟩
  show (0 : Int) < 3
  decide

/-- Three nodes on a ring with the values `x`, `-x`, `0`. -/
def wave (x : α) (n : Int) : α := if n = 0 then x else if n = 1 then -x else 0

/-- Three nodes on a ring. -/
abbrev ring3 : Shape := Conserve.line .periodic .periodic

omit [LinearOrder α] [IsStrictOrderedRing α] in
theorem wave_lap (h : α) (x : α) {n : Int} (n0 : 0 ≤ n) (n1 : n < ring3.nodes) : lap ring3 (fun _ => h) (wave x) n = wave (-(3 / h ^ 2 * x)) n := by
  have hn : n = 0 ∨ n = 1 ∨ n = 2 := by have : ring3.nodes = 3 := by decide
                                        omega
  have a1 : nb ring3 0 0 true = 1 := by decide
  have a2 : nb ring3 0 0 false = 2 := by decide
  have b1 : nb ring3 0 1 true = 2 := by decide
  have b2 : nb ring3 0 1 false = 0 := by decide
  have c1 : nb ring3 0 2 true = 0 := by decide
  have c2 : nb ring3 0 2 false = 1 := by decide
  have e : lap ring3 (fun _ => h) (wave x) n = (wave x (nb ring3 0 n true) - 2 * wave x n + wave x (nb ring3 0 n false)) / h ^ 2 := by
    unfold lap; exact sum_range_one _
  rw [e]
  rcases hn with rfl | rfl | rfl
  · rw [a1, a2]; simp [wave]; ring
  · rw [b1, b2]; simp [wave]; ring
  · rw [c1, c2]; simp [wave]

/-- Factor by which a step stretches the wave. -/
def stretch (h c r u k x : α) : α := 1 - c * (3 / h ^ 2) * (u * x ^ 2 - r + k * (3 / h ^ 2))

omit [LinearOrder α] [IsStrictOrderedRing α] in
theorem wave_next (h c r u k x : α) {n : Int} (n0 : 0 ≤ n) (n1 : n < ring3.nodes) : next ring3 (fun _ => h) c r u k (wave x) n = wave (stretch h c r u k x * x) n := by
  have hm : ∀ n, 0 ≤ n → n < ring3.nodes → potential ring3 (fun _ => h) r u k (wave x) n = wave ((u * x ^ 2 - r + k * (3 / h ^ 2)) * x) n := by
    intro n n0 n1
    unfold potential
    rw [wave_lap h x n0 n1]
    unfold wave
    split_ifs <;> ring
  unfold next
  rw [lap_congr line_serial _ hm n0 n1, wave_lap h _ n0 n1]
  unfold wave stretch
  split_ifs <;> ring

omit [LinearOrder α] [IsStrictOrderedRing α] in
theorem wave_energy [CharZero α] (h r u k x : α) : energy ring3 (fun _ => h) r u k (wave x) = (3 / h ^ 2 * k - r) * x ^ 2 + u / 2 * x ^ 4 := by
  have hb : bonds ring3 (fun _ => h) (wave x) (wave x) = 6 / h ^ 2 * x ^ 2 := by
    have := sum_by_parts line_serial (fun _ => h) (wave x) (wave x)
    have e : total ring3 (fun n => wave x n * lap ring3 (fun _ => h) (wave x) n) = total ring3 (fun n => wave x n * wave (-(3 / h ^ 2 * x)) n) :=
      total_congr fun n a b => by rw [wave_lap h x a b]
    rw [e] at this
    have e2 : total ring3 (fun n => wave x n * wave (-(3 / h ^ 2 * x)) n) = -(6 / h ^ 2 * x ^ 2) := by
      unfold total
      rw [show ring3.nodes.toNat = 3 by decide]
      simp [sum_range_succ, wave]; ring
    rw [e2] at this
    exact (neg_injective this).symm
  have ht : total ring3 (fun n => -r / 2 * wave x n ^ 2 + u / 4 * wave x n ^ 4) = -r * x ^ 2 + u / 2 * x ^ 4 := by
    unfold total
    rw [show ring3.nodes.toNat = 3 by decide]
    simp [sum_range_succ, wave]; ring
  unfold energy
  rw [hb, ht]; ring

/-- **C110.** The bound on the values is needed: for every time step, however small, there is an initial field on three nodes from which the energy grows in every pass and the values grow
beyond all bounds. -/
theorem cahnHilliard_diverges {h dt m r u k : α} (hh : h ≠ 0) (hc : 0 < dt * m) (hu : 0 < u) (hk : 0 ≤ k) :
    ∃ s : Fields α, ∃ S : Nat → Fields α, S 0 = s ∧ ∀ n, update ring3 (fun _ => h) (fun _ _ => chPotential r u k) (dt * m) n s = .ok (S n) ∧ 2 ^ n ≤ |(S n).old 0| ∧
      energy ring3 (fun _ => h) r u k (S n).old < energy ring3 (fun _ => h) r u k (S (n + 1)).old := by
  set c := dt * m
  have h3 : 0 < 3 / h ^ 2 := by positivity
  set A : α := 1 + (3 / (c * (3 / h ^ 2)) + |r|) / u with hA
  have hA1 : 1 ≤ A := by have : 0 ≤ (3 / (c * (3 / h ^ 2)) + |r|) / u := by positivity
                         linarith
  have grow : ∀ x, A ≤ |x| → r ≤ u * x ^ 2 ∧ stretch h c r u k x ≤ -2 := by
    intro x hx
    have hxx : |x| ≤ x ^ 2 := by rw [← sq_abs]; nlinarith
    have hu2 : u * A ≤ u * x ^ 2 := mul_le_mul_of_nonneg_left (hx.trans hxx) hu.le
    have hAu : u * A = u + (3 / (c * (3 / h ^ 2)) + |r|) := by rw [hA]; field_simp
    have hr := le_abs_self r
    have h0 : 0 < 3 / (c * (3 / h ^ 2)) := by positivity
    refine ⟨by linarith, ?_⟩
    have h1 : 3 / (c * (3 / h ^ 2)) ≤ u * x ^ 2 - r + k * (3 / h ^ 2) := by have := mul_nonneg hk h3.le; linarith
    have h2 := mul_le_mul_of_nonneg_left h1 (mul_pos hc h3).le
    rw [mul_div_cancel₀ _ (mul_pos hc h3).ne'] at h2
    unfold stretch; linarith
  -- the run
  have run : ∀ n, ∃ t : Fields α, ∃ x : α, update ring3 (fun _ => h) (fun _ _ => chPotential r u k) c n ⟨wave A, wave 0, wave 0⟩ = .ok t ∧ 2 ^ n * A ≤ |x| ∧
      ∀ i, 0 ≤ i → i < ring3.nodes → t.old i = wave x i := by
    intro n
    induction n with
    | zero => exact ⟨_, A, rfl, by rw [abs_of_nonneg (by linarith)]; simp, fun _ _ _ => rfl⟩
    | succ n ih =>
      obtain ⟨t, x, e, hx, ht⟩ := ih
      obtain ⟨t', e', -, ho⟩ := step_exact line_serial (fun _ => h) c r u k t
      have hn1 : (1 : α) ≤ 2 ^ n := one_le_pow₀ (by norm_num)
      have hg := (grow x (by nlinarith)).2
      refine ⟨t', stretch h c r u k x * x, by rw [update, e, Outcome.ok_bind, e'], ?_, fun i i0 i1 => ?_⟩
      · rw [abs_mul, abs_of_neg (by linarith), pow_succ]
        nlinarith [abs_nonneg x]
      · rw [ho i i0 i1, ← wave_next h c r u k x i0 i1]
        unfold next
        rw [ht i i0 i1, lap_congr line_serial _ (b := potential ring3 (fun _ => h) r u k (wave x)) (fun j a b => ?_) i0 i1]
        unfold potential
        rw [ht j a b, lap_congr line_serial _ ht a b]
  choose S X hS hX hSX using run
  refine ⟨_, S, (Outcome.ok.inj (hS 0)).symm, fun n => ⟨hS n, ?_, ?_⟩⟩
  · have h1 : (0 : Int) < ring3.nodes := by decide
    rw [hSX n 0 le_rfl h1]
    have := hX n
    have hn1 : (1 : α) ≤ 2 ^ n := one_le_pow₀ (by norm_num)
    show 2 ^ n ≤ |X n|
    nlinarith
  · have hn1 : (1 : α) ≤ 2 ^ n := one_le_pow₀ (by norm_num)
    obtain ⟨g1, g2⟩ := grow (X n) (by have := hX n; nlinarith)
    have h1 : (0 : Int) < ring3.nodes := by decide
    have hstep : step ring3 (fun _ => h) (fun _ => chPotential r u k) c (S n) = .ok (S (n + 1)) := by have e := hS (n + 1); rwa [update, hS n, Outcome.ok_bind] at e
    obtain ⟨t', e', -, ho⟩ := step_exact line_serial (fun _ => h) c r u k (S n)
    rw [Outcome.ok.inj (hstep.symm.trans e')]
    have hw : ∀ i, 0 ≤ i → i < ring3.nodes → t'.old i = wave (stretch h c r u k (X n) * X n) i := by
      intro i i0 i1
      rw [ho i i0 i1, ← wave_next h c r u k (X n) i0 i1]
      unfold next
      rw [hSX n i i0 i1, lap_congr line_serial _ (b := potential ring3 (fun _ => h) r u k (wave (X n))) (fun j a b => ?_) i0 i1]
      unfold potential
      rw [hSX n j a b, lap_congr line_serial _ (hSX n) a b]
    rw [energy_congr line_serial _ r u k (hSX n), energy_congr line_serial _ r u k hw, wave_energy, wave_energy]
    set q := stretch h c r u k (X n)
    set x := X n
    have hq : 4 ≤ q ^ 2 := by nlinarith
    have hx1 : 0 < x ^ 2 := by
      have : 1 ≤ |x| := by have := hX n; nlinarith
      have : x ≠ 0 := fun h => by rw [h, abs_zero] at this; linarith
      positivity
    have d1 : 0 ≤ 3 / h ^ 2 * k * x ^ 2 * (q ^ 2 - 1) := mul_nonneg (by positivity) (by linarith)
    have d2 : 0 < x ^ 2 * (q ^ 2 - 1) * (u / 2 * x ^ 2 * (q ^ 2 + 1) - r) := by
      refine mul_pos (mul_pos hx1 (by linarith)) ?_
      have := mul_le_mul_of_nonneg_left hq (mul_pos hu hx1).le
      nlinarith [mul_pos hu hx1]
    have : (3 / h ^ 2 * k - r) * (q * x) ^ 2 + u / 2 * (q * x) ^ 4 - ((3 / h ^ 2 * k - r) * x ^ 2 + u / 2 * x ^ 4) =
      3 / h ^ 2 * k * x ^ 2 * (q ^ 2 - 1) + x ^ 2 * (q ^ 2 - 1) * (u / 2 * x ^ 2 * (q ^ 2 + 1) - r) := by ring
    linarith

/-- The constants of the example, a start of energy at most 1 on three nodes: the values stay within `±2`. -/
theorem ring_trapped : Trapped ring3 (fun _ => (1 : ℚ)) (1 / 100 * 1) 1 1 1 2 27 1 := by
  have hw : weight ring3 (fun _ => (1 : ℚ)) = 2 := by unfold weight; norm_num [ring3, Conserve.line]
  have hr : reachOf ring3 (fun _ => (1 : ℚ)) (1 / 100 * 1) 1 1 1 2 = 272 / 100 := by unfold reachOf; rw [hw]; norm_num
  refine ⟨⟨by norm_num, by norm_num, by norm_num, by rw [hw]; norm_num, by norm_num, by rw [hw, hr]; norm_num, by rw [hw]; norm_num⟩, by norm_num, by norm_num, by norm_num, ?_⟩
  rw [show ring3.nodes.toNat = 3 by decide]
  unfold well; norm_num

/-- The field 1/2, -1/2, 0 of such energy: after 1000 passes its potential has come close to a constant. -/
example : ∃ j < 1000, ∃ t, update ring3 (fun _ => (1 : ℚ)) (fun _ _ => chPotential 1 1 1) (1 / 100 * 1) (j + 1) ⟨wave (1 / 2), wave 0, wave 0⟩ = .ok t ∧
    bonds ring3 (fun _ => 1) t.temp t.temp ≤ 2 / 5 := by
  obtain ⟨j, hj, t, e, h⟩ := cahnHilliard_rests line_serial ring_trapped (s := ⟨wave (1 / 2), wave 0, wave 0⟩) (by rw [wave_energy]; norm_num) (n := 1000) (by norm_num)
  refine ⟨j, hj, t, e, ?_⟩
  have hw : weight ring3 (fun _ => (1 : ℚ)) = 2 := by unfold weight; norm_num [ring3, Conserve.line]
  rw [hw, show ring3.nodes.toNat = 3 by decide] at h
  norm_num at h
  linarith

/-- A grid at the constant value 1/2 is at rest. -/
example : ∃ t, update ring3 (fun _ => (1 : ℚ)) (fun _ _ => chPotential 1 1 1) (1 / 100 * 1) 1 ⟨fun _ => 1 / 2, wave 0, wave 0⟩ = .ok t ∧ ∀ n, 0 ≤ n → n < ring3.nodes → t.old n = 1 / 2 := by
  obtain ⟨t, e, -, ho⟩ := step_exact line_serial (fun _ => (1 : ℚ)) (1 / 100 * 1) 1 1 1 ⟨fun _ => 1 / 2, wave 0, wave 0⟩
  have hc : Damped ring3 (fun _ => (1 : ℚ)) (1 / 100 * 1) 1 1 1 1 6 := by
    have := shipped_damped line_serial (B := (1 : ℚ)) le_rfl (by norm_num [Conserve.line])
    norm_num [Conserve.line] at this ⊢
    exact this
  have hw : weight ring3 (fun _ => (1 : ℚ)) = 2 := by unfold weight; norm_num [ring3, Conserve.line]
  have h12 : ∀ n, 0 ≤ n → n < ring3.nodes → t.old n = 1 / 2 := fun n a b => by rw [ho n a b]; norm_num [next, potential, lap]
  exact ⟨t, e, cahnHilliard_stationary line_serial hc (by norm_num) (by rw [hw]; norm_num) (s := ⟨fun _ => 1 / 2, wave 0, wave 0⟩) (fun _ _ _ => by norm_num)
    (fun n a b => by rw [h12 n a b]; norm_num) e (by rw [energy_congr line_serial _ 1 1 1 h12])⟩

end

end MMSP.Explicit
