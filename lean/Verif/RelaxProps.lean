import Verif.Relax
import Verif.DensePFProps
import Verif.ConvexSplitRun
import Mathlib.Tactic.Positivity
import Mathlib.Tactic.Linarith
import Mathlib.Tactic.LinearCombination
/-!
# Properties C66, C67: relaxation and diffusion
-/

namespace MMSP.Relax

open Finset
open Stencil (laplacianNode view)
open DensePF (pass run pass_eq run_inv nbr lapl nbr_mem deref_node cells_eq)
open Conserve (Serial total nb inReach nb_spec axis_sum)
open ConvexSplit (lap bonds sum_by_parts total_lap)

/-! ## One step -/

section
variable {α : Type} [Field α]

theorem laplacianNode_eq {g : Shape} (hg : g.Wf) (h0 : g.ghosts = 0) (hr : SparsePF.Reach .serial g) (dx : Nat → α) (u : Int → α) {i : Int} (hi0 : 0 ≤ i) (hi1 : i < g.nodes) :
    laplacianNode .serial g dx u i = .ok (lapl g dx u i) := by
  have hin := hr i.toNat (by omega)
  rw [Int.toNat_of_nonneg hi0] at hin
  have hv0 : view .serial g u (g.position i) = u i := by
    unfold view
    rw [← Shape.atNode_eq_atVec hg .serial (fun _ => h0) hi0 hi1]; rfl
  unfold laplacianNode
  rw [Stencil.laplacian_eq .serial dx u _ hin, hv0]
  rfl

/-- New value of a node: relaxation down the slope of the energy, plus noise. -/
def next (g : Shape) (dx : Nat → α) (c r u k : α) (noise : Int → α) (phi : Int → α) (i : Int) : α := phi i - c * (u * phi i ^ 3 - r * phi i - k * lapl g dx phi i + noise i)

theorem modelACell_eq {g : Shape} (hg : g.Wf) (h0 : g.ghosts = 0) (hr : SparsePF.Reach .serial g) (dx : Nat → α) (dt m r u k : α) (noise old : Int → α) {i : Int} (hi0 : 0 ≤ i) (hi1 : i < g.nodes) (z : α) :
    modelACell g dx dt m r u k noise old i z = .ok (next g dx (dt * m) r u k noise old i) := by
  unfold modelACell next
  rw [deref_node h0 old hi0 hi1, Outcome.ok_bind, laplacianNode_eq hg h0 hr dx old hi0 hi1, Outcome.ok_bind]
  congr 1; ring

theorem acCell_eq {g : Shape} (hg : g.Wf) (h0 : g.ghosts = 0) (hr : SparsePF.Reach .serial g) (dx : Nat → α) (dt m r u k : α) (old : Int → α) {i : Int} (hi0 : 0 ≤ i) (hi1 : i < g.nodes) (z : α) :
    acCell g dx dt m r u k old i z = .ok (next g dx (dt * m) r u k (fun _ => 0) old i) := by
  unfold acCell next
  rw [deref_node h0 old hi0 hi1, Outcome.ok_bind, laplacianNode_eq hg h0 hr dx old hi0 hi1, Outcome.ok_bind]
  congr 1; ring

theorem heatCell_eq {g : Shape} (hg : g.Wf) (h0 : g.ghosts = 0) (hr : SparsePF.Reach .serial g) (dx : Nat → α) (c : α) (old : Int → α) {i : Int} (hi0 : 0 ≤ i) (hi1 : i < g.nodes) (z : α) :
    heatCell g dx c old i z = .ok (old i + c * lapl g dx old i) := by
  unfold heatCell
  rw [laplacianNode_eq hg h0 hr dx old hi0 hi1, Outcome.ok_bind, deref_node h0 old hi0 hi1, Outcome.ok_bind]
  congr 1; ring

/-- Values kept outside the nodes. -/
def patch (g : Shape) (v new : Int → α) (p : Int) : α := if 0 ≤ p ∧ p < g.nodes then v p else new p

theorem patch_at {g : Shape} (v new : Int → α) {p : Int} (h0 : 0 ≤ p) (h1 : p < g.nodes) : patch g v new p = v p := if_pos ⟨h0, h1⟩

/-- The Allen-Cahn example is model A without noise. -/
theorem acRun_eq {g : Shape} (hg : g.Wf) (h0 : g.ghosts = 0) (hr : SparsePF.Reach .serial g) (dx : Nat → α) (dt m r u k : α) (steps : Nat) (old new : Int → α) :
    acRun g dx dt m r u k steps old new = modelARun g dx dt m r u k (fun _ _ => 0) steps (old, new) ∧ ∃ s, acRun g dx dt m r u k steps old new = .ok s := by
  induction steps with
  | zero => exact ⟨rfl, _, rfl⟩
  | succ n ih =>
    obtain ⟨e, s, hs⟩ := ih
    unfold acRun at hs e ⊢
    rw [run, modelARun, ← e, hs, Outcome.ok_bind, Outcome.ok_bind,
      pass_eq hg h0 _ _ (next g dx (dt * m) r u k (fun _ => 0) s.1) (fun i a b => acCell_eq hg h0 hr dx dt m r u k s.1 a b _),
      pass_eq hg h0 _ _ (next g dx (dt * m) r u k (fun _ => 0) s.1) (fun i a b => modelACell_eq hg h0 hr dx dt m r u k _ s.1 a b _)]
    exact ⟨rfl, _, rfl⟩

end

/-! ## Bounds -/

section
variable {α : Type} [Field α] [LinearOrder α] [IsStrictOrderedRing α]

/-- Weight of a node in its own Laplacian. -/
def weight (g : Shape) (dx : Nat → α) : α := ∑ j ∈ range g.dim, 2 / dx j ^ 2

theorem lapl_between {g : Shape} (h0 : g.ghosts = 0) (hr : SparsePF.Reach .serial g) (dx : Nat → α) {u : Int → α} {lo hi : α} (hu : ∀ p, 0 ≤ p → p < g.nodes → lo ≤ u p ∧ u p ≤ hi)
    {i : Int} (hi0 : 0 ≤ i) (hi1 : i < g.nodes) :
    (lo - u i) * weight g dx ≤ lapl g dx u i ∧ lapl g dx u i ≤ (hi - u i) * weight g dx := by
  have hnn : ∀ j, 0 ≤ 1 / dx j ^ 2 := fun j => by positivity
  unfold lapl weight
  rw [mul_sum, mul_sum]
  constructor
  · refine sum_le_sum fun j hj => ?_
    obtain ⟨a, b⟩ := nbr_mem h0 hr hi0 hi1 (mem_range.1 hj)
    have h1 := (hu _ a.1 a.2).1
    have h2 := (hu _ b.1 b.2).1
    have := mul_nonneg (add_nonneg (sub_nonneg.2 h1) (sub_nonneg.2 h2)) (hnn j)
    have e : (u (nbr g i j 1) - 2 * u i + u (nbr g i j (-1))) / dx j ^ 2 = (lo - u i) * (2 / dx j ^ 2) + (u (nbr g i j 1) - lo + (u (nbr g i j (-1)) - lo)) * (1 / dx j ^ 2) := by ring
    rw [e]; linarith
  · refine sum_le_sum fun j hj => ?_
    obtain ⟨a, b⟩ := nbr_mem h0 hr hi0 hi1 (mem_range.1 hj)
    have h1 := (hu _ a.1 a.2).2
    have h2 := (hu _ b.1 b.2).2
    have := mul_nonneg (add_nonneg (sub_nonneg.2 h1) (sub_nonneg.2 h2)) (hnn j)
    have e : (u (nbr g i j 1) - 2 * u i + u (nbr g i j (-1))) / dx j ^ 2 = (hi - u i) * (2 / dx j ^ 2) - (hi - u (nbr g i j 1) + (hi - u (nbr g i j (-1)))) * (1 / dx j ^ 2) := by ring
    rw [e]; linarith

/-- All values of a grid lie between `lo` and `hi`. -/
def Between (g : Shape) (lo hi : α) (data : Int → α) : Prop := ∀ p, 0 ≤ p → p < g.nodes → lo ≤ data p ∧ data p ≤ hi

/-- Parameters for which the values stay between `-R` and `R` when the noise stays between `-b` and `b`: the potential turns back at `R`, and the time step is small enough. -/
structure Confined (g : Shape) (dx : Nat → α) (c r u k b R : α) : Prop where
  c0 : 0 ≤ c
  u0 : 0 ≤ u
  k0 : 0 ≤ k
  turn : r * R + b ≤ u * R ^ 3
  small : c * (k * weight g dx + 3 * u * R ^ 2 - r) ≤ 1

theorem confined_step {c r u k w b R phi l n : α} (c0 : 0 ≤ c) (u0 : 0 ≤ u) (k0 : 0 ≤ k) (turn : r * R + b ≤ u * R ^ 3) (small : c * (k * w + 3 * u * R ^ 2 - r) ≤ 1)
    (h1 : -R ≤ phi) (h2 : phi ≤ R) (hl : l ≤ (R - phi) * w) (hn : -b ≤ n) : phi - c * (u * phi ^ 3 - r * phi - k * l + n) ≤ R := by
  have a1 : 0 ≤ c * (k * ((R - phi) * w - l)) := mul_nonneg c0 (mul_nonneg k0 (sub_nonneg.2 hl))
  have a2 : 0 ≤ c * (u * R ^ 3 - r * R - b) := mul_nonneg c0 (by linarith)
  have a3 : 0 ≤ c * (n + b) := mul_nonneg c0 (by linarith)
  have a4 : 0 ≤ (R - phi) * (1 - c * (k * w + 3 * u * R ^ 2 - r)) := mul_nonneg (by linarith) (by linarith)
  have a5 : 0 ≤ c * u * ((R - phi) * ((R - phi) * (2 * R + phi))) := by
    refine mul_nonneg (mul_nonneg c0 u0) (mul_nonneg (by linarith) (mul_nonneg (by linarith) ?_))
    linarith
  have e : R - (phi - c * (u * phi ^ 3 - r * phi - k * l + n)) = c * (k * ((R - phi) * w - l)) + c * (u * R ^ 3 - r * R - b) + c * (n + b) +
      (R - phi) * (1 - c * (k * w + 3 * u * R ^ 2 - r)) + c * u * ((R - phi) * ((R - phi) * (2 * R + phi))) := by ring
  linarith

theorem next_between {g : Shape} (h0 : g.ghosts = 0) (hr : SparsePF.Reach .serial g) {dx : Nat → α} {c r u k b R : α} (hc : Confined g dx c r u k b R) {noise phi : Int → α}
    (hn : Between g (-b) b noise) (hp : Between g (-R) R phi) : Between g (-R) R (next g dx c r u k noise phi) := by
  intro i i0 i1
  obtain ⟨l1, l2⟩ := lapl_between h0 hr dx hp i0 i1
  obtain ⟨p1, p2⟩ := hp i i0 i1
  obtain ⟨n1, n2⟩ := hn i i0 i1
  refine ⟨?_, confined_step hc.c0 hc.u0 hc.k0 hc.turn hc.small p1 p2 l2 n1⟩
  have := confined_step (phi := -phi i) (l := -lapl g dx phi i) (n := -noise i) hc.c0 hc.u0 hc.k0 hc.turn hc.small (by linarith) (by linarith) (by linarith) (by linarith)
  have e : next g dx c r u k noise phi i = -(-phi i - c * (u * (-phi i) ^ 3 - r * -phi i - k * -lapl g dx phi i + -noise i)) := by unfold next; ring
  rw [e]; linarith

/-- **C66.** The values of model A never leave `[-R, R]`, for any number of steps and any noise within its bounds. -/
theorem modelA_bounded {g : Shape} (hg : g.Wf) (h0 : g.ghosts = 0) (hr : SparsePF.Reach .serial g) {dx : Nat → α} {dt m r u k b R : α} (hc : Confined g dx (dt * m) r u k b R)
    {noise : Nat → Int → α} (hn : ∀ t, Between g (-b) b (noise t)) (steps : Nat) {old new : Int → α} (hp : Between g (-R) R old) :
    ∃ s, modelARun g dx dt m r u k noise steps (old, new) = .ok s ∧ Between g (-R) R s.1 := by
  induction steps with
  | zero => exact ⟨_, rfl, hp⟩
  | succ n ih =>
    obtain ⟨s, e, hs⟩ := ih
    refine ⟨(patch g (next g dx (dt * m) r u k (noise n) s.1) s.2, s.1), ?_, fun p a b => ?_⟩
    · rw [modelARun, e, Outcome.ok_bind, pass_eq hg h0 _ _ (next g dx (dt * m) r u k (noise n) s.1) (fun i a b => modelACell_eq hg h0 hr dx dt m r u k _ s.1 a b _)]
      rfl
    · dsimp only
      rw [patch_at _ _ a b]
      exact next_between h0 hr hc (hn n) hs p a b

/-- **C66.** The values of the Allen-Cahn example never leave `[-R, R]`. -/
theorem allenCahn_bounded {g : Shape} (hg : g.Wf) (h0 : g.ghosts = 0) (hr : SparsePF.Reach .serial g) {dx : Nat → α} {dt m r u k R : α} (hc : Confined g dx (dt * m) r u k 0 R)
    (steps : Nat) {old new : Int → α} (hp : Between g (-R) R old) : ∃ s, acRun g dx dt m r u k steps old new = .ok s ∧ Between g (-R) R s.1 := by
  rw [(acRun_eq hg h0 hr dx dt m r u k steps old new).1]
  exact modelA_bounded hg h0 hr hc (fun _ _ _ _ => ⟨by simp, le_refl _⟩) steps hp

/-! ## Energy -/

theorem reach_of_serial {g : Shape} (hs : Serial g) : SparsePF.Reach .serial g := fun i hi => inReach hs (by omega) (by omega)

omit [LinearOrder α] [IsStrictOrderedRing α] in
theorem lapl_eq_lap (g : Shape) (dx : Nat → α) (u : Int → α) (i : Int) : lapl g dx u i = lap g dx u i := rfl

/-- Free energy: `-r/2 phi² + u/4 phi⁴` over the nodes, and `K/2` times the squared difference quotients between neighbours. -/
def energy (g : Shape) (dx : Nat → α) (r u k : α) (phi : Int → α) : α := total g (fun n => -r / 2 * phi n ^ 2 + u / 4 * phi n ^ 4) + k / 2 * bonds g dx phi phi

omit [LinearOrder α] [IsStrictOrderedRing α] in
theorem bonds_expand [CharZero α] (g : Shape) (dx : Nat → α) (a e : Int → α) : bonds g dx (fun n => a n + e n) (fun n => a n + e n) = bonds g dx a a + 2 * bonds g dx e a + bonds g dx e e := by
  unfold bonds
  rw [mul_sum, ← sum_add_distrib, ← sum_add_distrib]
  refine sum_congr rfl fun i _ => ?_
  rw [← mul_div_assoc, ← add_div, ← add_div]
  congr 1
  rw [mul_sum, ← sum_add_distrib, ← sum_add_distrib]
  exact sum_congr rfl fun n _ => by ring

theorem bonds_le {g : Shape} (hs : Serial g) (dx : Nat → α) (e : Int → α) : bonds g dx e e ≤ 2 * weight g dx * total g (fun n => e n ^ 2) := by
  unfold bonds weight
  rw [mul_sum, sum_mul]
  refine sum_le_sum fun i hi => ?_
  have h := axis_sum hs (fun n => e n ^ 2) (mem_range.1 hi)
  have h2 : ∑ n ∈ range g.nodes.toNat, ((e (nb g i n true) - e n) * (e (nb g i n true) - e n) + (e (nb g i n false) - e n) * (e (nb g i n false) - e n)) / 2 ≤
      4 * total g (fun n => e n ^ 2) := by
    calc _ ≤ ∑ n ∈ range g.nodes.toNat, ((e (nb g i n true) ^ 2 + e (nb g i n false) ^ 2) + 2 * e n ^ 2) := by
          refine sum_le_sum fun n _ => ?_
          nlinarith [sq_nonneg (e (nb g i n true) + e n), sq_nonneg (e (nb g i n false) + e n)]
      _ = 4 * total g (fun n => e n ^ 2) := by
          rw [sum_add_distrib, h, ← mul_sum]; unfold total; ring
  have := mul_le_mul_of_nonneg_right h2 (by positivity : 0 ≤ 1 / dx i ^ 2)
  calc _ = (∑ n ∈ range g.nodes.toNat, ((e (nb g i n true) - e n) * (e (nb g i n true) - e n) + (e (nb g i n false) - e n) * (e (nb g i n false) - e n)) / 2) * (1 / dx i ^ 2) := by ring
    _ ≤ _ := this
    _ = _ := by ring

omit [LinearOrder α] [IsStrictOrderedRing α] in
theorem total_congr {g : Shape} {a b : Int → α} (h : ∀ n, 0 ≤ n → n < g.nodes → a n = b n) : total g a = total g b :=
  sum_congr rfl fun n hn => h n (by omega) (by have := mem_range.1 hn; omega)

omit [LinearOrder α] [IsStrictOrderedRing α] in
theorem bonds_congr {g : Shape} (hs : Serial g) (dx : Nat → α) {a b : Int → α} (h : ∀ n, 0 ≤ n → n < g.nodes → a n = b n) : bonds g dx a a = bonds g dx b b := by
  unfold bonds
  refine sum_congr rfl fun i hi => ?_
  congr 1
  refine sum_congr rfl fun n hn => ?_
  have hn1 : (n : Int) < g.nodes := by have := mem_range.1 hn; omega
  have s := fun up => nb_spec hs (mem_range.1 hi) (by omega : (0 : Int) ≤ n) hn1 up
  rw [h _ (s true).1 (s true).2.1, h _ (s false).1 (s false).2.1, h n (by omega) hn1]

omit [LinearOrder α] [IsStrictOrderedRing α] in
theorem energy_congr {g : Shape} (hs : Serial g) (dx : Nat → α) (r u k : α) {a b : Int → α} (h : ∀ n, 0 ≤ n → n < g.nodes → a n = b n) : energy g dx r u k a = energy g dx r u k b := by
  unfold energy
  rw [bonds_congr hs dx h, total_congr fun n a b => by rw [h n a b]]

/-- One noiseless step lowers the energy by at least `u R²` times the squared change. -/
theorem next_energy {g : Shape} (hs : Serial g) {dx : Nat → α} {c r u k R : α} (hc : Confined g dx c r u k 0 R) (hcp : 0 < c) (hR : 0 < R) {phi : Int → α} (hp : Between g (-R) R phi) :
    energy g dx r u k (next g dx c r u k (fun _ => 0) phi) + u * R ^ 2 * total g (fun n => (next g dx c r u k (fun _ => 0) phi n - phi n) ^ 2) ≤ energy g dx r u k phi := by
  have hq := next_between hs.ghosts (reach_of_serial hs) hc (noise := fun _ => 0) (fun _ _ _ => ⟨by simp, le_refl _⟩) hp
  set q := next g dx c r u k (fun _ => 0) phi with hqd
  let e : Int → α := fun n => q n - phi n
  have he : ∀ n, q n = phi n + e n := fun n => by simp only [e]; ring
  have hru : r ≤ u * R ^ 2 := by
    have := hc.turn
    nlinarith
  -- bulk part
  have h1 : total g (fun n => -r / 2 * q n ^ 2 + u / 4 * q n ^ 4) ≤
      total g (fun n => -r / 2 * phi n ^ 2 + u / 4 * phi n ^ 4) + total g (fun n => e n * (u * phi n ^ 3 - r * phi n)) + (3 * u * R ^ 2 - r) / 2 * total g (fun n => e n ^ 2) := by
    unfold total
    rw [mul_sum, ← sum_add_distrib, ← sum_add_distrib]
    refine sum_le_sum fun n hn => ?_
    have hn1 : (n : Int) < g.nodes := by have := mem_range.1 hn; omega
    obtain ⟨p1, p2⟩ := hp n (by omega) hn1
    obtain ⟨q1, q2⟩ := hq n (by omega) hn1
    have hs1 : phi n ^ 2 ≤ R ^ 2 := by nlinarith
    have hs2 : q n ^ 2 ≤ R ^ 2 := by nlinarith
    have hs3 : q n ^ 2 + 2 * phi n * q n + 3 * phi n ^ 2 ≤ 6 * R ^ 2 := by nlinarith [sq_nonneg (q n - phi n)]
    have hs4 := mul_nonneg (mul_nonneg hc.u0 (sq_nonneg (e n))) (sub_nonneg.2 hs3)
    have ex : -r / 2 * q n ^ 2 + u / 4 * q n ^ 4 = -r / 2 * phi n ^ 2 + u / 4 * phi n ^ 4 + e n * (u * phi n ^ 3 - r * phi n) + (3 * u * R ^ 2 - r) / 2 * e n ^ 2
        - u * e n ^ 2 * (6 * R ^ 2 - (q n ^ 2 + 2 * phi n * q n + 3 * phi n ^ 2)) / 4 := by
      simp only [e]; ring
    beta_reduce
    rw [ex]; linarith
  -- gradient part
  have h2 : bonds g dx q q = bonds g dx phi phi - 2 * total g (fun n => e n * lap g dx phi n) + bonds g dx e e := by
    have : q = fun n => phi n + e n := funext he
    rw [this, bonds_expand, sum_by_parts hs dx e phi]; ring
  have h3 := bonds_le hs dx e
  -- the step
  have h4 : c * total g (fun n => e n * (u * phi n ^ 3 - r * phi n)) - c * k * total g (fun n => e n * lap g dx phi n) = -total g (fun n => e n ^ 2) := by
    unfold total
    rw [mul_sum, mul_sum, ← sum_sub_distrib, ← sum_neg_distrib]
    refine sum_congr rfl fun n _ => ?_
    have : e n = -c * (u * phi n ^ 3 - r * phi n - k * lap g dx phi n) := by simp only [e, hqd, next, lapl_eq_lap]; ring
    linear_combination e n * this
  set S := total g (fun n => e n ^ 2) with hS
  have hS0 : 0 ≤ S := sum_nonneg fun n _ => sq_nonneg _
  set A := total g (fun n => e n * (u * phi n ^ 3 - r * phi n))
  set B := total g (fun n => e n * lap g dx phi n)
  have hb := mul_le_mul_of_nonneg_left h3 (mul_nonneg hcp.le hc.k0)
  have hsm := hc.small
  have goal : c * (energy g dx r u k q + u * R ^ 2 * S) ≤ c * energy g dx r u k phi := by
    have hsm' := mul_nonneg (sub_nonneg.2 hsm) hS0
    have hru' := mul_nonneg (mul_nonneg hcp.le hS0) (sub_nonneg.2 hru)
    have h1' := mul_le_mul_of_nonneg_left h1 hcp.le
    unfold energy
    rw [h2]
    nlinarith
  exact le_of_mul_le_mul_left goal hcp

/-- **C66.** On a closed grid the energy never increases from step to step, and it falls by at least `u R²` times the squared change of the grid. -/
theorem allenCahn_energy {g : Shape} (hs : Serial g) {dx : Nat → α} {dt m r u k R : α} (hc : Confined g dx (dt * m) r u k 0 R) (hcp : 0 < dt * m) (hR : 0 < R)
    (steps : Nat) {old new : Int → α} (hp : Between g (-R) R old) :
    ∃ s t, acRun g dx dt m r u k steps old new = .ok s ∧ acRun g dx dt m r u k (steps + 1) old new = .ok t ∧
      energy g dx r u k t.1 + u * R ^ 2 * total g (fun n => (t.1 n - s.1 n) ^ 2) ≤ energy g dx r u k s.1 := by
  have hr := reach_of_serial hs
  obtain ⟨s, e, hb⟩ := allenCahn_bounded hs.wf hs.ghosts hr hc steps hp (new := new)
  refine ⟨s, (patch g (next g dx (dt * m) r u k (fun _ => 0) s.1) s.2, s.1), e, ?_, ?_⟩
  · unfold acRun at e ⊢
    rw [run, e, Outcome.ok_bind, pass_eq hs.wf hs.ghosts _ _ (next g dx (dt * m) r u k (fun _ => 0) s.1) (fun i a b => acCell_eq hs.wf hs.ghosts hr dx dt m r u k s.1 a b _)]
    rfl
  · rw [energy_congr hs dx r u k (fun n a b => patch_at _ _ a b), total_congr (b := fun n => (next g dx (dt * m) r u k (fun _ => 0) s.1 n - s.1 n) ^ 2) fun n a b => by dsimp only; rw [patch_at _ _ a b]]
    exact next_energy hs hc hcp hR hb

/-- **C66.** A step that does not lower the energy leaves every node as it is. -/
theorem allenCahn_stationary {g : Shape} (hs : Serial g) {dx : Nat → α} {dt m r u k R : α} (hc : Confined g dx (dt * m) r u k 0 R) (hcp : 0 < dt * m) (hR : 0 < R) (hu : 0 < u)
    {old new : Int → α} (hp : Between g (-R) R old) {t : (Int → α) × (Int → α)} (ht : acRun g dx dt m r u k 1 old new = .ok t) (he : energy g dx r u k old ≤ energy g dx r u k t.1) :
    ∀ n, 0 ≤ n → n < g.nodes → t.1 n = old n := by
  obtain ⟨s, t', e1, e2, h⟩ := allenCahn_energy hs hc hcp hR 0 hp (new := new)
  have hs' : s = (old, new) := (Outcome.ok.inj e1).symm
  have ht' : t' = t := Outcome.ok.inj (e2.symm.trans ht)
  subst hs' ht'
  have hz : total g (fun n => (t'.1 n - old n) ^ 2) ≤ 0 := by
    have : 0 < u * R ^ 2 := by positivity
    dsimp only at h
    by_contra hcon
    have := mul_pos this (not_le.1 hcon)
    linarith
  intro n n0 n1
  have := (sum_eq_zero_iff_of_nonneg (fun (i : Nat) _ => sq_nonneg (t'.1 i - old i))).1 (le_antisymm hz (sum_nonneg fun i _ => sq_nonneg _)) n.toNat (by rw [mem_range]; omega)
  rw [Int.toNat_of_nonneg n0] at this
  have := pow_eq_zero_iff (two_ne_zero) |>.1 this
  linarith

/-! ## Diffusion in any dimension -/

/-- **C67.** With a small enough factor the values stay between their initial bounds. -/
theorem heat_between {g : Shape} (hg : g.Wf) (h0 : g.ghosts = 0) (hr : SparsePF.Reach .serial g) {dx : Nat → α} {c : α} (c0 : 0 ≤ c) (c1 : c * weight g dx ≤ 1)
    (steps : Nat) {old new : Int → α} {lo hi : α} (hp : Between g lo hi old) : ∃ s, heatRun g dx c steps old new = .ok s ∧ Between g lo hi s.1 := by
  obtain ⟨s, e, h, -⟩ := run_inv hg h0 (heatCell g dx c) (Between g lo hi) (fun _ => True) (fun _ _ => trivial) (fun old new ho _ =>
    ⟨fun i => old i + c * lapl g dx old i, fun i a b => heatCell_eq hg h0 hr dx c old a b _, fun p a b => by
      beta_reduce
      rw [if_pos ⟨a, b⟩]
      obtain ⟨l1, l2⟩ := lapl_between h0 hr dx ho a b
      obtain ⟨p1, p2⟩ := ho p a b
      have m1 := mul_le_mul_of_nonneg_left l1 c0
      have m2 := mul_le_mul_of_nonneg_left l2 c0
      have n1 := mul_nonneg (sub_nonneg.2 p1) (sub_nonneg.2 c1)
      have n2 := mul_nonneg (sub_nonneg.2 p2) (sub_nonneg.2 c1)
      constructor <;> linarith⟩) steps old new hp trivial
  exact ⟨s, e, h⟩

omit [LinearOrder α] [IsStrictOrderedRing α] in
/-- **C67.** On a closed grid, in particular with the `Dirichlet` flags of the example, no heat is lost or gained. -/
theorem heat_conserves {g : Shape} (hs : Serial g) (dx : Nat → α) (c : α) (steps : Nat) (old new : Int → α) :
    ∃ s, heatRun g dx c steps old new = .ok s ∧ total g s.1 = total g old := by
  obtain ⟨s, e, h, -⟩ := run_inv hs.wf hs.ghosts (heatCell g dx c) (fun d => total g d = total g old) (fun _ => True) (fun _ _ => trivial) (fun old' new ho _ =>
    ⟨fun i => old' i + c * lapl g dx old' i, fun i a b => heatCell_eq hs.wf hs.ghosts (reach_of_serial hs) dx c old' a b _, by
      rw [← ho, total_congr (b := fun i => old' i + c * lap g dx old' i) fun n a b => by rw [if_pos ⟨a, b⟩]; rfl]
      have := total_lap hs dx old'
      unfold total at this ⊢
      rw [sum_add_distrib, ← mul_sum, this, mul_zero, add_zero]⟩) steps old new rfl trivial
  exact ⟨s, e, h⟩

end

theorem square_serial {n : Int} (hn : 0 < n) : Serial (square n) :=
  ⟨⟨Nat.zero_lt_two, fun _ _ => hn, le_refl (0 : Int)⟩, rfl, fun _ _ => Or.inr ⟨Or.inr rfl, Or.inr rfl⟩⟩

/-! ## Diffusion in one dimension -/

section
variable {α : Type} [Field α]

/-- One step of the explicit scheme with fixed ends; `k` is the diffusion number. -/
def heat1 (nx : Int) (k : α) (u : Int → α) (x : Int) : α := if 0 < x ∧ x < nx - 1 then u x + k * (u (x - 1) - 2 * u x + u (x + 1)) else u x

theorem line_nodes (b : BC) (nx : Int) : (line b nx).nodes = nx := by simp [Shape.nodes, Shape.xx, slice, line]
theorem line_cells (b : BC) (nx : Int) : (line b nx).cells = nx := by simp [Shape.cells, Shape.sx, slice, line, Shape.s0, Shape.s1]
theorem line_wf (b : BC) {nx : Int} (h : 0 < nx) : (line b nx).Wf := ⟨Nat.zero_lt_one, fun _ _ => h, le_refl (0 : Int)⟩
theorem line_position (b : BC) (nx i : Int) : (line b nx).position i 0 = i := by simp [Shape.position, digit, digitRest, Shape.xx, slice, line]

theorem line_sub (b : BC) {nx x : Int} (h0 : 0 ≤ x) (h1 : x < nx) : (line b nx).atSub .serial [x] = x := by
  have : checkBoundary .serial x 0 nx b b = x := checkBoundary_inside .serial x 0 nx b b ⟨h0, h1⟩
  simp [Shape.atSub, Shape.targetSub, line, Shape.sx, slice, Shape.s0, this]

theorem line_sub_end {nx : Int} (h : 0 < nx) : (line .dirichlet nx).atSub .serial [nx] = nx - 1 := by
  simp only [Shape.atSub, Shape.targetSub, line, Shape.sx, slice, Shape.s0, checkBoundary]
  simp; omega

omit [Field α] in
theorem line_deref (b : BC) {nx x : Int} (h0 : 0 ≤ x) (h1 : x < nx) (u : Int → α) : sub (line b nx) u x = .ok (u x) := by
  unfold sub; rw [line_sub b h0 h1]; unfold deref; exact if_pos ⟨h0, by rw [line_cells]; exact h1⟩

omit [Field α] in
theorem line_store (b : BC) {nx x : Int} (h0 : 0 ≤ x) (h1 : x < nx) (u : Int → α) (v : α) : store (line b nx) u x v = .ok (Function.update u x v) := by
  unfold store; exact if_pos ⟨h0, by rw [line_cells]; exact h1⟩

theorem firstPass_eq (nx : Int) (dx c : α) (old new : Int → α) :
    firstPass nx dx c old new = .ok fun p => if 0 < p ∧ p < nx - 1 then heat1 nx (c / (dx * dx)) old p else new p := by
  have key : ∀ k : Nat, (k : Int) ≤ max nx 0 → (List.range k).foldlM (fun new (n : Nat) =>
    let x := (line .periodic nx).x0 0 + n
    if x = 0 ∨ x = nx - 1 then .ok new
    else
      (sub (line .periodic nx) old (x - 1)).bind fun a => (sub (line .periodic nx) old x).bind fun b => (sub (line .periodic nx) old (x + 1)).bind fun d =>
      store (line .periodic nx) new ((line .periodic nx).atSub .serial [x]) (c * ((a - 2 * b + d) / (dx * dx)) + b)) new =
      .ok fun p => if 0 < p ∧ p < nx - 1 ∧ p < k then heat1 nx (c / (dx * dx)) old p else new p := by
    intro k
    induction k with
    | zero =>
      intro _
      rw [List.range_zero, List.foldlM_nil]
      show Outcome.ok new = _
      congr 1; funext p; rw [if_neg (by omega)]
    | succ k ih =>
      intro hk
      rw [List.range_succ, List.foldlM_append, ih (by omega)]
      have hx : (line .periodic nx).x0 0 + (k : Int) = k := by simp [line]
      simp only [List.foldlM_cons, List.foldlM_nil, Outcome.bind_eq, Outcome.ok_bind, Outcome.pure_eq, hx]
      by_cases he : (k : Int) = 0 ∨ (k : Int) = nx - 1
      · rw [if_pos he, Outcome.ok_bind]
        congr 1; funext p
        by_cases hp : 0 < p ∧ p < nx - 1 ∧ p < (k : Int)
        · rw [if_pos hp, if_pos (by push_cast; omega)]
        · rw [if_neg hp, if_neg (by push_cast; omega)]
      · rw [if_neg he, line_deref _ (by omega) (by omega), Outcome.ok_bind, line_deref _ (by omega) (by omega), Outcome.ok_bind, line_deref _ (by omega) (by omega), Outcome.ok_bind,
          line_sub _ (by omega) (by omega), line_store _ (by omega) (by omega), Outcome.ok_bind]
        congr 1; funext p
        by_cases hpk : p = k
        · subst hpk
          rw [Function.update_self, if_pos (by push_cast; omega)]
          unfold heat1
          rw [if_pos (by omega)]
          ring
        · rw [Function.update_of_ne hpk]
          by_cases hp : 0 < p ∧ p < nx - 1 ∧ p < (k : Int)
          · rw [if_pos hp, if_pos (by push_cast; omega)]
          · rw [if_neg hp, if_neg (by push_cast; omega)]
  unfold firstPass
  dsimp only
  have hl : ((line .periodic nx).x1 0 - (line .periodic nx).x0 0).toNat = nx.toNat := by simp [line]
  rw [hl, key _ (by omega)]
  congr 1; funext p
  by_cases hp : 0 < p ∧ p < nx - 1
  · rw [if_pos hp, if_pos (by omega)]
  · rw [if_neg hp, if_neg (by omega)]

theorem heat1_end {nx : Int} (k : α) (u : Int → α) {x : Int} (h : ¬(0 < x ∧ x < nx - 1)) : heat1 nx k u x = u x := if_neg h

theorem iterate_end {nx : Int} (k : α) (u : Int → α) {x : Int} (h : ¬(0 < x ∧ x < nx - 1)) (n : Nat) : (heat1 nx k)^[n] u x = u x := by
  induction n with
  | zero => rfl
  | succ n ih => rw [Function.iterate_succ_apply', heat1_end k _ h, ih]

theorem heat1_congr {nx : Int} (k : α) {u v : Int → α} (h : ∀ x, 0 ≤ x → x < nx → u x = v x) {x : Int} (h0 : 0 ≤ x) (h1 : x < nx) : heat1 nx k u x = heat1 nx k v x := by
  unfold heat1
  split_ifs with hc
  · rw [h _ h0 h1, h (x - 1) (by omega) (by omega), h (x + 1) (by omega) (by omega)]
  · exact h _ h0 h1

/-- **C67.** After `n` iterations `1stDiffusion` prints the result of `n` explicit steps with fixed ends. -/
theorem first_correct (nx : Int) (dx c : α) (n : Nat) : ∃ s, firstRun nx dx c n = .ok s ∧ s.1 = (heat1 nx (c / (dx * dx)))^[n] (half nx) := by
  suffices h : ∃ s, firstRun nx dx c n = .ok s ∧ s.1 = (heat1 nx (c / (dx * dx)))^[n] (half nx) ∧ ∀ x, ¬(0 < x ∧ x < nx - 1) → s.2 x = half nx x by
    obtain ⟨s, a, b, -⟩ := h; exact ⟨s, a, b⟩
  induction n with
  | zero => exact ⟨_, rfl, rfl, fun _ _ => rfl⟩
  | succ n ih =>
    obtain ⟨s, e, h1, h2⟩ := ih
    refine ⟨(fun p => if 0 < p ∧ p < nx - 1 then heat1 nx (c / (dx * dx)) s.1 p else s.2 p, s.1), ?_, ?_, ?_⟩
    · rw [firstRun, e, Outcome.ok_bind, firstPass_eq, Outcome.ok_bind]
    · dsimp only
      rw [Function.iterate_succ_apply', ← h1]
      funext p
      by_cases hp : 0 < p ∧ p < nx - 1
      · rw [if_pos hp]
      · rw [if_neg hp, h2 p hp, heat1_end _ _ hp, h1, iterate_end _ _ hp]
    · intro x hx
      dsimp only
      rw [h1, iterate_end _ _ hx]

/-- The values of `oldGrid` after the ends have been reset. -/
def reset (nx : Int) (u : Int → α) : Int → α := Function.update (Function.update u 0 1) (nx - 1) 0

theorem reset_reset (nx : Int) (u : Int → α) : reset nx (reset nx u) = reset nx u := by
  unfold reset
  funext p
  by_cases h : p = nx - 1
  · subst h; simp
  · rw [Function.update_of_ne h, Function.update_of_ne h]
    by_cases h' : p = 0
    · subst h'; simp
    · rw [Function.update_of_ne h', Function.update_of_ne h, Function.update_of_ne h']

theorem line_reach (nx : Int) (h : 0 < nx) : SparsePF.Reach .serial (line .dirichlet nx) :=
  reach_of_serial ⟨line_wf _ h, rfl, fun _ _ => Or.inr ⟨Or.inr rfl, Or.inr rfl⟩⟩

theorem line_lapl {nx i : Int} (dx : α) (u : Int → α) (h0 : 0 < i) (h1 : i < nx - 1) :
    lapl (line .dirichlet nx) (fun _ => dx) u i = (u (i - 1) - 2 * u i + u (i + 1)) / (dx * dx) := by
  have hn : ∀ k : Int, 0 ≤ i + k → i + k < nx → nbr (line .dirichlet nx) i 0 k = i + k := by
    intro k a b
    have h : checkBoundary .serial (i + k) 0 nx .dirichlet .dirichlet = i + k := checkBoundary_inside .serial _ 0 nx _ _ ⟨a, b⟩
    have hp := line_position .dirichlet nx i
    unfold nbr Shape.atVec
    simp [line, Stencil.bump, Shape.sx, slice, Shape.s0] at hp ⊢
    rw [hp, h]
  unfold lapl
  simp only [show (line .dirichlet nx).dim = 1 from rfl, sum_range_one]
  rw [hn 1 (by omega) (by omega), hn (-1) (by omega) (by omega)]
  rw [show i + -1 = i - 1 by ring]
  ring

theorem secondPass_eq {nx : Int} (hx : 2 ≤ nx) (dx c : α) (old new : Int → α) :
    ∃ out, secondPass nx dx c (old, new) = .ok (reset nx old, out) ∧ ∀ p, 0 < p → p < nx - 1 → out p = heat1 nx (c / (dx * dx)) (reset nx old) p := by
  let body : (Int → α) × (Int → α) → Nat → Outcome ((Int → α) × (Int → α)) := fun s i =>
    (laplacianNode .serial (line .dirichlet nx) (fun _ => dx) s.1 i).bind fun l =>
    (sub (line .dirichlet nx) s.1 i).bind fun b =>
    (store (line .dirichlet nx) s.2 ((line .dirichlet nx).atNode .serial i) (c * l + b)).bind fun new =>
    (store (line .dirichlet nx) s.1 ((line .dirichlet nx).atSub .serial [(line .dirichlet nx).x0 0]) 1).bind fun old =>
    (store (line .dirichlet nx) old ((line .dirichlet nx).atSub .serial [(line .dirichlet nx).x1 0]) 0).bind fun old => .ok (old, new)
  have hbody : ∀ (s : (Int → α) × (Int → α)) (i : Nat), (i : Int) < nx →
      body s i = .ok (reset nx s.1, Function.update s.2 i (c * lapl (line .dirichlet nx) (fun _ => dx) s.1 i + s.1 i)) := by
    intro s i hi
    have ex0 : (line .dirichlet nx).x0 0 = 0 := rfl
    have ex1 : (line .dirichlet nx).x1 0 = nx := rfl
    have ean : (line .dirichlet nx).atNode .serial i = i := rfl
    simp only [body, ex0, ex1, ean]
    rw [laplacianNode_eq (line_wf _ (by omega)) rfl (line_reach nx (by omega)) _ _ (by omega) (by rw [line_nodes]; omega), Outcome.ok_bind,
      line_deref _ (by omega) hi, Outcome.ok_bind, line_store _ (by omega) hi, Outcome.ok_bind, line_sub _ (by omega) (by omega), line_store _ (by omega) (by omega), Outcome.ok_bind,
      line_sub_end (by omega), line_store _ (by omega) (by omega), Outcome.ok_bind]
    rfl
  have key : ∀ k : Nat, (k : Int) + 1 ≤ nx → ∃ out, (List.range (k + 1)).foldlM body (old, new) = .ok (reset nx old, out) ∧
      ∀ p, 0 < p → p < nx - 1 → p < (k : Int) + 1 → out p = heat1 nx (c / (dx * dx)) (reset nx old) p := by
    intro k
    induction k with
    | zero =>
      intro _
      refine ⟨Function.update new ((0 : Nat) : Int) (c * lapl (line .dirichlet nx) (fun _ => dx) old ((0 : Nat) : Int) + old ((0 : Nat) : Int)), ?_, ?_⟩
      · rw [List.range_one, List.foldlM_cons, hbody _ _ (by omega)]
        rfl
      · intro p h0 h1 h2; omega
    | succ k ih =>
      intro hk
      obtain ⟨out, e, h⟩ := ih (by push_cast at hk; omega)
      refine ⟨Function.update out ((k + 1 : Nat) : Int) (c * lapl (line .dirichlet nx) (fun _ => dx) (reset nx old) ((k + 1 : Nat) : Int) + reset nx old ((k + 1 : Nat) : Int)), ?_, ?_⟩
      · rw [List.range_succ, List.foldlM_append, e, Outcome.bind_eq, Outcome.ok_bind, List.foldlM_cons, hbody _ _ (by omega), Outcome.bind_eq, Outcome.ok_bind, List.foldlM_nil]
        dsimp only
        rw [reset_reset]
        rfl
      · intro p h0 h1 h2
        by_cases hp : p = ((k + 1 : Nat) : Int)
        · subst hp
          rw [Function.update_self, line_lapl _ _ h0 h1]
          unfold heat1
          rw [if_pos ⟨h0, h1⟩]
          ring
        · rw [Function.update_of_ne hp]
          exact h p h0 h1 (by push_cast at h2 hp; omega)
  obtain ⟨out, e, h⟩ := key (nx - 1).toNat (by omega)
  refine ⟨out, ?_, fun p h0 h1 => h p h0 h1 (by omega)⟩
  rw [← e]
  unfold secondPass
  dsimp only
  have : (line .dirichlet nx).nodes.toNat = (nx - 1).toNat + 1 := by rw [line_nodes]; omega
  rw [this]

theorem half_ends {nx : Int} (hx : 2 ≤ nx) : (half nx 0 : α) = 1 ∧ (half nx (nx - 1) : α) = 0 := by
  unfold half
  have : Int.tdiv nx 2 = nx / 2 := Int.tdiv_eq_ediv_of_nonneg (by omega)
  rw [this]
  exact ⟨if_pos (by omega), if_neg (by omega)⟩

/-- **C67.** After `n + 1` iterations `MMSPDiffusion` prints the result of `n` steps: it is one iteration behind. The other grid has the interior values of `n + 1` steps. -/
theorem second_correct {nx : Int} (hx : 2 ≤ nx) (dx c : α) (n : Nat) : ∃ s, secondRun nx dx c (n + 1) = .ok s ∧
    (∀ x, 0 ≤ x → x < nx → s.2 x = (heat1 nx (c / (dx * dx)))^[n] (half nx) x) ∧
    ∀ x, 0 < x → x < nx - 1 → s.1 x = (heat1 nx (c / (dx * dx)))^[n + 1] (half nx) x := by
  have step : ∀ (n : Nat) (s : (Int → α) × (Int → α)), secondRun nx dx c n = .ok s → (∀ x, 0 < x → x < nx - 1 → s.1 x = (heat1 nx (c / (dx * dx)))^[n] (half nx) x) →
      ∃ s, secondRun nx dx c (n + 1) = .ok s ∧ (∀ x, 0 ≤ x → x < nx → s.2 x = (heat1 nx (c / (dx * dx)))^[n] (half nx) x) ∧
      ∀ x, 0 < x → x < nx - 1 → s.1 x = (heat1 nx (c / (dx * dx)))^[n + 1] (half nx) x := by
    intro n s e h
    obtain ⟨out, ho, hv⟩ := secondPass_eq hx dx c s.1 s.2
    have hres : ∀ x, 0 ≤ x → x < nx → reset nx s.1 x = (heat1 nx (c / (dx * dx)))^[n] (half nx) x := by
      intro x h0 h1
      unfold reset
      by_cases a : x = nx - 1
      · subst a
        rw [Function.update_self, iterate_end _ _ (by omega), (half_ends hx).2]
      · rw [Function.update_of_ne a]
        by_cases b : x = 0
        · subst b
          rw [Function.update_self, iterate_end _ _ (by omega), (half_ends hx).1]
        · rw [Function.update_of_ne b]
          exact h x (by omega) (by omega)
    refine ⟨(out, reset nx s.1), by rw [secondRun, e, Outcome.ok_bind, ho, Outcome.ok_bind], hres, fun x h0 h1 => ?_⟩
    dsimp only
    rw [hv x h0 h1, Function.iterate_succ_apply']
    exact heat1_congr _ hres (by omega) (by omega)
  induction n with
  | zero => exact step 0 _ rfl fun _ _ _ => rfl
  | succ n ih =>
    obtain ⟨s, e, -, h⟩ := ih
    exact step (n + 1) s e h

/-- **C67.** `MMSPDiffusion` with `n + 1` iterations prints what `1stDiffusion` prints with `n`. -/
theorem second_is_first {nx : Int} (hx : 2 ≤ nx) (dx c : α) (n : Nat) :
    ∃ s t, firstRun nx dx c n = .ok s ∧ secondRun nx dx c (n + 1) = .ok t ∧ ∀ x, 0 ≤ x → x < nx → t.2 x = s.1 x := by
  obtain ⟨s, e, h⟩ := first_correct nx dx c n
  obtain ⟨t, e', h', -⟩ := second_correct hx dx c n
  exact ⟨s, t, e, e', fun x a b => by rw [h' x a b, h]⟩

/-- **C67.** A profile does not change exactly when it is linear. -/
theorem heat1_fixed_iff {nx : Int} {k : α} (hk : k ≠ 0) (u : Int → α) :
    (∀ x, 0 ≤ x → x < nx → heat1 nx k u x = u x) ↔ ∀ x, 0 ≤ x → x < nx → u x = u 0 + x * (u 1 - u 0) := by
  constructor
  · intro h
    have key : ∀ n : Nat, ((n : Int) < nx → u n = u 0 + n * (u 1 - u 0)) ∧ ((n : Int) + 1 < nx → u (n + 1) = u 0 + (n + 1) * (u 1 - u 0)) := by
      intro n
      induction n with
      | zero => exact ⟨fun _ => by simp, fun _ => by simp⟩
      | succ n ih =>
        refine ⟨fun hn => by push_cast at hn ⊢; exact ih.2 hn, fun hn => ?_⟩
        have h1 := ih.1 (by push_cast at hn; omega)
        have h2 := ih.2 (by push_cast at hn; omega)
        have h3 := h (n + 1) (by omega) (by push_cast at hn; omega)
        unfold heat1 at h3
        rw [if_pos (by push_cast at hn; omega), add_eq_left] at h3
        have h4 := (mul_eq_zero.1 h3).resolve_left hk
        rw [show (n : Int) + 1 - 1 = n by ring] at h4
        push_cast
        linear_combination h4 - h1 + 2 * h2
    intro x h0 h1
    have := (key x.toNat).1 (by omega)
    rw [Int.toNat_of_nonneg h0] at this
    rw [this, ← Int.cast_natCast x.toNat, Int.toNat_of_nonneg h0]
  · intro h x h0 h1
    unfold heat1
    split_ifs with hc
    · rw [h x h0 h1, h (x - 1) (by omega) (by omega), h (x + 1) (by omega) (by omega)]
      push_cast; ring
    · rfl

end

section
variable {α : Type} [Field α] [LinearOrder α] [IsStrictOrderedRing α]

/-- A profile that falls from 1 at the left end to 0 at the right end. -/
def Falling (nx : Int) (u : Int → α) : Prop := u 0 = 1 ∧ u (nx - 1) = 0 ∧ ∀ x, 0 ≤ x → x + 1 < nx → u (x + 1) ≤ u x

theorem heat1_falling {nx : Int} {k : α} (k0 : 0 ≤ k) (k1 : k ≤ 1 / 2) {u : Int → α} (h : Falling nx u) : Falling nx (heat1 nx k u) := by
  obtain ⟨a, b, m⟩ := h
  refine ⟨by rw [heat1_end _ _ (by omega), a], by rw [heat1_end _ _ (by omega), b], fun x h0 h1 => ?_⟩
  have d0 := m x h0 h1
  have hk2 : 0 ≤ 1 - 2 * k := by linarith
  have p0 := mul_nonneg hk2 (sub_nonneg.2 d0)
  have p0' := mul_nonneg k0 (sub_nonneg.2 d0)
  unfold heat1
  rw [show x + 1 - 1 = x by ring]
  split_ifs with c1 c2 c2
  · have d1 := m (x - 1) (by omega) (by omega)
    have d2 := m (x + 1) (by omega) (by omega)
    rw [show x - 1 + 1 = x by ring] at d1
    have p1 := mul_nonneg k0 (sub_nonneg.2 d1)
    have p2 := mul_nonneg k0 (sub_nonneg.2 d2)
    linarith
  · have d2 := m (x + 1) (by omega) (by omega)
    have p2 := mul_nonneg k0 (sub_nonneg.2 d2)
    linarith
  · have d1 := m (x - 1) (by omega) (by omega)
    rw [show x - 1 + 1 = x by ring] at d1
    have p1 := mul_nonneg k0 (sub_nonneg.2 d1)
    linarith
  · exact d0

theorem half_falling {nx : Int} (hx : 2 ≤ nx) : Falling nx (half nx : Int → α) := by
  refine ⟨(half_ends hx).1, (half_ends hx).2, fun x h0 h1 => ?_⟩
  unfold half
  split_ifs <;> first | omega | simp

/-- **C67.** `1stDiffusion` keeps its ends at 1 and 0 and the profile between them falling, as long as the diffusion number is at most one half (the program uses a quarter). -/
theorem first_falling {nx : Int} (hx : 2 ≤ nx) {dx c : α} (c0 : 0 ≤ c / (dx * dx)) (c1 : c / (dx * dx) ≤ 1 / 2) (n : Nat) :
    ∃ s, firstRun nx dx c n = .ok s ∧ Falling nx s.1 := by
  obtain ⟨s, e, h⟩ := first_correct nx dx c n
  refine ⟨s, e, ?_⟩
  rw [h]
  clear h e
  induction n with
  | zero => exact half_falling hx
  | succ n ih => rw [Function.iterate_succ_apply']; exact heat1_falling c0 c1 ih

omit [IsStrictOrderedRing α] in
theorem falling_le {nx : Int} {u : Int → α} (h : Falling nx u) : ∀ (d : Nat) (x : Int), 0 ≤ x → x + d < nx → u (x + d) ≤ u x := by
  intro d
  induction d with
  | zero => intro x _ _; simp
  | succ d ih =>
    intro x h0 h1
    push_cast at h1 ⊢
    have := h.2.2 (x + d) (by omega) (by omega)
    rw [← add_assoc]
    exact this.trans (ih x h0 (by omega))

/-- A falling profile stays between its ends. -/
theorem falling_between {nx : Int} {u : Int → α} (h : Falling nx u) {x : Int} (h0 : 0 ≤ x) (h1 : x < nx) : 0 ≤ u x ∧ u x ≤ 1 := by
  have a := falling_le h x.toNat 0 (le_refl _) (by omega)
  have b := falling_le h (nx - 1 - x).toNat x h0 (by omega)
  rw [show (0 : Int) + x.toNat = x by omega, h.1] at a
  rw [show x + ((nx - 1 - x).toNat : Int) = nx - 1 by omega, h.2.1] at b
  exact ⟨b, a⟩

end

/-! ## Examples and limits -/

/-- The parameters of the Allen-Cahn example on a 4 × 4 grid of spacing 1: values between -1 and 1, as `generate` makes them, stay there. -/
theorem example_confined : Confined (square 4) (fun _ => (1 : ℚ)) (1 / 100 * 1) 1 1 1 0 1 :=
  ⟨by decide +kernel, by decide +kernel, by decide +kernel, by decide +kernel, by decide +kernel⟩

/-- Model A with the parameters of its example and noise of at most 13 in size. -/
example : Confined (square 4) (fun _ => (1 : ℚ)) (1 / 100 * 1) 1 1 1 13 (13 / 5) :=
  ⟨by decide +kernel, by decide +kernel, by decide +kernel, by decide +kernel, by decide +kernel⟩

/-- Initial values of both signs. -/
def mixed (p : Int) : ℚ := if p % 3 = 0 then -1 / 2 else if p = 5 then 1 else 1 / 4

theorem mixed_between : Between (square 4) (-1) 1 mixed := fun p _ _ => by
  unfold mixed; split_ifs <;> constructor <;> norm_num

example (steps : Nat) : ∃ s, acRun (square 4) (fun _ => 1) (1 / 100) 1 1 1 1 steps mixed mixed = .ok s ∧ Between (square 4) (-1) 1 s.1 :=
  allenCahn_bounded (square_serial (by decide)).wf rfl (reach_of_serial (square_serial (by decide))) example_confined steps mixed_between

example (steps : Nat) : ∃ s t, acRun (square 4) (fun _ => 1) (1 / 100) 1 1 1 1 steps mixed mixed = .ok s ∧ acRun (square 4) (fun _ => 1) (1 / 100) 1 1 1 1 (steps + 1) mixed mixed = .ok t ∧
    energy (square 4) (fun _ => 1) 1 1 1 t.1 + 1 * 1 ^ 2 * total (square 4) (fun n => (t.1 n - s.1 n) ^ 2) ≤ energy (square 4) (fun _ => 1) 1 1 1 s.1 :=
  allenCahn_energy (square_serial (by decide)) example_confined (by decide +kernel) (by decide +kernel) steps mixed_between

example : ∃ s, modelARun (square 4) (fun _ => 1) (1 / 100) 1 1 1 1 (fun t i => if (t + i) % 2 = 0 then 13 else -13) 1000 (mixed, mixed) = .ok s ∧ Between (square 4) (-(13 / 5)) (13 / 5) s.1 :=
  modelA_bounded (b := 13) (square_serial (by decide)).wf rfl (reach_of_serial (square_serial (by decide)))
    ⟨by decide +kernel, by decide +kernel, by decide +kernel, by decide +kernel, by decide +kernel⟩
    (fun t p _ _ => by beta_reduce; split_ifs <;> constructor <;> norm_num) 1000
    (fun p a b => by obtain ⟨h1, h2⟩ := mixed_between p a b; constructor <;> linarith)

/-- Alternating signs. -/
def alternating (p : Int) : ℚ := if p % 2 = 0 then 1 else -1

/-- **C66.** The limit on the time step is needed: with `dt = 1` one step takes values of size 1 to size 3, and the energy grows. -/
theorem allenCahn_large_step :
    ((acRun (SparsePF.line 4) (fun _ => 1) 1 1 1 1 1 1 alternating fun _ => 0).bind fun s =>
      .ok (s.1 0, decide (energy (SparsePF.line 4) (fun _ => 1) 1 1 1 alternating < energy (SparsePF.line 4) (fun _ => 1) 1 1 1 s.1))) = .ok (-3, true) := by
  decide +kernel

/-- Diffusion is stable on the 2D grid of the example up to a factor of a quarter. -/
example : (1 / 4 : ℚ) * weight (square 5) (fun _ => 1) ≤ 1 := by decide +kernel

example (steps : Nat) : ∃ s, heatRun (square 5) (fun _ => (1 : ℚ)) (1 / 4) steps (corner 5) (fun _ => 1) = .ok s ∧ Between (square 5) 0 1 s.1 :=
  heat_between (square_serial (by decide)).wf rfl (reach_of_serial (square_serial (by decide))) (by decide +kernel) (by decide +kernel) steps
    fun p _ _ => by unfold corner; dsimp only; split_ifs <;> constructor <;> norm_num

/-- **C67.** The factor 0.3 of `MMSPDiffusion2D` is beyond the limit: with length 5 the seventh iteration makes a value negative, although all initial values are 0 or 1. -/
theorem heat2_unstable : ((heatRun (square 5) (fun _ => (1 : ℚ)) (3 / 10) 7 (corner 5) (fun _ => 1)).bind fun s => .ok (s.1 18)) = .ok (-1701 / 312500) := by
  decide +kernel

/-- **C67.** The `Dirichlet` flags do not fix anything: the total of the 2D example never changes. -/
theorem heat2_closed {n : Int} (hn : 0 < n) (steps : Nat) : ∃ s, heatRun (square n) (fun _ => (1 : ℚ)) (3 / 10) steps (corner n) (fun _ => 1) = .ok s ∧ total (square n) s.1 = total (square n) (corner n) :=
  heat_conserves (square_serial hn) _ _ steps _ _

/-- The diffusion number of the 1D programs is a quarter, whatever spacing and coefficient. -/
theorem first_number {α : Type} [Field α] {dx d : α} (hx : dx ≠ 0) (hd : d ≠ 0) : d * (dx * dx / d / 4) / (dx * dx) = 1 / 4 := by
  field_simp

/-- **C67.** `1stDiffusion` itself. -/
theorem first_example {α : Type} [Field α] [LinearOrder α] [IsStrictOrderedRing α] {nx : Int} (hn : 2 ≤ nx) {dx d : α} (hx : dx ≠ 0) (hd : d ≠ 0) (n : Nat) :
    ∃ s, firstRun nx dx (d * (dx * dx / d / 4)) n = .ok s ∧ Falling nx s.1 ∧ ∀ x, 0 ≤ x → x < nx → 0 ≤ s.1 x ∧ s.1 x ≤ 1 := by
  obtain ⟨s, e, h⟩ := first_falling hn (dx := dx) (c := d * (dx * dx / d / 4)) (by rw [first_number hx hd]; norm_num) (by rw [first_number hx hd]; norm_num) n
  exact ⟨s, e, h, fun x => falling_between h⟩

example : ((secondRun 4 (1 : ℚ) (1 / 4) 2).bind fun s => .ok [s.2 0, s.2 1, s.2 2, s.2 3]) = .ok [1, 3 / 4, 1 / 4, 0] := by decide +kernel
example : ((firstRun 4 (1 : ℚ) (1 / 4) 1).bind fun s => .ok [s.1 0, s.1 1, s.1 2, s.1 3]) = .ok [1, 3 / 4, 1 / 4, 0] := by decide +kernel

end MMSP.Relax
