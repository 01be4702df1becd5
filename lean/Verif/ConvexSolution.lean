import Verif.ConvexSplitRun
import Mathlib.Analysis.Calculus.LocalExtr.Basic
import Mathlib.Analysis.Calculus.Deriv.Pow
import Mathlib.Analysis.Calculus.Deriv.Add
import Mathlib.Analysis.Calculus.Deriv.Comp
import Mathlib.Analysis.Calculus.Deriv.Mul
import Mathlib.Topology.Algebra.Module.FiniteDimension
import Mathlib.LinearAlgebra.Basis.VectorSpace
import Mathlib.Algebra.Module.Projective
import Mathlib.Analysis.Normed.Group.Bounded
import Mathlib.Analysis.Normed.Module.FiniteDimension
import Mathlib.LinearAlgebra.Matrix.DotProduct
/-!
# A step of convex splitting has exactly one solution (C129)

`update` of `examples/phase_transitions/cahn-hilliard/convex_splitting/cahn-hilliard.cpp` 290-414 iterates towards a solution of the implicit equations of a step (`Scheme`,
`ConvexSplitProps.lean`). C57 shows that it stops moving only there. Here: there is such a state, and there is only one, however long the time step is.

At most one: the part of the derivative taken at the new composition increases, and the Laplacian of the grid is symmetric and not positive (`sum_by_parts`). At least one: the equations
say that the derivative of the energy of the step vanishes on the compositions that can be reached from the old one; that energy grows in all directions, so it has a minimum. Exact
arithmetic, one rank, grids as in C57; over the real numbers, since a solution need not be rational.
-/

namespace MMSP.ConvexSolution

open ConvexSplit
open Conserve (Serial nb nb_spec total)

/-! ## At most one -/

section
variable {α : Type} [Field α] [LinearOrder α] [IsStrictOrderedRing α] {g : Shape}

theorem lap_sub (dx : Nat → α) (u v : Int → α) (n : Int) : lap g dx (fun m => u m - v m) n = lap g dx u n - lap g dx v n := by
  unfold lap
  rw [← Finset.sum_sub_distrib]
  exact Finset.sum_congr rfl fun i _ => by ring

/-- The part of the derivative that is taken at the new composition increases. -/
def Increasing (p : Params α) : Prop := ∀ a b, a ≠ b → 0 < (p.contractive a - p.contractive b) * (a - b)

theorem cube_increasing {q r : α} (hq : 0 < q) (hr : 0 ≤ r) {a b : α} (h : a ≠ b) : 0 < ((q * a ^ 3 + r * a) - (q * b ^ 3 + r * b)) * (a - b) := by
  have e : ((q * a ^ 3 + r * a) - (q * b ^ 3 + r * b)) * (a - b) = (a - b) ^ 2 * (q * (a ^ 2 + a * b + b ^ 2) + r) := by ring
  have h1 : 0 < (a - b) ^ 2 := by have := sub_ne_zero.2 h; positivity
  have h2 : 0 < a ^ 2 + a * b + b ^ 2 := by nlinarith [sq_nonneg (a + b)]
  rw [e]
  have := mul_pos hq h2
  exact mul_pos h1 (by linarith)

theorem vanilla_increasing : Increasing (vanilla : Params α) := fun a b h => by
  have := cube_increasing (q := (1 : α)) (r := 0) one_pos le_rfl h
  simpa [vanilla] using this

theorem parametric_increasing {c0 ca cb a b : α} (ha : 0 ≤ ca) (hb : ca < cb) (hB : 0 ≤ b) : Increasing (parametric c0 ca cb a b) := fun x y h => by
  have hcb : 0 < cb := lt_of_le_of_lt ha hb
  have h1 : 0 ≤ b * c0 * c0 := by rw [mul_assoc]; exact mul_nonneg hB (mul_self_nonneg _)
  exact cube_increasing (q := qa b ca cb) (r := qc b c0 ca cb) (by unfold qa; positivity) (by unfold qc; positivity) h

/-- **C129.** The equations of a step have at most one solution, whatever the time step. -/
theorem solution_unique (hs : Serial g) {p : Params α} (hK : 0 ≤ p.K) (hD : 0 ≤ p.D * p.dt) (hp : Increasing p) {dx : Nat → α} {old new new' : Int → α × α} (h : Scheme p g dx old new)
    (h' : Scheme p g dx old new') : ∀ n, 0 ≤ n → n < g.nodes → new n = new' n := by
  have hn0 := nodes_pos hs
  set c : Int → α := fun n => (new n).1 - (new' n).1 with hc
  set u : Int → α := fun n => (new n).2 - (new' n).2 with hu
  have e1 : ∀ n, 0 ≤ n → n < g.nodes → c n = p.D * p.dt * lap g dx u n := by
    intro n h0 h1
    have a := (h n h0 h1).1
    have b := (h' n h0 h1).1
    unfold r1 at a b
    rw [hu, lap_sub, hc]
    linear_combination b - a
  have e2 : ∀ n, 0 ≤ n → n < g.nodes → u n = p.contractive (new n).1 - p.contractive (new' n).1 - p.K * lap g dx c n := by
    intro n h0 h1
    have a := (h n h0 h1).2
    have b := (h' n h0 h1).2
    unfold r2 at a b
    rw [hc, lap_sub, hu]
    linear_combination b - a
  have s1 : total g (fun n => u n * c n) = -(p.D * p.dt * bonds g dx u u) := by
    rw [← mul_neg, ← sum_by_parts hs dx u u]
    unfold total
    rw [Finset.mul_sum]
    refine Finset.sum_congr rfl fun n hn => ?_
    have := Finset.mem_range.1 hn
    beta_reduce
    rw [e1 n (by omega) (by omega)]; ring
  have s2 : total g (fun n => u n * c n) = total g (fun n => (p.contractive (new n).1 - p.contractive (new' n).1) * c n) + p.K * bonds g dx c c := by
    rw [← neg_neg (bonds g dx c c), ← sum_by_parts hs dx c c]
    unfold total
    rw [mul_neg, Finset.mul_sum, ← sub_eq_add_neg, ← Finset.sum_sub_distrib]
    refine Finset.sum_congr rfl fun n hn => ?_
    have := Finset.mem_range.1 hn
    beta_reduce
    rw [e2 n (by omega) (by omega)]; ring
  have pos : ∀ n ∈ Finset.range g.nodes.toNat, 0 ≤ (p.contractive (new (n : Int)).1 - p.contractive (new' (n : Int)).1) * c n := by
    intro n _
    by_cases hx : (new (n : Int)).1 = (new' (n : Int)).1
    · rw [hc]; beta_reduce; rw [hx]; simp
    · exact (hp _ _ hx).le
  have z : total g (fun n => (p.contractive (new n).1 - p.contractive (new' n).1) * c n) = 0 := by
    refine le_antisymm ?_ (Finset.sum_nonneg pos)
    have b1 := mul_nonneg hD (bonds_nonneg (g := g) dx u)
    have b2 := mul_nonneg hK (bonds_nonneg (g := g) dx c)
    linarith
  have c0 : ∀ n, 0 ≤ n → n < g.nodes → (new n).1 = (new' n).1 := by
    intro n h0 h1
    by_contra hx
    have := (Finset.sum_eq_zero_iff_of_nonneg pos).1 z n.toNat (Finset.mem_range.2 (by omega))
    rw [Int.toNat_of_nonneg h0] at this
    exact absurd this (hp _ _ hx).ne'
  intro n h0 h1
  refine Prod.ext (c0 n h0 h1) ?_
  have l0 : lap g dx c n = 0 := by
    unfold lap
    refine Finset.sum_eq_zero fun i hi => ?_
    have hi' := Finset.mem_range.1 hi
    have a := nb_spec hs hi' h0 h1 true
    have b := nb_spec hs hi' h0 h1 false
    rw [hc]
    beta_reduce
    rw [c0 n h0 h1, c0 _ a.1 a.2.1, c0 _ b.1 b.2.1]
    simp
  have := e2 n h0 h1
  rw [c0 n h0 h1, l0, hu] at this
  beta_reduce at this
  linear_combination this

end

/-! ## At least one -/

section
variable {N : Nat}

/-- Minimising the energy of the step gives a solution. -/
theorem minimiser (L : (Fin N → ℝ) →ₗ[ℝ] (Fin N → ℝ)) (hsym : ∀ a b, a ⬝ᵥ L b = L a ⬝ᵥ b) (hneg : ∀ a, a ⬝ᵥ L a ≤ 0) {φ Φ : ℝ → ℝ} (hΦ : ∀ x, HasDerivAt Φ (φ x) x)
    (hgrow : ∀ e, ∃ B, ∀ x, |x| - B ≤ Φ x + e * x) {K τ : ℝ} (hK : 0 ≤ K) (hτ : 0 < τ) (old e : Fin N → ℝ) :
    ∃ c, c - old = τ • L (fun n => φ (c n) + e n - K * L c n) := by
  obtain ⟨G, hG⟩ := L.rangeRestrict.exists_rightInverse_of_surjective L.range_rangeRestrict
  have hLG : ∀ w : LinearMap.range L, L (G w) = w := fun w => congrArg Subtype.val (LinearMap.congr_fun hG w)
  have hΦc : Continuous Φ := continuous_iff_continuousAt.2 fun x => (hΦ x).continuousAt
  -- the energy of the composition `old + w`
  set J : LinearMap.range L → ℝ := fun w => (∑ n, (Φ (old n + (w : Fin N → ℝ) n) + e n * (old n + (w : Fin N → ℝ) n))) - K / 2 * ((old + (w : Fin N → ℝ)) ⬝ᵥ L (old + (w : Fin N → ℝ)))
    - 1 / (2 * τ) * ((w : Fin N → ℝ) ⬝ᵥ G w) with hJ
  have hJc : Continuous J := by
    have hL : Continuous L := L.continuous_of_finiteDimensional
    have hGc : Continuous G := G.continuous_of_finiteDimensional
    have hv : ∀ n, Continuous fun w : LinearMap.range L => (w : Fin N → ℝ) n := fun n => (continuous_apply n).comp continuous_subtype_val
    have hLv : ∀ n, Continuous fun w : LinearMap.range L => L (old + (w : Fin N → ℝ)) n := fun n => (continuous_apply n).comp (hL.comp (continuous_const.add continuous_subtype_val))
    have hGv : ∀ n, Continuous fun w : LinearMap.range L => G w n := fun n => (continuous_apply n).comp hGc
    have hcv : ∀ n, Continuous fun w : LinearMap.range L => old n + (w : Fin N → ℝ) n := fun n => continuous_const.add (hv n)
    rw [hJ]
    unfold dotProduct
    refine (Continuous.sub ?_ ?_).sub ?_
    · exact continuous_finsetSum _ fun n _ => (hΦc.comp (hcv n)).add (continuous_const.mul (hcv n))
    · exact continuous_const.mul (continuous_finsetSum _ fun n _ => (hcv n).mul (hLv n))
    · exact continuous_const.mul (continuous_finsetSum _ fun n _ => (hv n).mul (hGv n))
  choose B hB using fun n => hgrow (e n)
  have hlow : ∀ w : LinearMap.range L, ‖w‖ - (‖old‖ + ∑ n, |B n|) ≤ J w := by
    intro w
    have h1 : (old + (w : Fin N → ℝ)) ⬝ᵥ L (old + (w : Fin N → ℝ)) ≤ 0 := hneg _
    have h2 : (w : Fin N → ℝ) ⬝ᵥ G w ≤ 0 := by
      have := hneg (G w)
      rwa [hLG, dotProduct_comm] at this
    have h3 : ∑ n, (|old n + (w : Fin N → ℝ) n| - |B n|) ≤ ∑ n, (Φ (old n + (w : Fin N → ℝ) n) + e n * (old n + (w : Fin N → ℝ) n)) :=
      Finset.sum_le_sum fun n _ => le_trans (by linarith [le_abs_self (B n)]) (hB n _)
    rw [Finset.sum_sub_distrib] at h3
    have h4 : ‖old + (w : Fin N → ℝ)‖ ≤ ∑ n, |old n + (w : Fin N → ℝ) n| := by
      refine (pi_norm_le_iff_of_nonneg (Finset.sum_nonneg fun _ _ => abs_nonneg _)).2 fun n => ?_
      exact Finset.single_le_sum (f := fun n => |old n + (w : Fin N → ℝ) n|) (fun _ _ => abs_nonneg _) (Finset.mem_univ n)
    have h5 : ‖(w : Fin N → ℝ)‖ ≤ ‖old + (w : Fin N → ℝ)‖ + ‖old‖ := by
      have := norm_sub_le (old + (w : Fin N → ℝ)) old
      rwa [add_sub_cancel_left] at this
    have h6 : 0 ≤ 1 / (2 * τ) := by positivity
    have h7 : ‖w‖ = ‖(w : Fin N → ℝ)‖ := rfl
    rw [hJ]
    beta_reduce
    have h8 := mul_nonneg (div_nonneg hK (by norm_num : (0 : ℝ) ≤ 2)) (neg_nonneg.2 h1)
    have h9 := mul_nonneg h6 (neg_nonneg.2 h2)
    linarith
  have hJt : Filter.Tendsto J (Filter.cocompact _) Filter.atTop :=
    Filter.tendsto_atTop_mono hlow (Filter.tendsto_atTop_add_const_right _ _ tendsto_norm_cocompact_atTop)
  obtain ⟨w, hw⟩ := hJc.exists_forall_le hJt
  refine ⟨old + (w : Fin N → ℝ), ?_⟩
  set c : Fin N → ℝ := old + (w : Fin N → ℝ) with hc
  set μ : Fin N → ℝ := fun n => φ (c n) + e n - K * L c n with hμ
  -- the derivative in the direction `L x`
  have key : ∀ v : LinearMap.range L, (μ - (1 / τ) • G w) ⬝ᵥ (v : Fin N → ℝ) = 0 := by
    intro v
    have hsq : ∀ t : ℝ, J (w + t • v) = (∑ n, Φ (c n + t * (v : Fin N → ℝ) n)) + ((∑ n, e n * c n) - K / 2 * (c ⬝ᵥ L c) - 1 / (2 * τ) * ((w : Fin N → ℝ) ⬝ᵥ G w)
        + t * (e ⬝ᵥ (v : Fin N → ℝ) - K * (L c ⬝ᵥ (v : Fin N → ℝ)) - 1 / τ * (G w ⬝ᵥ (v : Fin N → ℝ)))
        + t ^ 2 * (- K / 2 * ((v : Fin N → ℝ) ⬝ᵥ L v) - 1 / (2 * τ) * ((v : Fin N → ℝ) ⬝ᵥ G v))) := by
      intro t
      have a1 : old + ((w + t • v : LinearMap.range L) : Fin N → ℝ) = c + t • (v : Fin N → ℝ) := by rw [hc]; simp [add_assoc]
      have a2 : (c + t • (v : Fin N → ℝ)) ⬝ᵥ L (c + t • (v : Fin N → ℝ)) = c ⬝ᵥ L c + t * (2 * (L c ⬝ᵥ (v : Fin N → ℝ))) + t ^ 2 * ((v : Fin N → ℝ) ⬝ᵥ L v) := by
        rw [map_add, map_smul, add_dotProduct, dotProduct_add, dotProduct_add, dotProduct_smul, smul_dotProduct, smul_dotProduct, dotProduct_smul, hsym c v, dotProduct_comm (v : Fin N → ℝ) (L c)]
        simp only [smul_eq_mul]; ring
      have a3 : (w : Fin N → ℝ) ⬝ᵥ G v = G w ⬝ᵥ (v : Fin N → ℝ) := by
        have := hsym (G w) (G v)
        rw [hLG, hLG] at this
        exact this.symm
      have a4 : ((w + t • v : LinearMap.range L) : Fin N → ℝ) ⬝ᵥ G (w + t • v) = (w : Fin N → ℝ) ⬝ᵥ G w + t * (2 * (G w ⬝ᵥ (v : Fin N → ℝ))) + t ^ 2 * ((v : Fin N → ℝ) ⬝ᵥ G v) := by
        rw [map_add, map_smul, Submodule.coe_add, Submodule.coe_smul, add_dotProduct, dotProduct_add, dotProduct_add, dotProduct_smul, smul_dotProduct, smul_dotProduct, dotProduct_smul, a3,
          dotProduct_comm (v : Fin N → ℝ) (G w)]
        simp only [smul_eq_mul]; ring
      have a5 : ∀ n, old n + ((w + t • v : LinearMap.range L) : Fin N → ℝ) n = c n + t * (v : Fin N → ℝ) n := fun n => by
        have := congrFun a1 n
        simpa using this
      rw [hJ]
      beta_reduce
      rw [a1, a2, a4, Finset.sum_congr rfl fun n _ => by rw [a5 n], Finset.sum_add_distrib]
      have a6 : ∑ n, e n * (c n + t * (v : Fin N → ℝ) n) = ∑ n, e n * c n + t * (e ⬝ᵥ (v : Fin N → ℝ)) := by
        unfold dotProduct
        rw [Finset.mul_sum, ← Finset.sum_add_distrib]
        exact Finset.sum_congr rfl fun n _ => by ring
      rw [a6]
      field_simp
      ring
    have hder : HasDerivAt (fun t : ℝ => J (w + t • v)) ((∑ n, φ (c n) * (v : Fin N → ℝ) n) + (e ⬝ᵥ (v : Fin N → ℝ) - K * (L c ⬝ᵥ (v : Fin N → ℝ)) - 1 / τ * (G w ⬝ᵥ (v : Fin N → ℝ)))) 0 := by
      rw [show (fun t : ℝ => J (w + t • v)) = _ from funext hsq]
      refine HasDerivAt.add ?_ ?_
      · refine HasDerivAt.fun_sum fun n _ => ?_
        have h1 : HasDerivAt (fun t : ℝ => c n + t * (v : Fin N → ℝ) n) ((v : Fin N → ℝ) n) 0 := by
          simpa using (HasDerivAt.mul_const (hasDerivAt_id (0 : ℝ)) ((v : Fin N → ℝ) n)).const_add (c n)
        have h2 : HasDerivAt (fun t : ℝ => Φ (c n + t * (v : Fin N → ℝ) n)) (φ (c n + 0 * (v : Fin N → ℝ) n) * (v : Fin N → ℝ) n) 0 := (hΦ (c n + 0 * (v : Fin N → ℝ) n)).comp 0 h1
        rwa [zero_mul, add_zero] at h2
      · have h1 := (HasDerivAt.mul_const (hasDerivAt_id (0 : ℝ)) (e ⬝ᵥ (v : Fin N → ℝ) - K * (L c ⬝ᵥ (v : Fin N → ℝ)) - 1 / τ * (G w ⬝ᵥ (v : Fin N → ℝ)))).const_add
          ((∑ n, e n * c n) - K / 2 * (c ⬝ᵥ L c) - 1 / (2 * τ) * ((w : Fin N → ℝ) ⬝ᵥ G w))
        have h2 := HasDerivAt.mul_const ((hasDerivAt_id (0 : ℝ)).pow 2) (- K / 2 * ((v : Fin N → ℝ) ⬝ᵥ L v) - 1 / (2 * τ) * ((v : Fin N → ℝ) ⬝ᵥ G v))
        have h3 := h1.add h2
        simp only [id_eq, one_mul, Nat.cast_ofNat, Nat.add_one_sub_one, pow_one, mul_zero, zero_mul, add_zero] at h3
        exact h3
    have hmin : IsLocalMin (fun t : ℝ => J (w + t • v)) 0 := Filter.Eventually.of_forall fun t => by
      beta_reduce
      rw [zero_smul, add_zero]
      exact hw _
    have := hmin.hasDerivAt_eq_zero hder
    rw [← this, sub_dotProduct, smul_dotProduct, smul_eq_mul]
    have b1 : μ ⬝ᵥ (v : Fin N → ℝ) = (∑ n, φ (c n) * (v : Fin N → ℝ) n) + e ⬝ᵥ (v : Fin N → ℝ) - K * (L c ⬝ᵥ (v : Fin N → ℝ)) := by
      rw [hμ]
      unfold dotProduct
      rw [Finset.mul_sum, ← Finset.sum_add_distrib, ← Finset.sum_sub_distrib]
      exact Finset.sum_congr rfl fun n _ => by ring
    rw [b1]; ring
  have hz : L (μ - (1 / τ) • G w) = 0 := by
    refine dotProduct_eq_zero _ fun x => ?_
    rw [← hsym]
    exact key ⟨L x, LinearMap.mem_range_self L x⟩
  rw [map_sub, map_smul, hLG, sub_eq_zero] at hz
  rw [hz, smul_smul, mul_one_div_cancel hτ.ne', one_smul, hc, add_sub_cancel_left]

end

/-- A fourth power outgrows every line. -/
theorem quartic_grows {q r : ℝ} (hq : 0 < q) (hr : 0 ≤ r) (e : ℝ) : ∃ B, ∀ x : ℝ, |x| - B ≤ (q * x ^ 4 / 4 + r * x ^ 2 / 2) + e * x := by
  refine ⟨q / 4 + (1 + |e|) ^ 2 / (2 * q), fun x => ?_⟩
  have h1 : -(e * x) ≤ |e| * |x| := by rw [← abs_mul]; exact neg_le_abs _
  have h2 : q * (2 * x ^ 2 - 1) ≤ q * x ^ 4 := mul_le_mul_of_nonneg_left (by nlinarith [sq_nonneg (x ^ 2 - 1)]) hq.le
  have h3 : 0 ≤ r * x ^ 2 := by positivity
  have h4 : 0 ≤ q / 2 * (|x| - (1 + |e|) / q) ^ 2 := by positivity
  have h5 : q / 2 * (|x| - (1 + |e|) / q) ^ 2 = q * x ^ 2 / 2 - (1 + |e|) * |x| + (1 + |e|) ^ 2 / (2 * q) := by
    have : |x| ^ 2 = x ^ 2 := sq_abs x
    rw [← this]
    field_simp
    ring
  linarith

theorem quartic_deriv (q r x : ℝ) : HasDerivAt (fun x : ℝ => q * x ^ 4 / 4 + r * x ^ 2 / 2) (q * x ^ 3 + r * x) x := by
  have h4 := ((hasDerivAt_pow 4 x).const_mul q).div_const 4
  have h2 := ((hasDerivAt_pow 2 x).const_mul r).div_const 2
  have := h4.add h2
  refine this.congr_deriv ?_
  norm_num
  ring

/-- Values on the nodes of a grid, as values at every index. -/
def ext {N : Nat} (u : Fin N → ℝ) (n : Int) : ℝ := if h : 0 ≤ n ∧ n < N then u ⟨n.toNat, by omega⟩ else 0

theorem ext_node {N : Nat} (u : Fin N → ℝ) (i : Fin N) : ext u (i : Nat) = u i := by
  unfold ext
  rw [dif_pos ⟨by omega, by have := i.2; omega⟩]
  congr

/-- The Laplacian of a grid, on the values at its nodes. -/
noncomputable def lapMap (g : Shape) (dx : Nat → ℝ) : (Fin g.nodes.toNat → ℝ) →ₗ[ℝ] (Fin g.nodes.toNat → ℝ) where
  toFun u i := lap g dx (ext u) (i : Nat)
  map_add' u v := by
    funext i
    have : ext (u + v) = fun n => ext u n + ext v n := funext fun n => by unfold ext; split <;> simp
    rw [this, Pi.add_apply]
    unfold lap
    rw [← Finset.sum_add_distrib]
    exact Finset.sum_congr rfl fun j _ => by ring
  map_smul' t u := by
    funext i
    have : ext (t • u) = fun n => t * ext u n := funext fun n => by unfold ext; split <;> simp
    rw [this, Pi.smul_apply, smul_eq_mul]
    unfold lap
    rw [Finset.mul_sum]
    exact Finset.sum_congr rfl fun j _ => by simp only [RingHom.id_apply]; ring

theorem lapMap_parts {g : Shape} (hs : Serial g) (dx : Nat → ℝ) (a b : Fin g.nodes.toNat → ℝ) : a ⬝ᵥ lapMap g dx b = -bonds g dx (ext a) (ext b) := by
  rw [← sum_by_parts hs]
  unfold total dotProduct
  rw [← Fin.sum_univ_eq_sum_range (fun i => ext a (i : Nat) * lap g dx (ext b) (i : Nat))]
  exact Finset.sum_congr rfl fun i _ => by rw [ext_node]; rfl

theorem bonds_comm {g : Shape} (dx : Nat → ℝ) (a b : Int → ℝ) : bonds g dx a b = bonds g dx b a := by
  unfold bonds
  exact Finset.sum_congr rfl fun i _ => by congr 1; exact Finset.sum_congr rfl fun n _ => by ring

/-- **C129.** The equations of a step have a solution, whatever the time step. -/
theorem solution_exists {g : Shape} (hs : Serial g) {p : Params ℝ} {q r : ℝ} (hq : 0 < q) (hr : 0 ≤ r) (hp : ∀ x, p.contractive x = q * x ^ 3 + r * x) (hK : 0 ≤ p.K) (hD : 0 < p.D * p.dt)
    (dx : Nat → ℝ) (old : Int → ℝ × ℝ) : ∃ new, Scheme p g dx old new := by
  obtain ⟨c, hc⟩ := minimiser (lapMap g dx) (fun a b => by rw [lapMap_parts hs, dotProduct_comm, lapMap_parts hs, bonds_comm])
    (fun a => by rw [lapMap_parts hs]; have := bonds_nonneg (g := g) dx (ext a); linarith) (quartic_deriv q r) (quartic_grows hq hr) hK hD
    (fun i => (old (i : Nat)).1) (fun i => p.expansive (old (i : Nat)).1)
  set μ : Fin g.nodes.toNat → ℝ := fun n => (q * c n ^ 3 + r * c n) + p.expansive (old (n : Nat)).1 - p.K * lapMap g dx c n with hμ
  refine ⟨fun n => (ext c n, ext μ n), fun n h0 h1 => ?_⟩
  obtain ⟨k, rfl⟩ := Int.eq_ofNat_of_zero_le h0
  have hk : k < g.nodes.toNat := by omega
  have ec : ext c (k : Int) = c ⟨k, hk⟩ := ext_node c ⟨k, hk⟩
  have eμ : ext μ (k : Int) = μ ⟨k, hk⟩ := ext_node μ ⟨k, hk⟩
  have h := congrFun hc ⟨k, hk⟩
  constructor
  · have h' : c ⟨k, hk⟩ - (old (k : Int)).1 = p.D * p.dt * lap g dx (ext μ) (k : Int) := h
    unfold r1
    beta_reduce
    rw [ec, ← h']; ring
  · unfold r2
    beta_reduce
    rw [ec, eμ, hp, hμ]
    have e : lapMap g dx c ⟨k, hk⟩ = lap g dx (ext c) (k : Int) := rfl
    beta_reduce
    rw [e]
    ring

/-- `new` is the only state with the property `P`, as far as the nodes of the grid go. -/
def Only (g : Shape) (P : (Int → ℝ × ℝ) → Prop) : Prop := ∃ new, P new ∧ ∀ new', P new' → ∀ n, 0 ≤ n → n < g.nodes → new' n = new n

/-- The same equations with another time step (line 54 of the program fixes it). -/
def withStep {α : Type} (p : Params α) (dt : α) : Params α := { p with dt := dt }

/-- **C129.** The simple energy: for every time step and every state there is exactly one next state. -/
theorem vanilla_step {g : Shape} (hs : Serial g) {dt : ℝ} (ht : 0 < dt) (dx : Nat → ℝ) (old : Int → ℝ × ℝ) : Only g (Scheme (withStep vanilla dt) g dx old) := by
  have hD : 0 < (withStep (vanilla : Params ℝ) dt).D * (withStep (vanilla : Params ℝ) dt).dt := by simpa [vanilla, withStep] using ht
  have hK : 0 ≤ (withStep (vanilla : Params ℝ) dt).K := by simp [vanilla, withStep]
  obtain ⟨new, h⟩ := solution_exists (p := withStep vanilla dt) hs (q := 1) (r := 0) one_pos le_rfl (fun x => by simp [vanilla, withStep]) hK hD dx old
  exact ⟨new, h, fun new' h' => solution_unique (p := withStep vanilla dt) hs hK hD.le (fun a b hab => vanilla_increasing a b hab) h' h⟩

/-- **C129.** The energy with three wells: for every time step and every state there is exactly one next state. -/
theorem parametric_step {g : Shape} (hs : Serial g) {c0 ca cb a b dt : ℝ} (ha : 0 ≤ ca) (hb : ca < cb) (hB : 0 ≤ b) (ht : 0 < dt) (dx : Nat → ℝ) (old : Int → ℝ × ℝ) :
    Only g (Scheme (withStep (parametric c0 ca cb a b) dt) g dx old) := by
  have hcb : 0 < cb := lt_of_le_of_lt ha hb
  have h1 : 0 ≤ b * c0 * c0 := by rw [mul_assoc]; exact mul_nonneg hB (mul_self_nonneg _)
  have hD : 0 < (withStep (parametric c0 ca cb a b) dt).D * (withStep (parametric c0 ca cb a b) dt).dt := mul_pos (div_pos two_pos (by linarith)) ht
  have hK : 0 ≤ (withStep (parametric c0 ca cb a b) dt).K := by simp [parametric, withStep]
  obtain ⟨new, h⟩ := solution_exists (p := withStep (parametric c0 ca cb a b) dt) hs (q := qa b ca cb) (r := qc b c0 ca cb) (by unfold qa; positivity) (by unfold qc; positivity)
    (fun x => rfl) hK hD dx old
  exact ⟨new, h, fun new' h' => solution_unique (p := withStep (parametric c0 ca cb a b) dt) hs hK hD.le (fun x y hxy => parametric_increasing (c0 := c0) (a := a) ha hb hB x y hxy) h' h⟩

theorem fixed_one {g : Shape} (hs : Serial g) (hg : Nonneg g) {p : Params ℝ} (hl : Linearised p) (hw : p.omega ≠ 0) {dx : Nat → ℝ} (hd : Solvable p g dx) {old : Int → ℝ × ℝ}
    (h : Only g (Scheme p g dx old)) : Only g (fun new => iteration p g dx old new = .ok new) := by
  obtain ⟨new, h1, h2⟩ := h
  exact ⟨new, (iteration_fixed_iff hs hg hl hw hd old new).2 h1, fun new' h' => h2 new' ((iteration_fixed_iff hs hg hl hw hd old new').1 h')⟩

/-- **C129.** The simple energy: one iteration over the red and the black nodes leaves exactly one state. -/
theorem vanilla_fixed {g : Shape} (hs : Serial g) (hg : Nonneg g) {dt : ℝ} (ht : 0 < dt) (dx : Nat → ℝ) (old : Int → ℝ × ℝ) :
    Only g (fun new => iteration (withStep vanilla dt) g dx old new = .ok new) :=
  fixed_one (p := withStep vanilla dt) hs hg vanilla_nonlinear (by simp [vanilla, withStep])
    (solvable_of_nonneg (by simp [vanilla, withStep]) (by simp [vanilla, withStep]) ht.le (fun c => by simp only [vanilla, withStep]; positivity) dx) (vanilla_step hs ht dx old)

/-- **C129.** The energy with three wells: one iteration leaves exactly one state. -/
theorem parametric_fixed {g : Shape} (hs : Serial g) (hg : Nonneg g) {c0 ca cb a b dt : ℝ} (ha : 0 ≤ ca) (hb : ca < cb) (hB : 0 ≤ b) (ht : 0 < dt) (dx : Nat → ℝ) (old : Int → ℝ × ℝ) :
    Only g (fun new => iteration (withStep (parametric c0 ca cb a b) dt) g dx old new = .ok new) := by
  have hcb : 0 < cb := lt_of_le_of_lt ha hb
  have h1 : 0 ≤ b * c0 * c0 := by rw [mul_assoc]; exact mul_nonneg hB (mul_self_nonneg _)
  refine fixed_one (p := withStep (parametric c0 ca cb a b) dt) hs hg (parametric_nonlinear c0 ca cb a b) (by norm_num [parametric, withStep]) (solvable_of_nonneg (by norm_num [parametric, withStep]) ?_ ht.le (fun c => ?_) dx)
    (parametric_step hs ha hb hB ht dx old)
  · exact (div_pos two_pos (sub_pos.2 hb)).le
  · simp only [parametric, withStep, qa, qc]
    positivity

/-- The numbers of the program (lines 42-44, 96, 97) and its time step on a line of four nodes. -/
example (old : Int → ℝ × ℝ) : Only (ring 4) (Scheme (withStep (benchmark : Params ℝ) 1000) (ring 4) (fun _ => 1) old) ∧
    Only (ring 4) (fun new => iteration (withStep (vanilla : Params ℝ) 1000) (ring 4) (fun _ => 1) old new = .ok new) :=
  ⟨parametric_step (ring_serial (by decide)) (by norm_num) (by norm_num) (by norm_num) (by norm_num) _ old, vanilla_fixed (ring_serial (by decide)) (fun _ _ => le_rfl) (by norm_num) _ old⟩

/-- The equations of a step that takes the whole derivative at the new composition. -/
def implicit (dt : ℚ) : Params ℚ := { withStep vanilla dt with contractive := vanilla.full, expansive := fun _ => 0 }

/-- The wave `a, -a` on two nodes. -/
def wave (a u : ℚ) (n : Int) : ℚ × ℚ := if n = 0 then (a, u) else (-a, -u)

/-- The splitting matters: without it a long step from the uniform state has more than one solution. -/
theorem implicit_two : Scheme (implicit 8) (ring 2) (fun _ => 4) (fun _ => (0, 0)) (wave 0 0) ∧ Scheme (implicit 8) (ring 2) (fun _ => 4) (fun _ => (0, 0)) (wave (1 / 2) (-1 / 4)) := by
  have n0 : ∀ up, nb (ring 2) 0 0 up = 1 := by decide
  have n1 : ∀ up, nb (ring 2) 0 1 up = 0 := by decide
  have nn : (ring 2).nodes = 2 := by decide
  have d : (ring 2).dim = 1 := rfl
  constructor <;> intro n h0 h1 <;> rw [nn] at h1 <;>
    (obtain rfl | rfl : n = 0 ∨ n = 1 := by omega) <;>
    simp only [r1, r2, lap, d, Finset.sum_range_one, n0, n1, wave] <;> norm_num [implicit, withStep, vanilla]

end MMSP.ConvexSolution
