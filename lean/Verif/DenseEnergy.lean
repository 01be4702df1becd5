import Verif.RelaxProps
import Verif.ParallelExamplesLink
import Mathlib.Tactic.IntervalCases
/-!
# Property C117: the isotropic dense examples lose energy

`isoRun` (`DensePF.lean`) models `update` of `examples/coarsening/grain_growth/isotropic/phase_field/graingrowth.cpp` 73-111 and of
`examples/coarsening/zener_pinning/isotropic/phase_field/zener.cpp` 104-142. The specification is the free energy
`Σ_nodes [ -Σφ²/2 - Σφ⁴/4 + (Σφ²)²/2 ] + Σ_fields Σ_bonds (difference quotient)²`.
-/

namespace MMSP.DensePF

open Finset
open Conserve (Serial total nb nb_spec)
open ConvexSplit (lap bonds sum_by_parts bonds_nonneg)
open Relax (weight bonds_expand bonds_le total_congr bonds_congr lapl_eq_lap reach_of_serial)

section
variable {α : Type} [Field α] [LinearOrder α]

/-- Free energy of a grid of `n` fields. -/
def grainEnergy (g : Shape) (n : Nat) (dx : Nat → α) (data : Int → List α) : α :=
  total g (fun p => bulk n (entry (data p))) + ∑ h ∈ range n, bonds g dx (fun p => entry (data p) h) (fun p => entry (data p) h)

/-- Squared change from one grid to another. -/
def change (g : Shape) (n : Nat) (a b : Int → List α) : α := total g fun p => ∑ h ∈ range n, (entry (b p) h - entry (a p) h) ^ 2

omit [LinearOrder α] in
theorem grainEnergy_congr {g : Shape} (hs : Serial g) (n : Nat) (dx : Nat → α) {a b : Int → List α} (h : ∀ p, 0 ≤ p → p < g.nodes → ∀ k : Nat, k < n → entry (a p) k = entry (b p) k) :
    grainEnergy g n dx a = grainEnergy g n dx b := by
  unfold grainEnergy
  congr 1
  · refine total_congr fun p p0 p1 => ?_
    unfold bulk
    have : ∀ m : Nat, ∑ k ∈ range n, entry (a p) (k : Int) ^ m = ∑ k ∈ range n, entry (b p) (k : Int) ^ m := fun m => sum_congr rfl fun k hk => by rw [h p p0 p1 k (mem_range.1 hk)]
    rw [this 2, this 4]
  · exact sum_congr rfl fun k hk => bonds_congr hs dx fun p p0 p1 => h p p0 p1 k (mem_range.1 hk)

variable [IsStrictOrderedRing α]

theorem change_nonneg (g : Shape) (n : Nat) (a b : Int → List α) : 0 ≤ change g n a b := by
  unfold change total
  exact sum_nonneg fun p _ => sum_nonneg fun h _ => sq_nonneg _

/-- Derivative of the bulk energy by field `h`. -/
def slope (n : Nat) (phi : Int → α) (h : Int) : α := -phi h - phi h ^ 3 + 2 * (phi h * squares n phi)

/-- The bulk energy lies below its tangent plane raised by `3n-1/2` times the squared change. -/
theorem bulk_le {n : Nat} {phi psi : Int → α} (hp : ∀ h : Nat, h < n → 0 ≤ phi h ∧ phi h ≤ 1) (hq : ∀ h : Nat, h < n → 0 ≤ psi h ∧ psi h ≤ 1) :
    bulk n psi ≤ bulk n phi + ∑ h ∈ range n, (psi h - phi h) * slope n phi h + (3 * n - 1 / 2) * ∑ h ∈ range n, (psi (h : Int) - phi h) ^ 2 := by
  have le_n : ∀ f : Int → α, (∀ h : Nat, h < n → 0 ≤ f h ∧ f h ≤ 1) → ∑ h ∈ range n, f (h : Int) ^ 2 ≤ n := fun f hf => by
    calc _ ≤ ∑ _h ∈ range n, (1 : α) := sum_le_sum fun k hk => by
            obtain ⟨a, b⟩ := hf k (mem_range.1 hk)
            exact pow_le_one₀ a b
      _ = n := by simp
  have hS := le_n phi hp
  have hT := le_n psi hq
  have hquart : ∑ h ∈ range n, phi (h : Int) ^ 4 + ∑ h ∈ range n, 4 * (phi (h : Int) ^ 3 * (psi h - phi h)) ≤ ∑ h ∈ range n, psi (h : Int) ^ 4 := by
    rw [← sum_add_distrib]
    refine sum_le_sum fun h _ => ?_
    generalize phi (h : Int) = a
    generalize psi (h : Int) = b
    have : b ^ 4 - (a ^ 4 + 4 * (a ^ 3 * (b - a))) = (b - a) ^ 2 * ((b + a) ^ 2 + 2 * a ^ 2) := by ring
    nlinarith [mul_nonneg (sq_nonneg (b - a)) (add_nonneg (sq_nonneg (b + a)) (mul_nonneg zero_le_two (sq_nonneg a)))]
  have hcs := sum_mul_sq_le_sq_mul_sq (range n) (fun h : Nat => psi (h : Int) - phi h) (fun h : Nat => psi (h : Int) + phi h)
  have hTS : ∑ h ∈ range n, (psi (h : Int) - phi h) * (psi h + phi h) = ∑ h ∈ range n, psi (h : Int) ^ 2 - ∑ h ∈ range n, phi (h : Int) ^ 2 := by
    rw [← sum_sub_distrib]; exact sum_congr rfl fun h _ => by ring
  have hpp : ∑ h ∈ range n, (psi (h : Int) + phi h) ^ 2 ≤ 2 * ∑ h ∈ range n, psi (h : Int) ^ 2 + 2 * ∑ h ∈ range n, phi (h : Int) ^ 2 := by
    rw [mul_sum, mul_sum, ← sum_add_distrib]
    exact sum_le_sum fun h _ => by nlinarith [sq_nonneg (psi (h : Int) - phi h)]
  have hslope : ∑ h ∈ range n, (psi h - phi h) * slope n phi h = -∑ h ∈ range n, phi (h : Int) * (psi h - phi h) - (∑ h ∈ range n, 4 * (phi (h : Int) ^ 3 * (psi h - phi h))) / 4
      + 2 * (∑ h ∈ range n, phi (h : Int) * (psi h - phi h)) * ∑ h ∈ range n, phi (h : Int) ^ 2 := by
    rw [← squares_eq, sum_div, mul_sum, sum_mul, ← sum_neg_distrib, ← sum_sub_distrib, ← sum_add_distrib]
    exact sum_congr rfl fun h _ => by unfold slope; ring
  have hq2 : ∑ h ∈ range n, psi (h : Int) ^ 2 = ∑ h ∈ range n, phi (h : Int) ^ 2 + 2 * ∑ h ∈ range n, phi (h : Int) * (psi h - phi h) + ∑ h ∈ range n, (psi (h : Int) - phi h) ^ 2 := by
    rw [mul_sum, ← sum_add_distrib, ← sum_add_distrib]
    exact sum_congr rfl fun h _ => by ring
  rw [hTS] at hcs
  have hq0 : 0 ≤ ∑ h ∈ range n, (psi (h : Int) - phi h) ^ 2 := sum_nonneg fun _ _ => sq_nonneg _
  rw [hslope]
  unfold bulk
  generalize (∑ h ∈ range n, phi (h : Int) ^ 2) = S at *
  generalize (∑ h ∈ range n, psi (h : Int) ^ 2) = T at *
  generalize (∑ h ∈ range n, phi (h : Int) ^ 4) = S4 at *
  generalize (∑ h ∈ range n, psi (h : Int) ^ 4) = T4 at *
  generalize (∑ h ∈ range n, (psi (h : Int) - phi h) ^ 2) = q at *
  generalize (∑ h ∈ range n, (psi (h : Int) + phi h) ^ 2) = P at *
  generalize (∑ h ∈ range n, phi (h : Int) * (psi h - phi h)) = a at *
  generalize (∑ h ∈ range n, 4 * (phi (h : Int) ^ 3 * (psi h - phi h))) = c at *
  have h1 : (T - S) ^ 2 ≤ q * (2 * T + 2 * S) := hcs.trans (mul_le_mul_of_nonneg_left hpp hq0)
  have h2 : q * (2 * S + T) ≤ q * (3 * n) := mul_le_mul_of_nonneg_left (by linarith) hq0
  have h3 : T ^ 2 / 2 - S ^ 2 / 2 - 2 * a * S = q * S + (T - S) ^ 2 / 2 := by rw [hq2]; ring
  nlinarith

/-- The bulk energy of a node is at least that of the inside of a grain. -/
theorem bulk_ge (n : Nat) (phi : Int → α) : -(1 / 4) ≤ bulk n phi := by
  have h4 : ∑ h ∈ range n, phi (h : Int) ^ 4 ≤ (∑ h ∈ range n, phi (h : Int) ^ 2) ^ 2 := by
    rw [sq, sum_mul]
    refine sum_le_sum fun h hh => ?_
    have : phi (h : Int) ^ 2 ≤ ∑ k ∈ range n, phi (k : Int) ^ 2 := single_le_sum (f := fun k : Nat => phi (k : Int) ^ 2) (fun k _ => sq_nonneg _) hh
    nlinarith [mul_le_mul_of_nonneg_left this (sq_nonneg (phi (h : Int)))]
  unfold bulk
  nlinarith [sq_nonneg ((∑ h ∈ range n, phi (h : Int) ^ 2) - 1)]

/-- One field is 1 and all others are 0. -/
def Pure (n : Nat) (phi : Int → α) : Prop := ∃ k : Nat, k < n ∧ ∀ h : Nat, h < n → phi h = if h = k then 1 else 0

/-- Only the inside of a grain has the least bulk energy. -/
theorem bulk_least {n : Nat} {phi : Int → α} (hp : ∀ h : Nat, h < n → 0 ≤ phi h) : bulk n phi = -(1 / 4) ↔ Pure n phi := by
  constructor
  · intro he
    set S := ∑ h ∈ range n, phi (h : Int) ^ 2 with hS
    have single : ∀ h : Nat, h < n → phi (h : Int) ^ 2 ≤ S := fun h hh => single_le_sum (f := fun k : Nat => phi (k : Int) ^ 2) (fun k _ => sq_nonneg _) (mem_range.2 hh)
    have h4 : ∑ h ∈ range n, phi (h : Int) ^ 4 ≤ S ^ 2 := by
      rw [sq]; nth_rw 1 [hS]; rw [sum_mul]
      refine sum_le_sum fun h hh => ?_
      nlinarith [mul_le_mul_of_nonneg_left (single h (mem_range.1 hh)) (sq_nonneg (phi (h : Int)))]
    unfold bulk at he
    rw [← hS] at he
    have h1 : (S - 1) ^ 2 ≤ 0 := by nlinarith
    have hS1 : S = 1 := by
      have := pow_eq_zero_iff (two_ne_zero) |>.1 (le_antisymm h1 (sq_nonneg _))
      linarith
    have h41 : ∑ h ∈ range n, phi (h : Int) ^ 4 = 1 := by
      rw [hS1] at he; linarith
    have hz : ∑ h ∈ range n, phi (h : Int) ^ 2 * (1 - phi h ^ 2) = 0 := by
      have : ∑ h ∈ range n, phi (h : Int) ^ 2 * (1 - phi h ^ 2) = S - ∑ h ∈ range n, phi (h : Int) ^ 4 := by
        rw [hS, ← sum_sub_distrib]; exact sum_congr rfl fun _ _ => by ring
      rw [this, hS1, h41, sub_self]
    have hz' := (sum_eq_zero_iff_of_nonneg fun h hh => by
      have := single h (mem_range.1 hh)
      rw [hS1] at this
      exact mul_nonneg (sq_nonneg _) (by linarith)).1 hz
    have hex : ∃ k : Nat, k < n ∧ phi (k : Int) ≠ 0 := by
      by_contra hcon
      push Not at hcon
      have : S = 0 := by rw [hS]; exact sum_eq_zero fun h hh => by rw [hcon h (mem_range.1 hh)]; ring
      rw [this] at hS1; exact zero_ne_one hS1
    obtain ⟨k, hk, hk0⟩ := hex
    have hk1 : phi (k : Int) = 1 := by
      have := hz' k (mem_range.2 hk)
      have h2 : 1 - phi (k : Int) ^ 2 = 0 := (mul_eq_zero.1 this).resolve_left (pow_ne_zero 2 hk0)
      have h0 := hp k hk
      nlinarith
    refine ⟨k, hk, fun h hh => ?_⟩
    split_ifs with e
    · rw [e]; exact hk1
    · have : phi (h : Int) ^ 2 + phi (k : Int) ^ 2 ≤ S := by
        have hsub : ({h, k} : Finset Nat) ⊆ range n := by
          intro x hx
          rcases mem_insert.1 hx with rfl | hx
          · exact mem_range.2 hh
          · rw [mem_singleton.1 hx]; exact mem_range.2 hk
        have := sum_le_sum_of_subset_of_nonneg (f := fun k : Nat => phi (k : Int) ^ 2) hsub fun _ _ _ => sq_nonneg _
        rwa [sum_pair e] at this
      rw [hk1, hS1] at this
      exact pow_eq_zero_iff (two_ne_zero) |>.1 (le_antisymm (by linarith) (sq_nonneg _))
  · rintro ⟨k, hk, h⟩
    have : ∀ m : Nat, m ≠ 0 → ∑ h ∈ range n, phi (h : Int) ^ m = 1 := fun m hm => by
      rw [sum_congr rfl (g := fun h : Nat => if h = k then (1 : α) else 0) fun h' hh => by rw [h h' (mem_range.1 hh)]; split_ifs <;> simp [hm]]
      simp [hk]
    unfold bulk
    rw [this 2 (by decide), this 4 (by decide)]; norm_num

/-- **C117.** The energy of any grid is at least that of a single grain. -/
theorem grainEnergy_ge (g : Shape) (n : Nat) (dx : Nat → α) (data : Int → List α) : -(g.nodes.toNat / 4 : α) ≤ grainEnergy g n dx data := by
  unfold grainEnergy
  have h1 : -(g.nodes.toNat / 4 : α) ≤ total g (fun p => bulk n (entry (data p))) := by
    unfold total
    calc -(g.nodes.toNat / 4 : α) = ∑ _p ∈ range g.nodes.toNat, (-(1 / 4) : α) := by rw [sum_const, card_range, nsmul_eq_mul]; ring
      _ ≤ _ := sum_le_sum fun p _ => bulk_ge n _
  have h2 : 0 ≤ ∑ h ∈ range n, bonds g dx (fun p => entry (data p) h) (fun p => entry (data p) h) := sum_nonneg fun h _ => bonds_nonneg dx _
  linarith

/-- **C117.** The least energy is that of one grain only: with no negative field, a grid has energy `-nodes/4` exactly if every node is inside a grain and neighbouring nodes are in the same
one. -/
theorem grainEnergy_least {g : Shape} {n : Nat} {dx : Nat → α} (hdx : ∀ j < g.dim, dx j ≠ 0) {data : Int → List α}
    (hp : ∀ p, 0 ≤ p → p < g.nodes → ∀ h : Nat, h < n → 0 ≤ entry (data p) h) :
    grainEnergy g n dx data = -(g.nodes.toNat / 4 : α) ↔ ∀ p, 0 ≤ p → p < g.nodes → Pure n (entry (data p)) ∧
      ∀ j < g.dim, ∀ up : Bool, ∀ h : Nat, h < n → entry (data (nb g j p up)) h = entry (data p) h := by
  have hb : ∀ p, -(1 / 4) ≤ bulk n (entry (data p)) := fun p => bulk_ge n _
  have hc : -(g.nodes.toNat / 4 : α) = ∑ _p ∈ range g.nodes.toNat, (-(1 / 4) : α) := by rw [sum_const, card_range, nsmul_eq_mul]; ring
  have h2 : ∀ h : Nat, 0 ≤ bonds g dx (fun p => entry (data p) h) (fun p => entry (data p) h) := fun h => bonds_nonneg dx _
  have h1 : -(g.nodes.toNat / 4 : α) ≤ total g (fun p => bulk n (entry (data p))) := by
    rw [hc]; exact sum_le_sum fun p _ => hb p
  constructor
  · intro he
    unfold grainEnergy at he
    have h2' : 0 ≤ ∑ h ∈ range n, bonds g dx (fun p => entry (data p) h) (fun p => entry (data p) h) := sum_nonneg fun h _ => h2 h
    have e1 : ∑ _p ∈ range g.nodes.toNat, (-(1 / 4) : α) = ∑ p ∈ range g.nodes.toNat, bulk n (entry (data p)) := by
      rw [← hc]; unfold total at he h1; linarith
    have e2 : ∑ h ∈ range n, bonds g dx (fun p => entry (data p) h) (fun p => entry (data p) h) = 0 := by linarith
    intro p p0 p1
    have hpn : p.toNat ∈ range g.nodes.toNat := mem_range.2 (by omega)
    have hpp : ((p.toNat : Nat) : Int) = p := Int.toNat_of_nonneg p0
    refine ⟨(bulk_least (hp p p0 p1)).1 ?_, fun j hj up h hh => ?_⟩
    · have := (sum_eq_sum_iff_of_le fun q _ => hb ((q : Nat) : Int)).1 e1 _ hpn
      rw [hpp] at this; exact this.symm
    · have := (sum_eq_zero_iff_of_nonneg fun h _ => h2 h).1 e2 h (mem_range.2 hh)
      unfold bonds at this
      have nn : ∀ (i q : Nat), 0 ≤ ((entry (data (nb g i q true)) (h : Int) - entry (data q) h) * (entry (data (nb g i q true)) (h : Int) - entry (data q) h) +
          (entry (data (nb g i q false)) (h : Int) - entry (data q) h) * (entry (data (nb g i q false)) (h : Int) - entry (data q) h)) / 2 := fun i q => by
        nlinarith [mul_self_nonneg (entry (data (nb g i q true)) (h : Int) - entry (data q) h), mul_self_nonneg (entry (data (nb g i q false)) (h : Int) - entry (data q) h)]
      have := (sum_eq_zero_iff_of_nonneg fun i _ => div_nonneg (sum_nonneg fun q _ => nn i q) (sq_nonneg (dx i))).1 this j (mem_range.2 hj)
      have := (div_eq_zero_iff.1 this).resolve_right (pow_ne_zero 2 (hdx j hj))
      have := (sum_eq_zero_iff_of_nonneg fun q _ => nn j q).1 this _ hpn
      rw [hpp] at this
      have a1 := mul_self_nonneg (entry (data (nb g j p true)) (h : Int) - entry (data p) h)
      have a2 := mul_self_nonneg (entry (data (nb g j p false)) (h : Int) - entry (data p) h)
      cases up
      · have : (entry (data (nb g j p false)) (h : Int) - entry (data p) h) * (entry (data (nb g j p false)) (h : Int) - entry (data p) h) = 0 := by linarith
        exact sub_eq_zero.1 (mul_self_eq_zero.1 this)
      · have : (entry (data (nb g j p true)) (h : Int) - entry (data p) h) * (entry (data (nb g j p true)) (h : Int) - entry (data p) h) = 0 := by linarith
        exact sub_eq_zero.1 (mul_self_eq_zero.1 this)
  · intro h
    unfold grainEnergy
    have e1 : total g (fun p => bulk n (entry (data p))) = -(g.nodes.toNat / 4 : α) := by
      rw [hc]
      exact sum_congr rfl fun p hq => (bulk_least (hp p (by omega) (by have := mem_range.1 hq; omega))).2 (h p (by omega) (by have := mem_range.1 hq; omega)).1
    rw [e1, sum_eq_zero, add_zero]
    intro k hk
    unfold bonds
    refine sum_eq_zero fun i hi => ?_
    rw [sum_eq_zero, zero_div]
    intro p hq
    have hh := fun up => (h p (by omega) (by have := mem_range.1 hq; omega)).2 i (mem_range.1 hi) up k (mem_range.1 hk)
    beta_reduce
    rw [hh true, hh false]; ring

/-- The limit on the time step for the descent of the energy: `dt (3 n + Σ 4/dx²) ≤ 1`. -/
structure Mild (g : Shape) (n : Nat) (dx : Nat → α) (dt : α) : Prop where
  pos : 0 < dt
  small : dt * (3 * n + ∑ j ∈ range g.dim, 4 / dx j ^ 2) ≤ 1

theorem Mild.stable {g : Shape} {n : Nat} {dx : Nat → α} {dt : α} (h : Mild g n dx dt) : Stable g n dx dt := by
  refine ⟨h.pos.le, le_trans (mul_le_mul_of_nonneg_left ?_ h.pos.le) h.small⟩
  have : (0 : α) ≤ n := Nat.cast_nonneg n
  linarith

/-- One step lowers the energy by half of the squared change at least. `new` is any grid every field of which either did not change or made the explicit step. -/
theorem step_energy {g : Shape} (hs : Serial g) {n : Nat} {dx : Nat → α} {dt : α} (hm : Mild g n dx dt) {a b : Int → List α} (ha : Bounded g n a) (hb : Bounded g n b)
    (hst : ∀ p, 0 ≤ p → p < g.nodes → ∀ h : Nat, h < n → entry (b p) h = entry (a p) h ∨
      entry (b p) h = entry (a p) h - dt * (slope n (entry (a p)) h - 2 * lap g dx (fun q => entry (a q) h) p)) :
    grainEnergy g n dx b + change g n a b / 2 ≤ grainEnergy g n dx a := by
  let e : Nat → Int → α := fun h p => entry (b p) h - entry (a p) h
  have h1 : total g (fun p => bulk n (entry (b p))) ≤ total g (fun p => bulk n (entry (a p))) + total g (fun p => ∑ h ∈ range n, e h p * slope n (entry (a p)) h) + (3 * n - 1 / 2) * change g n a b := by
    unfold change total
    rw [mul_sum, ← sum_add_distrib, ← sum_add_distrib]
    refine sum_le_sum fun p hp => ?_
    have p1 : (p : Int) < g.nodes := by have := mem_range.1 hp; omega
    exact bulk_le (fun h hh => ha p (by omega) p1 h hh) (fun h hh => hb p (by omega) p1 h hh)
  have h2 : ∑ h ∈ range n, bonds g dx (fun p => entry (b p) h) (fun p => entry (b p) h) ≤ ∑ h ∈ range n, bonds g dx (fun p => entry (a p) h) (fun p => entry (a p) h)
      - 2 * ∑ h ∈ range n, total g (fun p => e h p * lap g dx (fun q => entry (a q) h) p) + 2 * weight g dx * ∑ h ∈ range n, total g (fun p => e h p ^ 2) := by
    rw [mul_sum, mul_sum, ← sum_sub_distrib, ← sum_add_distrib]
    refine sum_le_sum fun h _ => ?_
    have : (fun p => entry (b p) (h : Int)) = fun p => entry (a p) (h : Int) + e h p := funext fun p => by simp only [e]; ring
    rw [this, bonds_expand, sum_by_parts hs dx (e h) fun q => entry (a q) h]
    have := bonds_le hs dx (e h)
    linarith
  have hc : ∑ h ∈ range n, total g (fun p => e h p ^ 2) = change g n a b := by
    unfold change total; rw [sum_comm]
  have h4 : dt * total g (fun p => ∑ h ∈ range n, e h p * slope n (entry (a p)) h) - 2 * dt * ∑ h ∈ range n, total g (fun p => e h p * lap g dx (fun q => entry (a q) h) p) = -change g n a b := by
    unfold change total
    rw [sum_comm (s := range n), mul_sum, mul_sum, ← sum_sub_distrib, ← sum_neg_distrib]
    refine sum_congr rfl fun p hp => ?_
    rw [mul_sum, mul_sum, ← sum_sub_distrib, ← sum_neg_distrib]
    refine sum_congr rfl fun h hh => ?_
    rcases hst p (by omega) (by have := mem_range.1 hp; omega) h (mem_range.1 hh) with hz | hz
    · have : e h p = 0 := by simp only [e]; rw [hz, sub_self]
      have e2 : entry (b p) (h : Int) - entry (a p) h = e h p := rfl
      beta_reduce
      rw [e2, this]; ring
    · have : e h p = -dt * (slope n (entry (a p)) h - 2 * lap g dx (fun q => entry (a q) h) p) := by simp only [e]; rw [hz]; ring
      have e2 : entry (b p) (h : Int) - entry (a p) h = e h p := rfl
      beta_reduce
      rw [e2]
      linear_combination e h p * this
  have hw : 2 * weight g dx = ∑ j ∈ range g.dim, 4 / dx j ^ 2 := by
    unfold weight; rw [mul_sum]; exact sum_congr rfl fun _ _ => by ring
  rw [hc, hw] at h2
  have hC0 := change_nonneg g n a b
  have hsm := mul_nonneg (sub_nonneg.2 hm.small) hC0
  have h1' := mul_le_mul_of_nonneg_left h1 hm.pos.le
  have h2' := mul_le_mul_of_nonneg_left h2 hm.pos.le
  refine le_of_mul_le_mul_left ?_ hm.pos
  unfold grainEnergy
  nlinarith

/-- The run, its bounds, and its next step. -/
theorem iso_steps {g : Shape} (hs : Serial g) {n : Nat} {dx : Nat → α} {dt : α} (hm : Mild g n dx dt) {value : (Int → α) → (Int → α) → Int → α}
    (hv : value = isoValue dt n ∨ value = zenerValue dt n) (steps : Nat) {old new : Int → List α} (hf : Full g n old) (hf' : Full g n new) (hb : Bounded g n old) :
    ∃ s t, isoRun g n dx value steps old new = .ok s ∧ isoRun g n dx value (steps + 1) old new = .ok t ∧ Full g n s.1 ∧ Full g n s.2 ∧ Bounded g n s.1 ∧ Bounded g n t.1 ∧
      grainEnergy g n dx t.1 + change g n s.1 t.1 / 2 ≤ grainEnergy g n dx s.1 := by
  have hr := reach_of_serial hs
  obtain ⟨t, et, -, bt⟩ := iso_bounded hs.wf hs.ghosts hr hm.stable hv (steps + 1) hf hf' hb
  obtain ⟨s, es, fs, bs, fs2⟩ : ∃ s, isoRun g n dx value steps old new = .ok s ∧ Full g n s.1 ∧ Bounded g n s.1 ∧ Full g n s.2 := by
    cases steps with
    | zero => exact ⟨(old, new), rfl, hf, hb, hf'⟩
    | succ k =>
      obtain ⟨r, er, fr, -⟩ := iso_bounded hs.wf hs.ghosts hr hm.stable hv k hf hf' hb
      obtain ⟨s, es, fs, bs⟩ := iso_bounded hs.wf hs.ghosts hr hm.stable hv (k + 1) hf hf' hb
      refine ⟨s, es, fs, bs, ?_⟩
      unfold isoRun at es er
      rw [run, er, Outcome.ok_bind] at es
      cases hp : pass .serial g (isoCell .serial g n dx value r.1) r.2 with
      | ok out => rw [hp, Outcome.ok_bind] at es; rw [← Outcome.ok.inj es]; exact fr
      | ub => rw [hp] at es; cases es
      | abort c => rw [hp] at es; cases es
  refine ⟨s, t, es, et, fs, fs2, bs, bt, step_energy hs hm bs bt fun p p0 p1 h hh => ?_⟩
  have hc : ∀ i, ∃ L : List α, 0 ≤ i → i < g.nodes → (∀ h : Nat, h < n → entry L h = lapl g dx (fun p => entry (s.1 p) h) i) ∧
      isoCell .serial g n dx value s.1 i (s.2 i) = .ok ((List.range n).map fun h : Nat => value (entry L) (entry (s.1 i)) h) := by
    intro i
    by_cases hi : 0 ≤ i ∧ i < g.nodes
    · obtain ⟨L, a, b⟩ := isoCell_eq hs.wf hs.ghosts hr n dx value fs hi.1 hi.2 (fs2 i hi.1 hi.2)
      exact ⟨L, fun _ _ => ⟨a, b⟩⟩
    · exact ⟨[], fun a b => absurd ⟨a, b⟩ hi⟩
  choose L hL using hc
  unfold isoRun at es et
  rw [run, es, Outcome.ok_bind, pass_eq hs.wf hs.ghosts _ _ (fun i => (List.range n).map fun h : Nat => value (entry (L i)) (entry (s.1 i)) h) fun i a b => (hL i a b).2, Outcome.ok_bind] at et
  rw [← Outcome.ok.inj et]
  dsimp only
  rw [if_pos ⟨p0, p1⟩, entry_map n _ hh]
  have hiso : isoValue dt n (entry (L p)) (entry (s.1 p)) h = entry (s.1 p) h - dt * (slope n (entry (s.1 p)) h - 2 * lap g dx (fun q => entry (s.1 q) h) p) := by
    unfold isoValue slope
    rw [(hL p p0 p1).1 h hh, lapl_eq_lap]; ring
  rcases hv with rfl | rfl
  · exact Or.inr hiso
  · unfold zenerValue
    split_ifs
    · exact Or.inl rfl
    · exact Or.inr hiso

/-- **C117.** Isotropic grain growth and Zener pinning lose energy: from every step to the next the energy falls by half of the squared change of the grid at least. -/
theorem iso_energy {g : Shape} (hs : Serial g) {n : Nat} {dx : Nat → α} {dt : α} (hm : Mild g n dx dt) {value : (Int → α) → (Int → α) → Int → α}
    (hv : value = isoValue dt n ∨ value = zenerValue dt n) (steps : Nat) {old new : Int → List α} (hf : Full g n old) (hf' : Full g n new) (hb : Bounded g n old) :
    ∃ s t, isoRun g n dx value steps old new = .ok s ∧ isoRun g n dx value (steps + 1) old new = .ok t ∧
      grainEnergy g n dx t.1 + change g n s.1 t.1 / 2 ≤ grainEnergy g n dx s.1 := by
  obtain ⟨s, t, a, b, -, -, -, -, c⟩ := iso_steps hs hm hv steps hf hf' hb
  exact ⟨s, t, a, b, c⟩

/-- **C117.** All changes together: `moved k` the squared change in step `k`, their sum over all steps is at most twice the energy lost, and so at most twice the excess of the initial
energy over that of a single grain, however many steps are made. -/
theorem iso_spent {g : Shape} (hs : Serial g) {n : Nat} {dx : Nat → α} {dt : α} (hm : Mild g n dx dt) {value : (Int → α) → (Int → α) → Int → α}
    (hv : value = isoValue dt n ∨ value = zenerValue dt n) {old new : Int → List α} (hf : Full g n old) (hf' : Full g n new) (hb : Bounded g n old) :
    ∃ s : Nat → (Int → List α) × (Int → List α), (∀ k, isoRun g n dx value k old new = .ok (s k)) ∧ ∀ k,
      grainEnergy g n dx (s k).1 + (∑ i ∈ range k, change g n (s i).1 (s (i + 1)).1) / 2 ≤ grainEnergy g n dx old ∧
      ∑ i ∈ range k, change g n (s i).1 (s (i + 1)).1 ≤ 2 * (grainEnergy g n dx old + g.nodes.toNat / 4) := by
  have hex : ∀ k, ∃ s, isoRun g n dx value k old new = .ok s := fun k => by
    obtain ⟨s, -, e, -⟩ := iso_energy hs hm hv k hf hf' hb
    exact ⟨s, e⟩
  choose s hs' using hex
  have hmain : ∀ k, grainEnergy g n dx (s k).1 + (∑ i ∈ range k, change g n (s i).1 (s (i + 1)).1) / 2 ≤ grainEnergy g n dx old := by
    intro k
    induction k with
    | zero =>
      have : s 0 = (old, new) := (Outcome.ok.inj (hs' 0)).symm
      rw [this]; simp
    | succ k ih =>
      obtain ⟨a, b, ea, eb, h⟩ := iso_energy hs hm hv k hf hf' hb
      have h1 : a = s k := Outcome.ok.inj (ea.symm.trans (hs' k))
      have h2 : b = s (k + 1) := Outcome.ok.inj (eb.symm.trans (hs' (k + 1)))
      subst h1 h2
      rw [sum_range_succ]; linarith
  refine ⟨s, hs', fun k => ⟨hmain k, ?_⟩⟩
  have := hmain k
  have := grainEnergy_ge g n dx (s k).1
  linarith

/-- **C117.** The run comes to rest: among the first `k` steps there is one that changes the grid by no more than `2 (E + nodes/4) / k`, squared. -/
theorem iso_rests {g : Shape} (hs : Serial g) {n : Nat} {dx : Nat → α} {dt : α} (hm : Mild g n dx dt) {value : (Int → α) → (Int → α) → Int → α}
    (hv : value = isoValue dt n ∨ value = zenerValue dt n) {old new : Int → List α} (hf : Full g n old) (hf' : Full g n new) (hb : Bounded g n old) {k : Nat} (hk : 0 < k) :
    ∃ i < k, ∃ s t, isoRun g n dx value i old new = .ok s ∧ isoRun g n dx value (i + 1) old new = .ok t ∧
      change g n s.1 t.1 ≤ 2 * (grainEnergy g n dx old + g.nodes.toNat / 4) / k := by
  obtain ⟨s, e, h⟩ := iso_spent hs hm hv hf hf' hb
  have hk' : (0 : α) < k := Nat.cast_pos.2 hk
  obtain ⟨i, hi, hle⟩ := exists_le_of_sum_le (s := range k) (f := fun i => change g n (s i).1 (s (i + 1)).1) (g := fun _ => 2 * (grainEnergy g n dx old + g.nodes.toNat / 4) / k)
    ⟨0, mem_range.2 hk⟩ (by rw [sum_const, card_range, nsmul_eq_mul, mul_div_cancel₀ _ hk'.ne']; exact (h k).2)
  exact ⟨i, mem_range.1 hi, s i, s (i + 1), e i, e (i + 1), hle⟩

/-- **C117.** A step that does not lower the energy changes nothing. -/
theorem iso_stationary {g : Shape} (hs : Serial g) {n : Nat} {dx : Nat → α} {dt : α} (hm : Mild g n dx dt) {value : (Int → α) → (Int → α) → Int → α}
    (hv : value = isoValue dt n ∨ value = zenerValue dt n) {old new : Int → List α} (hf : Full g n old) (hf' : Full g n new) (hb : Bounded g n old)
    {t : (Int → List α) × (Int → List α)} (ht : isoRun g n dx value 1 old new = .ok t) (he : grainEnergy g n dx old ≤ grainEnergy g n dx t.1) :
    ∀ p, 0 ≤ p → p < g.nodes → ∀ h : Nat, h < n → entry (t.1 p) h = entry (old p) h := by
  obtain ⟨s, t', e1, e2, h⟩ := iso_energy hs hm hv 0 hf hf' hb
  have hs' : s = (old, new) := (Outcome.ok.inj e1).symm
  have ht' : t' = t := Outcome.ok.inj (e2.symm.trans ht)
  subst hs' ht'
  dsimp only at h
  have hz : change g n old t'.1 = 0 := le_antisymm (by linarith) (change_nonneg _ _ _ _)
  intro p p0 p1 k hk
  unfold change total at hz
  have h1 := (sum_eq_zero_iff_of_nonneg fun (q : Nat) _ => sum_nonneg fun (h : Nat) _ => sq_nonneg (entry (t'.1 q) (h : Int) - entry (old q) h)).1 hz p.toNat (mem_range.2 (by omega))
  have h2 := (sum_eq_zero_iff_of_nonneg fun (h : Nat) _ => sq_nonneg (entry (t'.1 ((p.toNat : Nat) : Int)) (h : Int) - entry (old ((p.toNat : Nat) : Int)) h)).1 h1 k (mem_range.2 hk)
  rw [Int.toNat_of_nonneg p0] at h2
  exact sub_eq_zero.1 (pow_eq_zero_iff two_ne_zero |>.1 h2)

/-- **C117.** The shipped time step 0.01 and unit spacing qualify for up to 29 fields in up to three dimensions. -/
theorem shipped_mild {g : Shape} (hd : g.dim ≤ 3) {n : Nat} (hn : n ≤ 29) : Mild g n (fun _ => (1 : α)) (1 / 100) := by
  refine ⟨by norm_num, ?_⟩
  have h1 : (n : α) ≤ 29 := by exact_mod_cast hn
  have h2 : (g.dim : α) ≤ 3 := by exact_mod_cast hd
  simp only [one_pow, div_one, sum_const, card_range, nsmul_eq_mul]
  linarith

end

section
open ParallelRun
open Ghost (IsRank)
variable {α : Type} [Field α] [LinearOrder α] [IsStrictOrderedRing α] {w : World} {np n : Nat} {c : Nat → Cell (List α)}

/-- **C117.** On any decomposition into ranks the programs end on every rank, and after `k` steps the ranks hold the fields of a list of grids the first of which is the initial one and along which the
energy falls by half of the squared change at least. -/
theorem iso_ranks (hc : ∀ k, RoundTrips (c k)) (hPc : ∀ k v, Entries α n k v → (c k).Valid v) (h : w.Ok np) (hgh : 1 ≤ w.ghosts) (hs : Serial w.serial) {dx : Nat → α} {dt : α}
    (hm : Mild w.serial n dx dt) {value : (Int → α) → (Int → α) → Int → α} (hv : value = isoValue dt n ∨ value = zenerValue dt n)
    {σ : Grids (List α)} {D : Int → Grids (List α)} (hF : SameField w np σ D 0) (hS : AllCells w np (Entries α n) σ D) (hb : Bounded w.serial n (σ 0)) :
    ∃ S : Nat → Int → List α, S 0 = σ 0 ∧ ∀ k,
      (∃ D', Finished np (mpiRun c w (evolveUpdate (isoKernel w.d n dx fun l y h => value (entry l) (entry y) h) k) fun r => .ok (D r)) D' ∧
        ∀ r, IsRank np r → ∀ x, (w.shape r).IsNode x → cellAt (w.shape r) (D' r 0) x = cellAt w.serial (S k) x) ∧
      grainEnergy w.serial n dx (S (k + 1)) + change w.serial n (S k) (S (k + 1)) / 2 ≤ grainEnergy w.serial n dx (S k) := by
  have hfull : ∀ k, Full w.serial n (σ k) := fun k p p0 p1 => (hS k).1 p p0 (by rw [cells_eq hs.ghosts]; exact p1)
  obtain ⟨s, es, -⟩ := iso_spent hs hm hv (hfull 0) (hfull 1) hb
  refine ⟨fun k => (s k).1, ?_, fun k => ⟨?_, ?_⟩⟩
  · have : s 0 = (σ 0, σ 1) := (Outcome.ok.inj (es 0)).symm
    show (s 0).1 = σ 0
    rw [this]
  · obtain ⟨s', D', e1, e2, e3⟩ := isoDense_model hc hPc h hgh dx value k hF hS
    have : s' = s k := Outcome.ok.inj (e1.symm.trans (es k))
    subst this
    exact ⟨D', e2, e3⟩
  · obtain ⟨a, b, ea, eb, hab⟩ := iso_energy hs hm hv k (hfull 0) (hfull 1) hb
    have h1 : a = s k := Outcome.ok.inj (ea.symm.trans (es k))
    have h2 : b = s (k + 1) := Outcome.ok.inj (eb.symm.trans (es (k + 1)))
    subst h1 h2
    exact hab

/-- Two ranks, four periodic nodes with two grains and stale ghosts. -/
example : ∃ S : Nat → Int → List ℚ, S 0 = (fun x => if x < 2 then [1, 0] else [0, 1]) ∧ ∀ k,
    (∃ D', Finished 2 (mpiRun (fun _ => unaryCell (List ℚ)) smallWorld (evolveUpdate (isoKernel 1 2 (fun _ => 1) fun l y h => isoValue (1 / 100 : ℚ) 2 (entry l) (entry y) h) k)
        fun r => .ok fun k => if k = 0 then shared (fun x => if x < 2 then [1, 0] else [0, 1]) [9, 9] r else fun _ => [0, 0]) D' ∧
      ∀ r, IsRank 2 r → ∀ x, (smallWorld.shape r).IsNode x → cellAt (smallWorld.shape r) (D' r 0) x = cellAt smallWorld.serial (S k) x) ∧
    grainEnergy smallWorld.serial 2 (fun _ => 1) (S (k + 1)) + change smallWorld.serial 2 (S k) (S (k + 1)) / 2 ≤ grainEnergy smallWorld.serial 2 (fun _ => 1) (S k) :=
  iso_ranks (n := 2) (σ := fun k => if k = 0 then fun x => if x < 2 then [1, 0] else [0, 1] else fun _ => [0, 0]) (fun _ => unaryCell_roundTrips _) (fun _ _ _ => trivial) smallWorld_ok (by decide)
    ⟨serial_wf smallWorld_ok, rfl, fun _ _ => Or.inl ⟨rfl, rfl⟩⟩ (shipped_mild (by decide) (by decide)) (Or.inl rfl) (shared_same _ [9, 9] rfl fun _ => rfl)
    (fun k => ⟨fun o _ _ => by
      show List.length _ = 2
      dsimp only
      split_ifs
      · show List.length (ite _ _ _) = 2
        split_ifs <;> rfl
      · rfl, fun r _ o _ _ => by
      show List.length _ = 2
      split_ifs
      · exact shared_cells (P := fun v : List ℚ => v.length = 2) (fun _ => by split_ifs <;> rfl) rfl r o
      · rfl⟩)
    (fun p _ _ h hh => by
      rw [if_pos rfl]
      interval_cases h <;> split_ifs <;> simp [entry])

end

/-! ## Cases -/

/-- Four periodic nodes. -/
theorem ring4_serial : Serial (SparsePF.line 4) := ⟨⟨by decide, fun _ _ => show (0 : Int) < 4 by decide, by decide⟩, rfl, fun _ _ => Or.inl ⟨rfl, rfl⟩⟩

/-- Two grains next to each other. -/
def grains (p : Int) : List ℚ := if p < 2 then [1, 0] else [0, 1]

theorem grains_full : Full (SparsePF.line 4) 2 grains := fun p _ _ => by unfold grains; split_ifs <;> rfl

theorem grains_bounded : Bounded (SparsePF.line 4) 2 grains := fun p _ _ h hh => by
  unfold grains
  interval_cases h <;> split_ifs <;> simp [entry]

/-- Two walls, each of which has the two fields change by one: the energy is that of a single grain plus 4. -/
example : grainEnergy (SparsePF.line 4) 2 (fun _ => 1) grains = -(4 / 4) + 4 := by decide +kernel

/-- The first step of the two grains lowers their energy. -/
example : ∃ s t, isoRun (SparsePF.line 4) 2 (fun _ => 1) (isoValue (1 / 100) 2) 0 grains grains = .ok s ∧ isoRun (SparsePF.line 4) 2 (fun _ => 1) (isoValue (1 / 100) 2) 1 grains grains = .ok t ∧
    grainEnergy (SparsePF.line 4) 2 (fun _ => 1) t.1 + change (SparsePF.line 4) 2 s.1 t.1 / 2 ≤ grainEnergy (SparsePF.line 4) 2 (fun _ => 1) s.1 :=
  iso_energy ring4_serial (shipped_mild (by decide) (by decide)) (Or.inl rfl) 0 grains_full grains_full grains_bounded

/-- The same grains with the first one pinned come to rest. -/
example : ∃ i < 1000, ∃ s t, isoRun (SparsePF.line 4) 2 (fun _ => 1) (zenerValue (1 / 100) 2) i grains grains = .ok s ∧
    isoRun (SparsePF.line 4) 2 (fun _ => 1) (zenerValue (1 / 100) 2) (i + 1) grains grains = .ok t ∧
    change (SparsePF.line 4) 2 s.1 t.1 ≤ 2 * (grainEnergy (SparsePF.line 4) 2 (fun _ => 1) grains + (SparsePF.line 4).nodes.toNat / 4) / (1000 : Nat) :=
  iso_rests ring4_serial (shipped_mild (by decide) (by decide)) (Or.inr rfl) grains_full grains_full grains_bounded (by decide)

/-- A single grain has the least energy and satisfies the right-hand side of `grainEnergy_least`. -/
example : grainEnergy (SparsePF.line 4) 2 (fun _ => 1) (fun _ => [(0 : ℚ), 1]) = -((SparsePF.line 4).nodes.toNat / 4) :=
  (grainEnergy_least (fun _ _ => one_ne_zero) fun _ _ _ h hh => by interval_cases h <;> simp [entry]).2 fun _ _ _ =>
    ⟨⟨1, by decide, fun h hh => by interval_cases h <;> simp [entry]⟩, fun _ _ _ _ _ => rfl⟩

/-- A single grain does not change, in agreement with `iso_stationary`. -/
example : ∃ t, isoRun (SparsePF.line 4) 2 (fun _ => 1) (isoValue (1 / 100) 2) 1 (fun _ => [(0 : ℚ), 1]) (fun _ => [5, 5]) = .ok t ∧
    grainEnergy (SparsePF.line 4) 2 (fun _ => 1) (fun _ => [(0 : ℚ), 1]) ≤ grainEnergy (SparsePF.line 4) 2 (fun _ => 1) t.1 := by
  obtain ⟨r, e, -⟩ := iso_bounded ring4_serial.wf ring4_serial.ghosts (reach_of_serial ring4_serial) (shipped_mild (α := ℚ) (g := SparsePF.line 4) (n := 2) (by decide) (by decide)).stable (Or.inl rfl) 1
    (old := fun _ => [(0 : ℚ), 1]) (new := fun _ => [5, 5]) (fun _ _ _ => rfl) (fun _ _ _ => rfl) (fun _ _ _ h hh => by interval_cases h <;> simp [entry])
  refine ⟨r, e, le_trans (le_of_eq ?_) (grainEnergy_ge _ _ _ _)⟩
  decide +kernel

/-- **C117.** The limit on the time step is needed: with time step 1 the first step of the two grains raises their energy. -/
theorem iso_large_step :
    ((isoRun (SparsePF.line 4) 2 (fun _ => 1) (isoValue 1 2) 1 grains grains).bind fun s =>
      .ok (decide (grainEnergy (SparsePF.line 4) 2 (fun _ => 1) grains < grainEnergy (SparsePF.line 4) 2 (fun _ => 1) s.1))) = .ok true := by
  decide +kernel

end MMSP.DensePF
