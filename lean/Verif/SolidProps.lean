import Mathlib.Algebra.Order.Archimedean.Basic
import Mathlib.Analysis.SpecialFunctions.Complex.Arg
import Mathlib.Analysis.SpecialFunctions.Trigonometric.Arctan
import Verif.Solid
import Verif.RelaxProps
/-!
# Property C69: solidification
-/

namespace MMSP.Solid

open Finset
open Stencil (gridAt bump view gridAt_ok InReach)
open DensePF (pass pass_eq deref_node lapl nbr)
open Conserve (Serial total nb inReach nb_spec view_position cross cross_cross checkBoundary_closed node_ext)
open ConvexSplit (lap total_lap)
open Relax (reach_of_serial total_congr lapl_between Between weight)

section
variable {α : Type} [Field α] [LinearOrder α] {g : Shape}

theorem centre_ok {V : Type} (hs : Serial g) (data : Int → V) {i : Int} (a : 0 ≤ i) (b : i < g.nodes) : gridAt .serial g data (g.position i) = .ok (data i) := by
  rw [gridAt_ok (inReach hs a b).1, view_position hs data a b]

theorem up_ok {V : Type} (hs : Serial g) (data : Int → V) {i : Int} (a : 0 ≤ i) (b : i < g.nodes) {j : Nat} (hj : j < g.dim) :
    gridAt .serial g data (bump (g.position i) j 1) = .ok (data (nbr g i j 1)) := by
  rw [gridAt_ok ((inReach hs a b).2 j hj).1]; rfl

theorem down_ok {V : Type} (hs : Serial g) (data : Int → V) {i : Int} (a : 0 ≤ i) (b : i < g.nodes) {j : Nat} (hj : j < g.dim) :
    gridAt .serial g data (bump (g.position i) j (-1)) = .ok (data (nbr g i j (-1))) := by
  rw [gridAt_ok ((inReach hs a b).2 j hj).2]; rfl

/-- Forward difference quotient on axis `j`. -/
def slope (g : Shape) (dx : Nat → α) (u : Int → α) (j : Nat) (i : Int) : α := (u (nbr g i j 1) - u i) / dx j

/-- The flux at node `i`. -/
def flow (p : Params α) (g : Shape) (dx : Nat → α) (phi : Int → α) (i : Int) : α × α := flux p (slope g dx phi 0 i) (slope g dx phi 1 i)

/-- Divergence of the flux. -/
def div (p : Params α) (g : Shape) (dx : Nat → α) (phi : Int → α) (i : Int) : α :=
  ((flow p g dx phi i).1 - (flow p g dx phi (nbr g i 0 (-1))).1) / dx 0 + ((flow p g dx phi i).2 - (flow p g dx phi (nbr g i 1 (-1))).2) / dx 1

/-- The cell of node `i` after a step. -/
def next (p : Params α) (g : Shape) (dx : Nat → α) (dt : α) (old : Int → α × α) (ref : Int → α) (i : Int) : α × α :=
  (newPhi p dt (old i).1 (old i).2 (div p g dx (fun q => (old q).1) i),
    (old i).2 + dt * (p.DiffT * lapl g dx (fun q => (old q).2) i + ((old i).1 - ref i) / dt))

omit [Field α] [LinearOrder α] in
theorem keep_eq [Field α] (hs : Serial g) (old : Int → α × α) (ref : Int → α) : keep g old ref = .ok fun q => if 0 ≤ q ∧ q < g.nodes then (old q).1 else ref q := by
  unfold keep
  exact pass_eq hs.wf hs.ghosts _ ref (fun q => (old q).1) fun i a b => by rw [deref_node hs.ghosts old a b, Outcome.ok_bind]

/-- One step computes `next` at every node and keeps the old phase in `refGrid`. -/
theorem step_eq (hs : Serial g) (h2 : g.dim = 2) (p : Params α) (dx : Nat → α) (dt : α) (s : State α) :
    ∃ t, step p g dx dt s = .ok t ∧ (∀ i, 0 ≤ i → i < g.nodes → t.old i = next p g dx dt s.old s.ref i) ∧ t.new = s.old ∧ ∀ i, 0 ≤ i → i < g.nodes → t.ref i = (s.old i).1 := by
  have e0 : 0 < g.dim := by omega
  have e1 : 1 < g.dim := by omega
  let fl : Int → α × α := fun q => if 0 ≤ q ∧ q < g.nodes then flow p g dx (fun q => (s.old q).1) q else (0, 0)
  have hfl : pass .serial g (fluxAt p g dx s.old) (fun _ => (0, 0)) = .ok fl :=
    pass_eq hs.wf hs.ghosts _ _ (flow p g dx fun q => (s.old q).1) fun i a b => by
      unfold fluxAt
      dsimp only
      rw [centre_ok hs s.old a b, Outcome.ok_bind, up_ok hs s.old a b e0, Outcome.ok_bind, up_ok hs s.old a b e1, Outcome.ok_bind]
      rfl
  have hin : ∀ q, 0 ≤ q → q < g.nodes → fl q = flow p g dx (fun q => (s.old q).1) q := fun q a b => if_pos ⟨a, b⟩
  have hcell : ∀ i, 0 ≤ i → i < g.nodes → solidCell p g dx dt s.old fl s.ref i (s.new i) = .ok (next p g dx dt s.old s.ref i) := by
    intro i a b
    have m0 := (DensePF.nbr_mem hs.ghosts (reach_of_serial hs) a b e0).2
    have m1 := (DensePF.nbr_mem hs.ghosts (reach_of_serial hs) a b e1).2
    unfold solidCell
    dsimp only
    rw [centre_ok hs s.old a b, Outcome.ok_bind, centre_ok hs fl a b, Outcome.ok_bind, down_ok hs fl a b e0, Outcome.ok_bind, down_ok hs fl a b e1, Outcome.ok_bind,
      up_ok hs s.old a b e0, Outcome.ok_bind, down_ok hs s.old a b e0, Outcome.ok_bind, up_ok hs s.old a b e1, Outcome.ok_bind, down_ok hs s.old a b e1, Outcome.ok_bind,
      deref_node hs.ghosts s.ref a b, Outcome.ok_bind, hin i a b, hin _ m0.1 m0.2, hin _ m1.1 m1.2]
    congr 1
    unfold next div lapl
    rw [h2, sum_range_succ, sum_range_one, zero_add, zero_add]
  refine ⟨⟨fun q => if 0 ≤ q ∧ q < g.nodes then next p g dx dt s.old s.ref q else s.new q, s.old, fun q => if 0 ≤ q ∧ q < g.nodes then (s.old q).1 else s.ref q⟩, ?_,
    fun i a b => if_pos ⟨a, b⟩, rfl, fun i a b => if_pos ⟨a, b⟩⟩
  unfold step
  rw [hfl, Outcome.ok_bind, pass_eq hs.wf hs.ghosts _ _ (next p g dx dt s.old s.ref) hcell, Outcome.ok_bind, keep_eq hs, Outcome.ok_bind]

/-- Total undercooling. -/
def heat (g : Shape) (data : Int → α × α) : α := total g fun i => (data i).2
/-- Total solid. -/
def solid (g : Shape) (data : Int → α × α) : α := total g fun i => (data i).1

theorem next_heat (hs : Serial g) (p : Params α) (dx : Nat → α) {dt : α} (hdt : dt ≠ 0) (old : Int → α × α) (ref : Int → α) :
    (total g fun i => (next p g dx dt old ref i).2) = heat g old + solid g old - total g ref := by
  have h := total_lap hs dx (fun q => (old q).2)
  have e : (total g fun i => (next p g dx dt old ref i).2) = total g fun i => (old i).2 + dt * p.DiffT * lap g dx (fun q => (old q).2) i + (old i).1 - ref i :=
    total_congr fun i _ _ => by
      unfold next
      rw [Relax.lapl_eq_lap]
      field_simp
      ring
  rw [e]
  unfold heat solid
  unfold total at h ⊢
  rw [sum_sub_distrib, sum_add_distrib, sum_add_distrib, ← mul_sum, h]
  ring

/-- `refGrid` at the beginning of the time loop of `update`. -/
def ref0 (g : Shape) (s : State α) (q : Int) : α := if 0 ≤ q ∧ q < g.nodes then (s.old q).1 else s.ref q

omit [LinearOrder α] in
theorem ref0_total (s : State α) : total g (ref0 g s) = solid g s.old := total_congr fun _ a b => if_pos ⟨a, b⟩

theorem update_eq (hs : Serial g) (p : Params α) (dx : Nat → α) (dt : α) (n : Nat) (s : State α) : update p g dx dt n s = steps p g dx dt n ⟨s.old, s.new, ref0 g s⟩ := by
  unfold update
  rw [keep_eq hs, Outcome.ok_bind]
  rfl

theorem steps_heat (hs : Serial g) (h2 : g.dim = 2) (p : Params α) (dx : Nat → α) {dt : α} (hdt : dt ≠ 0) (n : Nat) (s : State α) :
    ∃ t, steps p g dx dt n s = .ok t ∧ heat g t.old = heat g s.old + (total g t.ref - total g s.ref) := by
  induction n with
  | zero => exact ⟨s, rfl, by rw [sub_self, add_zero]⟩
  | succ n ih =>
    obtain ⟨t, et, ht⟩ := ih
    obtain ⟨u, eu, h1, -, h3⟩ := step_eq hs h2 p dx dt t
    refine ⟨u, by rw [steps, et, Outcome.ok_bind, eu], ?_⟩
    have a1 : heat g u.old = total g fun i => (next p g dx dt t.old t.ref i).2 := total_congr fun i a b => by rw [h1 i a b]
    have a2 : total g u.ref = solid g t.old := total_congr h3
    rw [a1, a2, next_heat hs p dx hdt, ht]
    ring

/-- **C69.** Within one call, after `n + 1` steps the total undercooling has grown by what has solidified in the first `n` steps: heat is released one step late. -/
theorem heat_balance (hs : Serial g) (h2 : g.dim = 2) (p : Params α) (dx : Nat → α) {dt : α} (hdt : dt ≠ 0) (n : Nat) (s : State α) :
    ∃ t u, update p g dx dt n s = .ok t ∧ update p g dx dt (n + 1) s = .ok u ∧ heat g u.old = heat g s.old + (solid g t.old - solid g s.old) := by
  obtain ⟨t, et, ht⟩ := steps_heat hs h2 p dx hdt n ⟨s.old, s.new, ref0 g s⟩
  obtain ⟨u, eu, h1, -, h3⟩ := step_eq hs h2 p dx dt t
  refine ⟨t, u, by rw [update_eq hs, et], by rw [update_eq hs, steps, et, Outcome.ok_bind, eu], ?_⟩
  have a1 : heat g u.old = total g fun i => (next p g dx dt t.old t.ref i).2 := total_congr fun i a b => by rw [h1 i a b]
  rw [a1, next_heat hs p dx hdt, ht]
  dsimp only
  rw [ref0_total]
  ring

/-- **C69.** The heat released by the last step of a call is lost: after two calls of `n + 1` and `m + 1` steps, the total undercooling misses what solidified in step `n + 1`. -/
theorem heat_lost (hs : Serial g) (h2 : g.dim = 2) (p : Params α) (dx : Nat → α) {dt : α} (hdt : dt ≠ 0) (n m : Nat) (s : State α) :
    ∃ a b c d, update p g dx dt n s = .ok a ∧ update p g dx dt (n + 1) s = .ok b ∧ update p g dx dt m b = .ok c ∧ update p g dx dt (m + 1) b = .ok d ∧
      heat g d.old = heat g s.old + (solid g c.old - solid g s.old) - (solid g b.old - solid g a.old) := by
  obtain ⟨a, b, ea, eb, hb⟩ := heat_balance hs h2 p dx hdt n s
  obtain ⟨c, d, ec, ed, hd⟩ := heat_balance hs h2 p dx hdt m b
  refine ⟨a, b, c, d, ea, eb, ec, ed, ?_⟩
  rw [hd, hb]; ring

/-! ## Pure phases -/

theorem newPhi_zero (p : Params α) (dt u : α) : newPhi p dt 0 u 0 = 0 := by
  unfold newPhi; split_ifs <;> simp

end

section
variable {α : Type} [Field α] [LinearOrder α] [IsStrictOrderedRing α] {g : Shape}

theorem newPhi_one {p : Params α} {dt : α} (hp : 0 < p.tau / dt) (u : α) : newPhi p dt 1 u 0 = 1 := by
  unfold newPhi
  split_ifs with h
  · rw [add_zero, mul_one, one_mul, add_comm]
    exact div_self (by linarith)
  · rw [one_mul, sub_self, zero_mul, sub_zero, add_zero]
    exact div_self hp.ne'

omit [IsStrictOrderedRing α] in
theorem flux_zero (p : Params α) : flux p 0 0 = (0, 0) := by
  unfold flux; simp

omit [IsStrictOrderedRing α] in
theorem div_const (p : Params α) (g : Shape) (dx : Nat → α) (c : α) (i : Int) {phi : Int → α} (h : ∀ q, phi q = c) : div p g dx phi i = 0 := by
  have hf : ∀ q, flow p g dx phi q = (0, 0) := by
    intro q
    unfold flow slope
    rw [h, h, h, sub_self, zero_div, zero_div, flux_zero]
  unfold div
  rw [hf, hf, hf]
  simp

/-- The phase of all nodes is `c`. -/
def Pure (g : Shape) (c : α) (data : Int → α × α) : Prop := ∀ q, 0 ≤ q → q < g.nodes → (data q).1 = c

omit [IsStrictOrderedRing α] in
theorem div_congr (hs : Serial g) (h2 : g.dim = 2) (p : Params α) (dx : Nat → α) {phi psi : Int → α} (h : ∀ q, 0 ≤ q → q < g.nodes → phi q = psi q) {i : Int} (a : 0 ≤ i) (b : i < g.nodes) :
    div p g dx phi i = div p g dx psi i := by
  have hr := reach_of_serial hs
  have hf : ∀ q, 0 ≤ q → q < g.nodes → flow p g dx phi q = flow p g dx psi q := by
    intro q a b
    have m0 := (DensePF.nbr_mem hs.ghosts hr a b (by omega : 0 < g.dim)).1
    have m1 := (DensePF.nbr_mem hs.ghosts hr a b (by omega : 1 < g.dim)).1
    unfold flow slope
    rw [h q a b, h _ m0.1 m0.2, h _ m1.1 m1.2]
  have m0 := (DensePF.nbr_mem hs.ghosts hr a b (by omega : 0 < g.dim)).2
  have m1 := (DensePF.nbr_mem hs.ghosts hr a b (by omega : 1 < g.dim)).2
  unfold div
  rw [hf i a b, hf _ m0.1 m0.2, hf _ m1.1 m1.2]

omit [IsStrictOrderedRing α] in
/-- What every step preserves of the nodes of `oldGrid` holds after any number of steps. -/
theorem steps_inv (hs : Serial g) (h2 : g.dim = 2) (p : Params α) (dx : Nat → α) (dt : α) (P : (Int → α × α) → Prop)
    (hP : ∀ (old : Int → α × α) (ref : Int → α) (new : Int → α × α), P old → (∀ i, 0 ≤ i → i < g.nodes → new i = next p g dx dt old ref i) → P new) (n : Nat) (s : State α) (h : P s.old) :
    ∃ t, update p g dx dt n s = .ok t ∧ P t.old := by
  rw [update_eq hs]
  generalize hs' : (⟨s.old, s.new, ref0 g s⟩ : State α) = s'
  have h' : P s'.old := by rw [← hs']; exact h
  induction n with
  | zero => exact ⟨s', rfl, h'⟩
  | succ n ih =>
    obtain ⟨t, et, ht⟩ := ih
    obtain ⟨u, eu, h1, -, -⟩ := step_eq hs h2 p dx dt t
    exact ⟨u, by rw [steps, et, Outcome.ok_bind, eu], hP _ _ _ ht h1⟩

/-- **C69.** Pure liquid and pure solid stay as they are, whatever the undercooling: there is no nucleation. -/
theorem pure_phase (hs : Serial g) (h2 : g.dim = 2) {p : Params α} (dx : Nat → α) {dt : α} (hp : 0 < p.tau / dt) {c : α} (hc : c = 0 ∨ c = 1) (n : Nat) (s : State α) (h : Pure g c s.old) :
    ∃ t, update p g dx dt n s = .ok t ∧ Pure g c t.old := by
  refine steps_inv hs h2 p dx dt (Pure g c) (fun old ref new ho hn i a b => ?_) n s h
  rw [hn i a b]
  unfold next
  dsimp only
  rw [div_congr hs h2 p dx (psi := fun _ => c) ho a b, div_const p g dx c i (fun _ => rfl), ho i a b]
  rcases hc with rfl | rfl
  · exact newPhi_zero p dt _
  · exact newPhi_one hp _

/-! ## Bounds without anisotropy -/

/-- The lower neighbour's upper neighbour is the node itself, unless the node is its own lower neighbour. -/
theorem nbr_back (hs : Serial g) {j : Nat} (hj : j < g.dim) {i : Int} (a : 0 ≤ i) (b : i < g.nodes) : nbr g (nbr g i j (-1)) j 1 = i ∨ nbr g i j (-1) = i := by
  have hc := cross_cross hs hj a b false
  unfold cross at hc
  simp only [Bool.false_eq_true, if_false] at hc
  by_cases h : g.x0 j ≤ g.position i j - 1 ∨ g.b0 j = .periodic
  · left
    rw [if_pos h] at hc
    exact congrArg Prod.fst hc
  · right
    obtain ⟨m0, m1, mp⟩ := nb_spec hs hj a b false
    change nb g j i false = i
    refine node_ext hs m0 m1 a b fun k hk => ?_
    rw [mp k hk]
    by_cases e : k = j
    · subst e
      have hp := Shape.position_isNode hs.wf a b k hj
      rw [if_pos rfl]
      simp only [Bool.false_eq_true, if_false, ← sub_eq_add_neg]
      rw [(checkBoundary_closed (hs.closed k hj) hp.1 hp.2).2, if_neg (fun h' => h (Or.inl h')), if_neg (fun h' => h (Or.inr h'))]
    · rw [if_neg e]

/-- The flux along each axis has the direction of the slope along that axis, and is at most `K` times the isotropic flux. -/
def Mild (p : Params α) (K : α) : Prop :=
  ∀ gx gy, ∃ k l, (0 ≤ k ∧ k ≤ K) ∧ (0 ≤ l ∧ l ≤ K) ∧ flux p gx gy = (p.alpha ^ 2 * k * gx, p.alpha ^ 2 * l * gy)

/-- Without anisotropy. -/
theorem mild_isotropic {p : Params α} (hc : p.c = 0) : Mild p 1 := by
  intro gx gy
  refine ⟨1, 1, ⟨zero_le_one, le_rfl⟩, ⟨zero_le_one, le_rfl⟩, ?_⟩
  unfold flux
  rw [hc]
  simp only [zero_mul, add_zero, one_mul, mul_one, sub_zero, zero_add, sq]

/-- Contribution of one axis to the divergence, when the flux is `k` times the slope. -/
theorem axis_bounds (hs : Serial g) {j : Nat} (hj : j < g.dim) (dx : Nat → α) {phi : Int → α} (h : Between g 0 1 phi) {i : Int} (a : 0 ≤ i) (b : i < g.nodes)
    {k : Int → α} {K : α} (hk : ∀ q, 0 ≤ k q ∧ k q ≤ K) :
    -(phi i * (K * (2 / dx j ^ 2))) ≤ (k i * slope g dx phi j i - k (nbr g i j (-1)) * slope g dx phi j (nbr g i j (-1))) / dx j ∧
    (k i * slope g dx phi j i - k (nbr g i j (-1)) * slope g dx phi j (nbr g i j (-1))) / dx j ≤ (1 - phi i) * (K * (2 / dx j ^ 2)) := by
  obtain ⟨m1, m2⟩ := DensePF.nbr_mem hs.ghosts (reach_of_serial hs) a b hj
  have hu := h _ m1.1 m1.2
  have hd := h _ m2.1 m2.2
  have hi := h i a b
  have hw : 0 ≤ 1 / dx j ^ 2 := by positivity
  have k1 := hk i
  have k2 := hk (nbr g i j (-1))
  have hK : 0 ≤ K := k1.1.trans k1.2
  rcases nbr_back hs hj a b with e | e
  · have ex : (k i * slope g dx phi j i - k (nbr g i j (-1)) * slope g dx phi j (nbr g i j (-1))) / dx j =
        (k i * (phi (nbr g i j 1) - phi i) - k (nbr g i j (-1)) * (phi i - phi (nbr g i j (-1)))) * (1 / dx j ^ 2) := by
      unfold slope; rw [e]; ring
    rw [ex]
    have a1 := mul_nonneg k1.1 hu.1
    have a2 := mul_nonneg k2.1 hd.1
    have a3 := mul_nonneg (sub_nonneg.2 k1.2) hi.1
    have a4 := mul_nonneg (sub_nonneg.2 k2.2) hi.1
    have b1 := mul_nonneg k1.1 (sub_nonneg.2 hu.2)
    have b2 := mul_nonneg k2.1 (sub_nonneg.2 hd.2)
    have b3 := mul_nonneg (sub_nonneg.2 k1.2) (sub_nonneg.2 hi.2)
    have b4 := mul_nonneg (sub_nonneg.2 k2.2) (sub_nonneg.2 hi.2)
    constructor
    · have e1 : -(phi i * (K * (2 / dx j ^ 2))) = -(2 * K * phi i) * (1 / dx j ^ 2) := by ring
      rw [e1]
      refine mul_le_mul_of_nonneg_right ?_ hw
      linarith
    · have e1 : (1 - phi i) * (K * (2 / dx j ^ 2)) = (2 * K * (1 - phi i)) * (1 / dx j ^ 2) := by ring
      rw [e1]
      refine mul_le_mul_of_nonneg_right ?_ hw
      linarith
  · rw [e, sub_self, zero_div]
    have e1 := mul_nonneg hi.1 (mul_nonneg hK hw)
    have e2 := mul_nonneg (sub_nonneg.2 hi.2) (mul_nonneg hK hw)
    constructor
    · have : -(phi i * (K * (2 / dx j ^ 2))) = -2 * (phi i * (K * (1 / dx j ^ 2))) := by ring
      linarith
    · have : (1 - phi i) * (K * (2 / dx j ^ 2)) = 2 * ((1 - phi i) * (K * (1 / dx j ^ 2))) := by ring
      linarith

/-- The semi-implicit update of the phase keeps it in `[0, 1]` when the divergence is moderate. -/
theorem newPhi_between {p : Params α} {dt phi u d : α} (hp : 0 < p.tau / dt) (h0 : 0 ≤ phi) (h1 : phi ≤ 1) (d0 : -(phi * (p.tau / dt)) ≤ d) (d1 : d ≤ (1 - phi) * (p.tau / dt)) :
    0 ≤ newPhi p dt phi u d ∧ newPhi p dt phi u d ≤ 1 := by
  unfold newPhi
  generalize mPhi p phi u = m
  split_ifs with hm
  · have hpm := mul_nonneg h0 hm.le
    have hden : 0 < p.tau / dt + phi * m := by linarith
    constructor
    · refine div_nonneg ?_ hden.le
      have : (m + p.tau / dt) * phi + d = phi * m + (phi * (p.tau / dt) + d) := by ring
      linarith
    · rw [div_le_one hden]
      have : (m + p.tau / dt) * phi + d = phi * m + (phi * (p.tau / dt) + d) := by ring
      linarith
  · have hpm := mul_nonneg (sub_nonneg.2 h1) (by linarith : 0 ≤ -m)
    have hden : 0 < p.tau / dt - (1 - phi) * m := by linarith
    have e : phi * p.tau / dt = phi * (p.tau / dt) := by ring
    constructor
    · refine div_nonneg ?_ hden.le
      rw [e]; linarith
    · rw [div_le_one hden, e]
      linarith

/-- **C69.** While the flux is mild and the time step within the limit, the phase stays between 0 and 1 for any number of steps, whatever the undercooling. -/
theorem phase_bounded (hs : Serial g) (h2 : g.dim = 2) {p : Params α} {K : α} (hm : Mild p K) {dx : Nat → α} {dt : α} (hp : 0 < p.tau / dt)
    (hst : p.alpha ^ 2 * (K * weight g dx) ≤ p.tau / dt) (n : Nat) (s : State α) (h : Between g 0 1 fun q => (s.old q).1) :
    ∃ t, update p g dx dt n s = .ok t ∧ Between g 0 1 fun q => (t.old q).1 := by
  refine steps_inv hs h2 p dx dt (fun d => Between g 0 1 fun q => (d q).1) (fun old ref new ho hn i a b => ?_) n s h
  beta_reduce
  rw [hn i a b]
  unfold next
  dsimp only
  have hi := ho i a b
  choose k l hk hl hkl using hm
  obtain ⟨l0, u0⟩ := axis_bounds hs (by omega : 0 < g.dim) dx ho a b
    (k := fun q => k (slope g dx (fun q => (old q).1) 0 q) (slope g dx (fun q => (old q).1) 1 q)) fun q => hk _ _
  obtain ⟨l1, u1⟩ := axis_bounds hs (by omega : 1 < g.dim) dx ho a b
    (k := fun q => l (slope g dx (fun q => (old q).1) 0 q) (slope g dx (fun q => (old q).1) 1 q)) fun q => hl _ _
  have hw : weight g dx = 2 / dx 0 ^ 2 + 2 / dx 1 ^ 2 := by
    unfold weight; rw [h2, sum_range_succ, sum_range_one]
  have ha : 0 ≤ p.alpha ^ 2 := sq_nonneg _
  have e1 := mul_le_mul_of_nonneg_left (add_le_add l0 l1) ha
  have e2 := mul_le_mul_of_nonneg_left (add_le_add u0 u1) ha
  have f1 := mul_le_mul_of_nonneg_left hst hi.1
  have f2 := mul_le_mul_of_nonneg_left hst (sub_nonneg.2 hi.2)
  rw [hw] at f1 f2
  beta_reduce at e1 e2 f1 f2
  refine newPhi_between hp hi.1 hi.2 ?_ ?_
  · unfold div flow
    rw [hkl, hkl, hkl]
    dsimp only
    refine le_trans ?_ (le_trans e1 (le_of_eq (by ring)))
    linarith
  · unfold div flow
    rw [hkl, hkl, hkl]
    dsimp only
    refine le_trans (le_trans (le_of_eq (by ring)) e2) ?_
    linarith

/-- The reduced time step satisfies the condition of `phase_bounded` with `K = 2`. -/
theorem cfl_suffices (h2 : g.dim = 2) {p : Params α} {dx : Nat → α} {dt : α} (hd : 0 < dt) (ha : p.alpha ≠ 0) (hx : dx 0 ≠ 0) (hle : dt ≤ 1 / 2 * cfl p dx) :
    p.alpha ^ 2 * (2 * weight g dx) ≤ p.tau / dt := by
  have hw : weight g dx = 2 / dx 0 ^ 2 + 2 / dx 1 ^ 2 := by
    unfold weight; rw [h2, sum_range_succ, sum_range_one]
  have hpos : 0 < 2 * p.alpha * p.alpha * (1 / dx 0 ^ 2 + 1 / dx 1 ^ 2) := by
    have h1 : 0 < p.alpha * p.alpha := mul_self_pos.2 ha
    have h2 : 0 < 1 / dx 0 ^ 2 := by positivity
    have h3 : 0 ≤ 1 / dx 1 ^ 2 := by positivity
    have := mul_pos h1 (add_pos_of_pos_of_nonneg h2 h3)
    linarith
  have hle : 2 * dt ≤ cfl p dx := by linarith
  unfold cfl at hle
  rw [le_div_iff₀ hpos] at hle
  rw [le_div_iff₀ hd, hw]
  calc _ = 2 * dt * (2 * p.alpha * p.alpha * (1 / dx 0 ^ 2 + 1 / dx 1 ^ 2)) := by ring
    _ ≤ _ := hle

/-! ## The reduction of the time step -/

theorem reduce_spec {limit : α} : ∀ {fuel : Nat} {dt r : α}, 0 < dt → reduce limit fuel dt = some r → 0 < r ∧ r ≤ 1 / 2 * limit ∧ (r = dt ∨ 3 / 8 * limit < r) := by
  intro fuel
  induction fuel with
  | zero => intro dt r _ h; cases h
  | succ n ih =>
    intro dt r hd h
    unfold reduce at h
    split_ifs at h with hc
    · obtain ⟨a, b, c⟩ := ih (by positivity) h
      refine ⟨a, b, Or.inr ?_⟩
      rcases c with rfl | c
      · linarith
      · exact c
    · cases h
      exact ⟨hd, not_lt.1 hc, Or.inl rfl⟩

/-- **C69.** The loop that reduces the time step ends, and leaves a step between 3/8 and 1/2 of the limit, or the original one. -/
theorem reduce_terminates [Archimedean α] {limit dt : α} (hl : 0 < limit) (hd : 0 < dt) :
    ∃ fuel r, reduce limit fuel dt = some r ∧ 0 < r ∧ r ≤ 1 / 2 * limit ∧ (r = dt ∨ 3 / 8 * limit < r) := by
  obtain ⟨n, hn⟩ := exists_pow_lt_of_lt_one (show 0 < 1 / 2 * limit / dt by positivity) (show (3 / 4 : α) < 1 by norm_num)
  have hle : dt * (3 / 4) ^ n ≤ 1 / 2 * limit := by
    rw [lt_div_iff₀ hd] at hn
    linarith
  suffices ∃ fuel r, reduce limit fuel dt = some r by
    obtain ⟨f, r, e⟩ := this
    exact ⟨f, r, e, reduce_spec hd e⟩
  clear hn
  induction n generalizing dt with
  | zero => exact ⟨1, dt, by unfold reduce; rw [if_neg (by simpa using hle)]⟩
  | succ n ih =>
    by_cases hc : dt > 1 / 2 * limit
    · obtain ⟨f, r, e⟩ := ih (dt := dt * (3 / 4)) (by positivity) (by rw [pow_succ'] at hle; linarith)
      exact ⟨f + 1, r, by unfold reduce; rw [if_pos hc]; exact e⟩
    · exact ⟨1, dt, by unfold reduce; rw [if_neg hc]⟩

/-- **C69.** Without neighbours an interface value grows exactly above the threshold `1/2 + k1/pi·atan(k2·u)`, shrinks exactly below it and
rests at it: undercooling (`u < 0`) lowers the threshold and so favours the solid. -/
theorem growth_iff {p : Params α} {dt phi u : α} (ht : 0 < p.tau / dt) (h0 : 0 < phi) (h1 : phi < 1) :
    (phi < newPhi p dt phi u 0 ↔ 1 / 2 + p.k1 / p.pi * p.atan (p.k2 * u) < phi) ∧
    (newPhi p dt phi u 0 < phi ↔ phi < 1 / 2 + p.k1 / p.pi * p.atan (p.k2 * u)) := by
  have em : mPhi p phi u = phi - (1 / 2 + p.k1 / p.pi * p.atan (p.k2 * u)) := by unfold mPhi; ring
  have hsub : 0 < 1 - phi := sub_pos.2 h1
  unfold newPhi
  have c1 : 1 / 2 + p.k1 / p.pi * p.atan (p.k2 * u) < phi ↔ 0 < mPhi p phi u := by rw [em, sub_pos]
  have c2 : phi < 1 / 2 + p.k1 / p.pi * p.atan (p.k2 * u) ↔ mPhi p phi u < 0 := by rw [em, sub_neg]
  rw [c1, c2]
  clear c1 c2 em
  generalize mPhi p phi u = m
  have e1 : phi * p.tau / dt = phi * (p.tau / dt) := by ring
  rw [e1]
  generalize p.tau / dt = t at ht
  split_ifs with hm
  · have hden : 0 < t + phi * m := by positivity
    have hpos : 0 < phi * (1 - phi) * m := by positivity
    rw [lt_div_iff₀ hden, div_lt_iff₀ hden]
    refine ⟨⟨fun _ => hm, fun _ => by nlinarith⟩, ⟨fun h => by nlinarith, fun h => absurd hm (not_lt.2 h.le)⟩⟩
  · have hm' : m ≤ 0 := not_lt.1 hm
    have hden : 0 < t - (1 - phi) * m := by nlinarith [mul_nonneg hsub.le (neg_nonneg.2 hm')]
    rw [lt_div_iff₀ hden, div_lt_iff₀ hden]
    have hn : 0 ≤ phi * (1 - phi) * -m := mul_nonneg (mul_pos h0 hsub).le (neg_nonneg.2 hm')
    refine ⟨⟨fun h => by nlinarith, fun h => absurd h hm⟩, ⟨fun h => ?_, fun h => ?_⟩⟩
    · by_contra hc
      have : m = 0 := le_antisymm hm' (not_lt.1 hc)
      rw [this] at h
      exact absurd h (by simp)
    · have : 0 < phi * (1 - phi) * -m := mul_pos (mul_pos h0 hsub) (neg_pos.2 h)
      nlinarith

/-- **C69.** At the melting temperature neither phase is preferred: exchanging solid and liquid exchanges the results. -/
theorem melting_symmetric {p : Params α} (ha : p.atan 0 = 0) {dt phi : α} (ht : 0 < p.tau / dt) (h0 : 0 ≤ phi) (h1 : phi ≤ 1) (d : α) :
    newPhi p dt (1 - phi) 0 (-d) = 1 - newPhi p dt phi 0 d := by
  have e : ∀ x, mPhi p x 0 = x - 1 / 2 := by intro x; unfold mPhi; rw [mul_zero, ha]; ring
  have e1 : ∀ x, x * p.tau / dt = x * (p.tau / dt) := by intro x; ring
  unfold newPhi
  rw [e, e, e1, e1]
  generalize p.tau / dt = t at ht
  rcases lt_trichotomy phi (1 / 2) with h | rfl | h
  · rw [if_pos (by linarith), if_neg (by linarith)]
    have hden : t - (1 - phi) * (phi - 1 / 2) ≠ 0 := by
      have := mul_nonneg (sub_nonneg.2 h1) (sub_nonneg.2 h.le); apply ne_of_gt; linarith
    have e2 : t + (1 - phi) * (1 - phi - 1 / 2) = t - (1 - phi) * (phi - 1 / 2) := by ring
    rw [e2, eq_sub_iff_add_eq, ← add_div, div_eq_one_iff_eq hden]; ring
  · norm_num
    field_simp; ring
  · rw [if_neg (by linarith), if_pos (by linarith)]
    have hden : t + phi * (phi - 1 / 2) ≠ 0 := by
      have := mul_nonneg h0 (sub_nonneg.2 h.le); apply ne_of_gt; linarith
    have e2 : t - (1 - (1 - phi)) * (1 - phi - 1 / 2) = t + phi * (phi - 1 / 2) := by ring
    rw [e2, eq_sub_iff_add_eq, ← add_div, div_eq_one_iff_eq hden]; ring

end

/-! ## The parameters of the example -/

/-- The constants of solidification.cpp 67-75 with the real functions; `theta` and `N psi / 2` as there. -/
noncomputable def real : Params ℝ :=
  ⟨0, 2 / 100, 6, 15 / 1000, 3 / 10000, 9 / 10, 20, 225 / 100, Real.pi, fun y x => Complex.arg ⟨x, y⟩, Real.tan, Real.arctan⟩

theorem abs_sin_mul (n : Nat) (x : ℝ) : |Real.sin (n * x)| ≤ n * |Real.sin x| := by
  induction n with
  | zero => simp
  | succ n ih =>
    have e : ((n + 1 : Nat) : ℝ) * x = n * x + x := by push_cast; ring
    rw [e, Real.sin_add]
    have h1 := abs_add_le (Real.sin (n * x) * Real.cos x) (Real.cos (n * x) * Real.sin x)
    rw [abs_mul, abs_mul] at h1
    have h2 := mul_le_mul_of_nonneg_left (Real.abs_cos_le_one x) (abs_nonneg (Real.sin (n * x)))
    have h3 := mul_le_mul_of_nonneg_right (Real.abs_cos_le_one (n * x)) (abs_nonneg (Real.sin x))
    push_cast
    linarith

theorem tan_sin (x : ℝ) : 2 * Real.tan x / (1 + Real.tan x * Real.tan x) = Real.sin (2 * x) := by
  rw [Real.sin_two_mul]
  by_cases h : Real.cos x = 0
  · rw [Real.tan_eq_sin_div_cos, h]; simp
  · rw [Real.tan_eq_sin_div_cos]
    have hp : 1 + Real.sin x / Real.cos x * (Real.sin x / Real.cos x) = 1 / Real.cos x ^ 2 := by
      field_simp
      linarith [Real.sin_sq_add_cos_sq x]
    rw [hp]
    field_simp

/-- The size of the cross terms. -/
theorem cross_small (gx gy : ℝ) {psi d : ℝ} (hpsi : psi = 0 + Complex.arg ⟨gx, gy⟩) (hd : d = -2 * 6 * Real.tan (6 * psi / 2) / (1 + Real.tan (6 * psi / 2) * Real.tan (6 * psi / 2))) :
    |d * gy| ≤ 36 * |gx| ∧ |d * gx| ≤ 36 * |gy| := by
  have e : d = -6 * Real.sin (6 * psi) := by
    have := tan_sin (6 * psi / 2)
    rw [show 2 * (6 * psi / 2) = 6 * psi by ring] at this
    rw [hd, ← this]; ring
  have hx : gx = ‖(⟨gx, gy⟩ : ℂ)‖ * Real.cos psi := by rw [hpsi, zero_add, Complex.norm_mul_cos_arg]
  have hy : gy = ‖(⟨gx, gy⟩ : ℂ)‖ * Real.sin psi := by rw [hpsi, zero_add, Complex.norm_mul_sin_arg]
  have s1 : |Real.sin (6 * psi)| ≤ 6 * |Real.sin psi| := by exact_mod_cast abs_sin_mul 6 psi
  have s2 : |Real.sin (6 * psi)| ≤ 6 * |Real.cos psi| := by
    have h := abs_sin_mul 6 (Real.pi / 2 - psi)
    rw [Real.sin_pi_div_two_sub] at h
    have e : Real.sin (((6 : Nat) : ℝ) * (Real.pi / 2 - psi)) = Real.sin (6 * psi) := by
      have : ((6 : Nat) : ℝ) * (Real.pi / 2 - psi) = Real.pi - 6 * psi + 2 * Real.pi := by push_cast; ring
      rw [this, Real.sin_add_two_pi, Real.sin_pi_sub]
    rw [e] at h
    exact_mod_cast h
  set r := ‖(⟨gx, gy⟩ : ℂ)‖ with hr
  have hr0 : 0 ≤ r := norm_nonneg _
  have c1 := Real.abs_cos_le_one psi
  have c2 := Real.abs_sin_le_one psi
  have n1 := abs_nonneg (Real.sin psi)
  have n2 := abs_nonneg (Real.cos psi)
  rw [e]
  constructor
  · rw [hx, hy]
    simp only [abs_mul, abs_neg, abs_of_nonneg hr0, Nat.abs_ofNat]
    have h1 : |Real.sin (6 * psi)| * |Real.sin psi| ≤ 6 * |Real.cos psi| := by nlinarith
    nlinarith
  · rw [hx, hy]
    simp only [abs_mul, abs_neg, abs_of_nonneg hr0, Nat.abs_ofNat]
    have h1 : |Real.sin (6 * psi)| * |Real.cos psi| ≤ 6 * |Real.sin psi| := by nlinarith
    nlinarith

/-- The factor of one axis. -/
theorem factor {b q x : ℝ} (hb : |b| ≤ 1) (hq : |q| ≤ 36 * |x|) : ∃ k, (0 ≤ k ∧ k ≤ 2) ∧ (1 + 2 / 100 * b) * ((1 + 2 / 100 * b) * x + 2 / 100 * q) = k * x := by
  obtain ⟨b0, b1⟩ := abs_le.1 hb
  by_cases h : x = 0
  · subst h
    have : q = 0 := by simpa using hq
    subst this
    exact ⟨0, ⟨le_rfl, by norm_num⟩, by ring⟩
  · have hr : |q / x| ≤ 36 := by
      rw [abs_div, div_le_iff₀ (abs_pos.2 h)]; exact hq
    obtain ⟨r0, r1⟩ := abs_le.1 hr
    refine ⟨(1 + 2 / 100 * b) * ((1 + 2 / 100 * b) + 2 / 100 * (q / x)), ⟨mul_nonneg (by linarith) (by linarith), ?_⟩, by field_simp⟩
    nlinarith

/-- **C69.** The anisotropy of the example (2%, six-fold) is mild, with factor 2. -/
theorem real_mild : Mild real 2 := by
  intro gx gy
  unfold flux real
  dsimp only
  generalize hpsi : (0 : ℝ) + Complex.arg ⟨gx, gy⟩ = psi
  generalize hd : (-2 * 6 * Real.tan (6 * psi / 2)) / (1 + Real.tan (6 * psi / 2) * Real.tan (6 * psi / 2)) = d
  obtain ⟨q1, q2⟩ := cross_small gx gy hpsi.symm hd.symm
  have hb : |(1 - Real.tan (6 * psi / 2) * Real.tan (6 * psi / 2)) / (1 + Real.tan (6 * psi / 2) * Real.tan (6 * psi / 2))| ≤ 1 := by
    have h0 := mul_self_nonneg (Real.tan (6 * psi / 2))
    rw [abs_div, abs_of_pos (show 0 < 1 + Real.tan (6 * psi / 2) * Real.tan (6 * psi / 2) by linarith), div_le_one (by linarith), abs_le]
    constructor <;> linarith
  generalize (1 - Real.tan (6 * psi / 2) * Real.tan (6 * psi / 2)) / (1 + Real.tan (6 * psi / 2) * Real.tan (6 * psi / 2)) = b at hb ⊢
  obtain ⟨k, hk, ek⟩ := factor hb (x := gx) (q := -(d * gy)) (by rw [abs_neg]; exact q1)
  obtain ⟨l, hl, el⟩ := factor hb (x := gy) (q := d * gx) q2
  refine ⟨k, l, hk, hl, Prod.ext ?_ ?_⟩
  · dsimp only
    linear_combination (15 / 1000 : ℝ) ^ 2 * ek
  · dsimp only
    linear_combination (15 / 1000 : ℝ) ^ 2 * el

/-- **C69.** The example as it is: with the time step the code arrives at, the phase stays between 0 and 1 for any number of steps on any closed grid with any spacing. -/
theorem example_bounded {g : Shape} (hs : Serial g) (h2 : g.dim = 2) {dx : Nat → ℝ} (hx : 0 < dx 0) (n : Nat) (s : State ℝ) (h : Between g 0 1 fun q => (s.old q).1) :
    ∃ fuel dt, reduce (cfl real dx) fuel (5 / 100000) = some dt ∧ 0 < dt ∧ ∃ t, update real g dx dt n s = .ok t ∧ Between g 0 1 fun q => (t.old q).1 := by
  have hc : 0 < cfl real dx := by
    have h2 : 0 < 1 / dx 0 ^ 2 := by positivity
    have h3 : 0 ≤ 1 / dx 1 ^ 2 := by positivity
    unfold cfl
    refine div_pos (by norm_num [real]) (mul_pos (by norm_num [real]) (add_pos_of_pos_of_nonneg h2 h3))
  obtain ⟨f, r, e, r0, r1, -⟩ := reduce_terminates hc (show (0 : ℝ) < 5 / 100000 by norm_num)
  refine ⟨f, r, e, r0, phase_bounded hs h2 real_mild ?_ (cfl_suffices h2 r0 ?_ hx.ne' r1) n s h⟩
  · exact div_pos (by norm_num [real]) r0
  · norm_num [real]

/-! ## Examples -/

/-- Constants of the example, with simple stand-ins for the library functions and without anisotropy. -/
def plain : Params ℚ := ⟨0, 0, 6, 15 / 1000, 3 / 10000, 9 / 10, 20, 225 / 100, 3, fun _ _ => 0, fun _ => 0, fun x => if x < -1 then -3 / 2 else if x > 1 then 3 / 2 else x⟩

/-- A seed in the middle of a periodic 3 × 3 grid. -/
def torus : Shape := ⟨2, fun _ => 0, fun _ => 3, fun _ => .periodic, fun _ => .periodic, 0⟩

theorem torus_serial : Serial torus := ⟨⟨by decide, by decide, by decide⟩, rfl, fun _ _ => Or.inl ⟨rfl, rfl⟩⟩

/-- See `torus`. -/
def seed (q : Int) : ℚ × ℚ := if q = 4 then (1, -1 / 2) else (0, -1 / 2)

example (n : Nat) : ∃ t, update plain torus (fun _ => 25 / 1000) (5 / 100000) n ⟨seed, seed, fun _ => 0⟩ = .ok t ∧ Between torus 0 1 fun q => (t.old q).1 :=
  phase_bounded torus_serial rfl (mild_isotropic rfl) (by decide +kernel) (by decide +kernel) n _ fun q _ _ => by
    change 0 ≤ (seed q).1 ∧ (seed q).1 ≤ 1; unfold seed; split_ifs <;> constructor <;> norm_num

example : plain.atan 0 = 0 ∧ 0 < plain.tau / (5 / 100000) ∧ (2 / 5 : ℚ) < newPhi plain (5 / 100000) (2 / 5) (-1 / 2) 0 ∧
    newPhi plain (5 / 100000) (2 / 5) 0 0 < 2 / 5 := by decide +kernel

/-- **C69.** The result depends on how the steps are divided into calls: two steps in one call and in two calls release different heat. -/
theorem split_differs :
    ((update plain torus (fun _ => 25 / 1000) (5 / 100000) 2 ⟨seed, seed, fun _ => 0⟩).bind fun t => .ok (heat torus t.old)) ≠
    ((update plain torus (fun _ => 25 / 1000) (5 / 100000) 1 ⟨seed, seed, fun _ => 0⟩).bind fun t =>
      (update plain torus (fun _ => 25 / 1000) (5 / 100000) 1 t).bind fun t => .ok (heat torus t.old)) := by
  decide +kernel

/-- **C69.** On faces that are not periodic the scheme is lopsided: a solid layer along one face of a 3 × 3 box and its mirror image along the opposite face do not evolve alike. -/
theorem lopsided :
    ((update plain (Relax.square 3) (fun _ => 25 / 1000) (5 / 100000) 1 ⟨fun q => (if (Relax.square 3).position q 0 = 0 then 1 else 0, 0), seed, fun _ => 0⟩).bind fun t => .ok (solid (Relax.square 3) t.old)) ≠
    ((update plain (Relax.square 3) (fun _ => 25 / 1000) (5 / 100000) 1 ⟨fun q => (if (Relax.square 3).position q 0 = 2 then 1 else 0, 0), seed, fun _ => 0⟩).bind fun t => .ok (solid (Relax.square 3) t.old)) := by
  decide +kernel

end MMSP.Solid
