import Verif.RoundNearest
import Verif.DensePFProps
import Verif.RelaxProps
import Verif.MTRandRange
import Verif.ImageProps
import Mathlib.Tactic.Linarith
import Mathlib.Tactic.LinearCombination
import Mathlib.Tactic.NormNum
/-!
# Programs in floating point

Four pieces of code with every operation rounded to `p` significant digits, to nearest, ties to even (`Rounding.fl`); `p = 53` for `double`. Simplifications: neither overflow nor
underflow, no fused multiply-add, no extended precision.
-/

namespace MMSP.Rounded
open Rounding

/-! ## Model -/

/-- `sum += value`, `anisotropic/phase_field/graingrowth.cpp` 171-178, `zener_pinning/anisotropic/phase_field/zener.cpp` 184-191. -/
noncomputable def sumFl (p : Nat) (vs : List ℝ) : ℝ := vs.foldl (fun s v => fl p (s + v)) 0

/-- `rsum`, `anisotropic/phase_field/graingrowth.cpp` 181-182, zener.cpp 194-195. -/
noncomputable def recipFl (p : Nat) (S : ℝ) : ℝ := if |S| > 0 then fl p (1 / S) else 0

/-- `newGrid(i)[h] *= rsum`, `anisotropic/phase_field/graingrowth.cpp` 183-184, zener.cpp 196-197. -/
noncomputable def projectFl (p : Nat) (vs : List ℝ) : List ℝ := vs.map fun v => fl p (v * recipFl p (sumFl p vs))

/-- Body of the node loop, `anisotropic/phase_field/graingrowth.cpp` 111-186, `zener_pinning/anisotropic/phase_field/zener.cpp` 122-199. `raw` stands for the expression
`oldGrid(i)[h]+dt*(2.0/S)*dpdt[h]`, whatever its value after all roundings: of the old data, the node and the field. -/
noncomputable def roundedCell (p : Nat) (bd : Build) (g : Shape) (n : Nat) (raw : (Int → List ℝ) → Int → Int → ℝ) (old : Int → List ℝ) (i : Int) (z : List ℝ) : Outcome (List ℝ) :=
  (DensePF.marked bd g n old (g.position i)).bind fun s =>
  (deref g old (g.atNode bd i)).bind fun y =>
  if s.length < 2 then .ok y
  else if n ≤ z.length then .ok (projectFl p ((List.range n).map fun h : Nat => SparsePF.clamp (raw old i h)) ++ z.drop n) else .abort 134

/-- The expression assigned to `newGrid[x]`, `examples/beginners_diffusion/1stDiffusion.cpp` 34-35; `c` is `diffusionCoefficient*dt`. -/
noncomputable def nodeFl (p : Nat) (dx c a b d : ℝ) : ℝ := fl p (fl p (c * fl p (fl p (fl p (a - fl p (2 * b)) + d) / fl p (dx * dx))) + b)

/-- One pass, `examples/beginners_diffusion/1stDiffusion.cpp` 31-37. -/
noncomputable def passFl (p : Nat) (nx : Int) (dx c : ℝ) (old new : Int → ℝ) : Outcome (Int → ℝ) :=
  let g := Relax.line .periodic nx
  (List.range (g.x1 0 - g.x0 0).toNat).foldlM (fun new (n : Nat) =>
    let x := g.x0 0 + n
    if x = 0 ∨ x = nx - 1 then .ok new
    else
      (Relax.sub g old (x - 1)).bind fun a => (Relax.sub g old x).bind fun b => (Relax.sub g old (x + 1)).bind fun d =>
      store g new (g.atSub .serial [x]) (nodeFl p dx c a b d)) new

/-- `examples/beginners_diffusion/1stDiffusion.cpp` 10-39: `dx` is 1, `dt` is `fl(fl(fl(dx*dx)/D)/4)`, `D` is 1. -/
noncomputable def runFl (p : Nat) (nx : Int) : Nat → Outcome ((Int → ℝ) × (Int → ℝ))
  | 0 => .ok (Relax.half nx, Relax.half nx)
  | n + 1 => (runFl p nx n).bind fun s => (passFl p nx 1 (fl p (1 * fl p (fl p (fl p (1 * 1) / 1) / 4))) s.1 s.2).bind fun out => .ok (out, s.1)

/-- `algorithms/MersenneTwister.h` 319-320; `r` is `randInt()`. -/
noncomputable def randFl (p r : Nat) : ℝ := fl p (r * fl p (1 / 4294967295))

/-- `algorithms/MersenneTwister.h` 325-326 -/
noncomputable def randExcFl (p r : Nat) : ℝ := fl p (r * fl p (1 / 4294967296))

/-- `algorithms/MersenneTwister.h` 331-332 -/
noncomputable def randDblExcFl (p r : Nat) : ℝ := fl p (fl p (r + 1 / 2) * fl p (1 / 4294967296))

/-- `algorithms/MersenneTwister.h` 337-341; `r` and `r'` are the two calls of `randInt()`. -/
noncomputable def rand53Fl (p r r' : Nat) : ℝ := fl p (fl p (fl p ((r >>> 5 : Nat) * 67108864) + (r' >>> 6 : Nat)) * fl p (1 / 9007199254740992))

/-- `rand(n)`, `randExc(n)` and `randDblExc(n)`, `algorithms/MersenneTwister.h` 322-323, 328-329, 334-335; `u` is the number without a bound. -/
noncomputable def boundFl (p : Nat) (u n : ℝ) : ℝ := fl p (u * n)

/-- `255*((val-min)/(max-min))` converted to `unsigned char`, `include/MMSP.output.cpp` 126, 142, 160. A division by zero gives no number, and its conversion is undefined. -/
noncomputable def shadeFl (p : Nat) (m : ℝ × ℝ) (v : ℝ) : Outcome Nat :=
  if fl p (m.2 - m.1) = 0 then .ub else Image.toByte (fl p (255 * fl p (fl p (v - m.1) / fl p (m.2 - m.1))))

/-! ## The projection -/

/-- The relative error of one operation. -/
noncomputable def unit (p : Nat) : ℝ := 2 ^ (-(p : ℤ))

theorem unit_pos (p : Nat) : 0 < unit p := two_zpow_pos _

theorem unit_le {p q : Nat} (h : q ≤ p) : unit p ≤ (2 ^ q)⁻¹ := by
  unfold unit
  rw [zpow_neg, zpow_natCast]
  exact inv_anti₀ (by positivity) (pow_le_pow_right₀ (by norm_num) h)

theorem fl_le {p : Nat} {x : ℝ} (h : 0 ≤ x) : fl p x ≤ (1 + unit p) * x := by
  have := (abs_le.1 (fl_err (p := p) x)).2
  rw [abs_of_nonneg h] at this
  unfold unit; linarith

theorem le_fl {p : Nat} {x : ℝ} (h : 0 ≤ x) : (1 - unit p) * x ≤ fl p x := by
  have := (abs_le.1 (fl_err (p := p) x)).1
  rw [abs_of_nonneg h] at this
  unfold unit; linarith

theorem sumFl_from {p : Nat} (hp : 1 ≤ p) (vs : List ℝ) (h0 : ∀ v ∈ vs, 0 ≤ v) : ∀ s, 0 ≤ s → Rep p s →
    s ≤ vs.foldl (fun s v => fl p (s + v)) s ∧ Rep p (vs.foldl (fun s v => fl p (s + v)) s) ∧
    (1 - unit p) ^ vs.length * (s + vs.sum) ≤ vs.foldl (fun s v => fl p (s + v)) s ∧ vs.foldl (fun s v => fl p (s + v)) s ≤ (1 + unit p) ^ vs.length * (s + vs.sum) := by
  have u0 := unit_pos p
  have u1 : unit p ≤ 1 / 2 := by have := unit_le hp; norm_num at this; linarith
  induction vs with
  | nil => intro s hs hr; exact ⟨le_refl s, hr, by simp, by simp⟩
  | cons v vs ih =>
    intro s hs hr
    have hv := h0 v (by simp)
    have hvs : 0 ≤ vs.sum := List.sum_nonneg fun x hx => h0 x (by simp [hx])
    have hge : s ≤ fl p (s + v) := by
      conv_lhs => rw [← fl_rep hp hr]
      exact fl_mono hp (by linarith)
    obtain ⟨a, b, c, d⟩ := ih (fun x hx => h0 x (by simp [hx])) (fl p (s + v)) (hs.trans hge) (rep_fl _)
    have e1 := fl_le (p := p) (x := s + v) (by linarith)
    have e2 := le_fl (p := p) (x := s + v) (by linarith)
    rw [List.foldl_cons, List.sum_cons, List.length_cons]
    refine ⟨hge.trans a, b, le_trans ?_ c, le_trans d ?_⟩
    · rw [pow_succ, mul_assoc]
      apply mul_le_mul_of_nonneg_left _ (pow_nonneg (by linarith) _)
      nlinarith
    · rw [pow_succ, mul_assoc]
      apply mul_le_mul_of_nonneg_left _ (pow_nonneg (by linarith) _)
      nlinarith

/-- A rounded sum is not below any of its terms. -/
theorem le_sumFl {p : Nat} (hp : 1 ≤ p) {vs : List ℝ} (h0 : ∀ v ∈ vs, 0 ≤ v) (hr : ∀ v ∈ vs, Rep p v) {v : ℝ} (hv : v ∈ vs) : v ≤ sumFl p vs := by
  unfold sumFl
  have key : ∀ (vs : List ℝ) (s : ℝ), (∀ v ∈ vs, 0 ≤ v) → (∀ v ∈ vs, Rep p v) → 0 ≤ s → Rep p s → v ∈ vs → v ≤ vs.foldl (fun s v => fl p (s + v)) s := by
    intro vs
    induction vs with
    | nil => intro s _ _ _ _ h; simp at h
    | cons w vs ih =>
      intro s h0 hr hs hrs hm
      have hw := h0 w (by simp)
      have hge : w ≤ fl p (s + w) := by
        conv_lhs => rw [← fl_rep hp (hr w (by simp))]
        exact fl_mono hp (by linarith)
      rw [List.foldl_cons]
      have h0' : ∀ v ∈ vs, 0 ≤ v := fun x hx => h0 x (by simp [hx])
      rcases List.mem_cons.1 hm with rfl | hm
      · exact hge.trans (sumFl_from hp vs h0' _ (hw.trans hge) (rep_fl _)).1
      · exact ih _ h0' (fun x hx => hr x (by simp [hx])) (hw.trans hge) (rep_fl _) hm
  exact key vs 0 h0 hr le_rfl (rep_zero p) hv

/-- **C95.** The projection onto the simplex, in floating point: whatever non-negative numbers it is given, all the results are in [0,1], exactly. -/
theorem projectFl_range {p : Nat} (hp : 2 ≤ p) {vs : List ℝ} (h0 : ∀ v ∈ vs, 0 ≤ v) (hr : ∀ v ∈ vs, Rep p v) {w : ℝ} (hw : w ∈ projectFl p vs) : 0 ≤ w ∧ w ≤ 1 ∧ Rep p w := by
  obtain ⟨v, hv, rfl⟩ := List.mem_map.1 hw
  have hle := le_sumFl (by omega) h0 hr hv
  have hS : 0 ≤ sumFl p vs := (h0 v hv).trans hle
  have hrec : 0 ≤ recipFl p (sumFl p vs) := by
    unfold recipFl; split_ifs
    · exact fl_nonneg (by positivity)
    · exact le_rfl
  refine ⟨fl_nonneg (mul_nonneg (h0 v hv) hrec), ?_, rep_fl _⟩
  apply fl_le_one hp
  refine le_trans (mul_le_mul_of_nonneg_right hle hrec) ?_
  unfold recipFl
  split_ifs with h
  · rw [abs_of_nonneg hS] at h
    have := fl_le (p := p) (x := 1 / sumFl p vs) (by positivity)
    calc sumFl p vs * fl p (1 / sumFl p vs) ≤ sumFl p vs * ((1 + unit p) * (1 / sumFl p vs)) := mul_le_mul_of_nonneg_left this hS
      _ = 1 + unit p := by field_simp
  · rw [mul_zero]; have := unit_pos p; unfold unit at this; linarith

theorem sum_map_le {c : ℝ} {f : ℝ → ℝ} (vs : List ℝ) (h : ∀ v ∈ vs, f v ≤ c * v) : (vs.map f).sum ≤ c * vs.sum := by
  induction vs with
  | nil => simp
  | cons v vs ih =>
    rw [List.map_cons, List.sum_cons, List.sum_cons]
    have := ih fun x hx => h x (by simp [hx])
    have := h v (by simp)
    linarith

theorem le_sum_map {c : ℝ} {f : ℝ → ℝ} (vs : List ℝ) (h : ∀ v ∈ vs, c * v ≤ f v) : c * vs.sum ≤ (vs.map f).sum := by
  induction vs with
  | nil => simp
  | cons v vs ih =>
    rw [List.map_cons, List.sum_cons, List.sum_cons]
    have := ih fun x hx => h x (by simp [hx])
    have := h v (by simp)
    linarith

/-- **C95.** The results add up to 1 within one relative error per field and two, unless all the numbers were zero: then so are the results. -/
theorem projectFl_sum {p : Nat} (hp : 1 ≤ p) {vs : List ℝ} (h0 : ∀ v ∈ vs, 0 ≤ v) (hr : ∀ v ∈ vs, Rep p v) :
    ((∀ v ∈ vs, v = 0) ∧ ∀ w ∈ projectFl p vs, w = 0) ∨
    (1 - unit p) ^ 2 / (1 + unit p) ^ vs.length ≤ (projectFl p vs).sum ∧ (projectFl p vs).sum ≤ (1 + unit p) ^ 2 / (1 - unit p) ^ vs.length := by
  have u0 := unit_pos p
  have u1 : unit p ≤ 1 / 2 := by have := unit_le hp; norm_num at this; linarith
  obtain ⟨hS, -, lo, hi⟩ := sumFl_from hp vs h0 0 le_rfl (rep_zero p)
  rw [zero_add] at lo hi
  change 0 ≤ sumFl p vs at hS
  change _ ≤ sumFl p vs at lo
  change sumFl p vs ≤ _ at hi
  by_cases h : sumFl p vs = 0
  · left
    refine ⟨fun v hv => le_antisymm ((le_sumFl hp h0 hr hv).trans h.le) (h0 v hv), fun w hw => ?_⟩
    obtain ⟨v, hv, rfl⟩ := List.mem_map.1 hw
    unfold recipFl
    rw [h, abs_zero, if_neg (lt_irrefl _), mul_zero, fl_zero]
  · right
    have hpos : 0 < sumFl p vs := lt_of_le_of_ne hS (Ne.symm h)
    have er : recipFl p (sumFl p vs) = fl p (1 / sumFl p vs) := by unfold recipFl; rw [abs_of_pos hpos, if_pos hpos]
    have r1 := fl_le (p := p) (x := 1 / sumFl p vs) (by positivity)
    have r2 := le_fl (p := p) (x := 1 / sumFl p vs) (by positivity)
    have r0 : 0 ≤ fl p (1 / sumFl p vs) := fl_nonneg (by positivity)
    have q : 0 < (1 - unit p) ^ vs.length := pow_pos (by linarith) _
    have q' : 0 < (1 + unit p) ^ vs.length := pow_pos (by linarith) _
    have hs0 : 0 ≤ vs.sum := List.sum_nonneg fun x hx => h0 x hx
    unfold projectFl
    rw [er]
    constructor
    · have a : (1 - unit p) * fl p (1 / sumFl p vs) * vs.sum ≤ (vs.map fun v => fl p (v * fl p (1 / sumFl p vs))).sum :=
        le_sum_map vs fun v hv => by
          have := le_fl (p := p) (x := v * fl p (1 / sumFl p vs)) (mul_nonneg (h0 v hv) r0)
          linarith
      refine le_trans ?_ a
      have b : (1 - unit p) * ((1 - unit p) * (1 / sumFl p vs)) * vs.sum ≤ (1 - unit p) * fl p (1 / sumFl p vs) * vs.sum :=
        mul_le_mul_of_nonneg_right (mul_le_mul_of_nonneg_left r2 (by linarith)) hs0
      refine le_trans ?_ b
      rw [show (1 - unit p) * ((1 - unit p) * (1 / sumFl p vs)) * vs.sum = (1 - unit p) ^ 2 * vs.sum / sumFl p vs by ring, div_le_div_iff₀ q' hpos, mul_assoc]
      apply mul_le_mul_of_nonneg_left _ (sq_nonneg _)
      linarith
    · have a : (vs.map fun v => fl p (v * fl p (1 / sumFl p vs))).sum ≤ (1 + unit p) * fl p (1 / sumFl p vs) * vs.sum :=
        sum_map_le vs fun v hv => by
          have := fl_le (p := p) (x := v * fl p (1 / sumFl p vs)) (mul_nonneg (h0 v hv) r0)
          linarith
      refine le_trans a ?_
      have b : (1 + unit p) * fl p (1 / sumFl p vs) * vs.sum ≤ (1 + unit p) * ((1 + unit p) * (1 / sumFl p vs)) * vs.sum :=
        mul_le_mul_of_nonneg_right (mul_le_mul_of_nonneg_left r1 (by linarith)) hs0
      refine le_trans b ?_
      rw [show (1 + unit p) * ((1 + unit p) * (1 / sumFl p vs)) * vs.sum = (1 + unit p) ^ 2 * vs.sum / sumFl p vs by ring, div_le_div_iff₀ hpos q, mul_assoc]
      apply mul_le_mul_of_nonneg_left _ (sq_nonneg _)
      linarith

theorem clamp_range (v : ℝ) : 0 ≤ SparsePF.clamp v ∧ SparsePF.clamp v ≤ 1 := by
  unfold SparsePF.clamp
  dsimp only
  split_ifs <;> constructor <;> linarith

theorem clamp_rep {p : Nat} {v : ℝ} (h : Rep p v) : Rep p (SparsePF.clamp v) := by
  unfold SparsePF.clamp
  dsimp only
  split_ifs
  · exact rep_zero p
  · exact rep_one p
  · exact rep_zero p
  · exact h

/-- A cell of `n` floating-point numbers in [0,1]. -/
structure InUnit (p n : Nat) (c : List ℝ) : Prop where
  length : c.length = n
  range : ∀ v ∈ c, 0 ≤ v ∧ v ≤ 1 ∧ Rep p v

/-- **C95.** The dense phase-field examples in floating point: if all fields start in [0,1], then after any number of steps they are all in [0,1], exactly, and the run stays inside
its arrays; whatever the time step and whatever is lost in computing the rates. -/
theorem rounded_run {p : Nat} (hp : 2 ≤ p) {g : Shape} (hg : g.Wf) (h0 : g.ghosts = 0) (hr : SparsePF.Reach .serial g) {n : Nat} {raw : (Int → List ℝ) → Int → Int → ℝ}
    (hraw : ∀ d i h, Rep p (raw d i h)) (steps : Nat) {old new : Int → List ℝ} (hf' : DensePF.Full g n new) (hb : ∀ i, 0 ≤ i → i < g.nodes → InUnit p n (old i)) :
    ∃ r, DensePF.run g (roundedCell p .serial g n raw) steps (old, new) = .ok r ∧ ∀ i, 0 ≤ i → i < g.nodes → InUnit p n (r.1 i) := by
  suffices hstep : _ by
    obtain ⟨r, e, p, -⟩ := DensePF.run_inv hg h0 (roundedCell p .serial g n raw) (fun d => ∀ i, 0 ≤ i → i < g.nodes → InUnit p n (d i)) (DensePF.Full g n)
      (fun _ h i a b => (h i a b).length) hstep steps old new hb hf'
    exact ⟨r, e, p⟩
  intro old new hb hn
  have hf : DensePF.Full g n old := fun i a b => (hb i a b).length
  have hc : ∀ i, ∃ c : List ℝ, 0 ≤ i → i < g.nodes → roundedCell p .serial g n raw old i (new i) = .ok c ∧ InUnit p n c := by
    intro i
    by_cases hi : 0 ≤ i ∧ i < g.nodes
    · obtain ⟨s, es, -, -⟩ := DensePF.marked_spec hg h0 hr hf hi.1 hi.2
      have hz := hn i hi.1 hi.2
      refine ⟨if s.length < 2 then old i else projectFl p ((List.range n).map fun h : Nat => SparsePF.clamp (raw old i h)), fun _ _ => ⟨?_, ?_⟩⟩
      · unfold roundedCell
        rw [es, Outcome.ok_bind, DensePF.deref_node h0 old hi.1 hi.2, Outcome.ok_bind, if_pos hz.ge, List.drop_eq_nil_of_le hz.le, List.append_nil]
        split_ifs <;> rfl
      · split_ifs
        · exact hb i hi.1 hi.2
        · refine ⟨by simp [projectFl], fun w hw => projectFl_range hp ?_ ?_ hw⟩
          · intro v hv
            obtain ⟨h, -, rfl⟩ := List.mem_map.1 hv
            exact (clamp_range _).1
          · intro v hv
            obtain ⟨h, -, rfl⟩ := List.mem_map.1 hv
            exact clamp_rep (hraw _ _ _)
    · exact ⟨[], fun a b => absurd ⟨a, b⟩ hi⟩
  choose c hc using hc
  refine ⟨c, fun i a b => (hc i a b).1, fun i a b => ?_⟩
  beta_reduce
  rw [if_pos ⟨a, b⟩]
  exact (hc i a b).2

/-- **C95.** After a step every node is a copy, or zero in all fields, or sums to 1 within the errors of `n + 2` operations. -/
theorem rounded_step {p : Nat} (hp : 2 ≤ p) {g : Shape} (hg : g.Wf) (h0 : g.ghosts = 0) (hr : SparsePF.Reach .serial g) {n : Nat} {raw : (Int → List ℝ) → Int → Int → ℝ}
    (hraw : ∀ d i h, Rep p (raw d i h)) {old : Int → List ℝ} (hb : DensePF.Full g n old) {i : Int} (hi0 : 0 ≤ i) (hi1 : i < g.nodes) {z : List ℝ} (hz : z.length = n) :
    ∃ c, roundedCell p .serial g n raw old i z = .ok c ∧
      (c = old i ∨ (∀ v ∈ c, v = 0) ∨ (1 - unit p) ^ 2 / (1 + unit p) ^ n ≤ c.sum ∧ c.sum ≤ (1 + unit p) ^ 2 / (1 - unit p) ^ n) := by
  obtain ⟨s, es, -, -⟩ := DensePF.marked_spec hg h0 hr hb hi0 hi1
  unfold roundedCell
  rw [es, Outcome.ok_bind, DensePF.deref_node h0 old hi0 hi1, Outcome.ok_bind, if_pos hz.ge, List.drop_eq_nil_of_le hz.le, List.append_nil]
  by_cases h2 : s.length < 2
  · rw [if_pos h2]; exact ⟨_, rfl, Or.inl rfl⟩
  · rw [if_neg h2]
    refine ⟨_, rfl, Or.inr ?_⟩
    have := projectFl_sum (p := p) (by omega) (vs := (List.range n).map fun h : Nat => SparsePF.clamp (raw old i h))
      (fun v hv => by obtain ⟨h, -, rfl⟩ := List.mem_map.1 hv; exact (clamp_range _).1)
      (fun v hv => by obtain ⟨h, -, rfl⟩ := List.mem_map.1 hv; exact clamp_rep (hraw _ _ _))
    rw [List.length_map, List.length_range] at this
    exact this.imp And.right id

/-- Without the last rounding the claim fails: with two digits `1/3` is rounded up to `3/8`, and `3 * (3/8)` is above 1. -/
example : fl 2 (1 / 3) = 3 / 8 → (1 : ℝ) < 3 * fl 2 (1 / 3) := fun h => by rw [h]; norm_num

/-! ## Diffusion on a line -/

/-- The largest number below 1. -/
theorem rep_lt_one {p : Nat} (hp : 1 ≤ p) {b : ℝ} (h : Rep p b) (h1 : b < 1) : b ≤ 1 - unit p := by
  obtain ⟨m, k, hm, rfl⟩ := h
  have hk := two_zpow_pos k
  by_cases hkp : -(p : ℤ) ≤ k
  · obtain ⟨j, hj⟩ : ∃ j : Nat, k = -(p : ℤ) + j := ⟨(k + p).toNat, by omega⟩
    have e : (m : ℝ) * 2 ^ k = ((m * 2 ^ j : ℤ) : ℝ) * unit p := by
      unfold unit; rw [hj, zpow_add₀ (by norm_num)]; push_cast; rw [zpow_natCast]; ring
    have hu : (2 : ℝ) ^ p * unit p = 1 := by unfold unit; rw [zpow_neg, zpow_natCast]; exact mul_inv_cancel₀ (by positivity)
    rw [e] at h1 ⊢
    have hu0 := unit_pos p
    have : ((m * 2 ^ j : ℤ) : ℝ) < ((2 ^ p : ℤ) : ℝ) := by
      push_cast at h1 ⊢
      by_contra hc
      rw [not_lt] at hc
      nlinarith
    have : m * 2 ^ j + 1 ≤ 2 ^ p := by exact_mod_cast Int.cast_lt.1 this
    have : ((m * 2 ^ j + 1 : ℤ) : ℝ) ≤ ((2 ^ p : ℤ) : ℝ) := Int.cast_le.2 this
    push_cast at this ⊢
    nlinarith
  · have hm' : (m : ℝ) ≤ 2 ^ p := by
      have : m ≤ 2 ^ p := (le_abs_self m).trans hm
      exact_mod_cast this
    have hle : (m : ℝ) * 2 ^ k ≤ 1 / 2 := by
      calc (m : ℝ) * 2 ^ k ≤ 2 ^ p * 2 ^ k := mul_le_mul_of_nonneg_right hm' hk.le
        _ = 2 ^ ((p : ℤ) + k) := by rw [zpow_add₀ (by norm_num), zpow_natCast]
        _ ≤ 2 ^ (-1 : ℤ) := zpow_le_zpow_right₀ (by norm_num) (by omega)
        _ = 1 / 2 := by norm_num
    have := unit_le hp
    norm_num at this
    linarith

theorem rep_quarter (p : Nat) : Rep p (1 / 4) := ⟨1, -2, by rw [abs_one]; exact one_le_pow₀ (by norm_num), by norm_num⟩

/-- The diffusion number of the program is a quarter, exactly. -/
theorem coefficient {p : Nat} (hp : 1 ≤ p) : fl p (1 * fl p (fl p (fl p (1 * 1) / 1) / 4)) = 1 / 4 := by
  rw [mul_one, fl_one hp, div_one, fl_one hp, fl_rep hp (rep_quarter p), one_mul, fl_rep hp (rep_quarter p)]

theorem nodeFl_eq {p : Nat} (hp : 1 ≤ p) {a b d : ℝ} (hb : Rep p b) : nodeFl p 1 (1 / 4) a b d = fl p (fl p (fl p (a - 2 * b) + d) / 4 + b) := by
  have h2 : Rep p (2 * b) := by have := rep_scale hb 1; rwa [zpow_one, mul_comm] at this
  have h4 : ∀ x, Rep p x → Rep p (1 / 4 * x) := fun x hx => by
    have := rep_scale hx (-2)
    rwa [show (2 : ℝ) ^ (-2 : ℤ) = 1 / 4 by norm_num, mul_comm] at this
  unfold nodeFl
  rw [fl_rep hp h2, mul_one, fl_one hp, div_one, fl_rep hp (rep_fl _), fl_rep hp (h4 _ (rep_fl _))]
  congr 2; ring

/-- One node in floating point stays in [0,1] and is off by at most three relative errors. -/
theorem nodeFl_spec {p : Nat} (hp : 2 ≤ p) {a b d : ℝ} (hb : Rep p b) (a0 : 0 ≤ a) (a1 : a ≤ 1) (b0 : 0 ≤ b) (b1 : b ≤ 1) (d0 : 0 ≤ d) (d1 : d ≤ 1) :
    0 ≤ nodeFl p 1 (1 / 4) a b d ∧ nodeFl p 1 (1 / 4) a b d ≤ 1 ∧ |nodeFl p 1 (1 / 4) a b d - (b + 1 / 4 * (a - 2 * b + d))| ≤ 3 * unit p := by
  have hp1 : 1 ≤ p := by omega
  have u0 := unit_pos p
  have u1 : unit p ≤ 1 / 4 := by have := unit_le hp; norm_num at this; linarith
  rw [nodeFl_eq hp1 hb]
  have h2 : Rep p (2 * b) := by have := rep_scale hb 1; rwa [zpow_one, mul_comm] at this
  have h2n : fl p (0 - 2 * b) = -(2 * b) := by rw [zero_sub, fl_neg, fl_rep hp1 h2]
  have lo : -(2 * b) ≤ fl p (fl p (a - 2 * b) + d) := by
    have : -(2 * b) ≤ fl p (a - 2 * b) := by rw [← h2n]; exact fl_mono hp1 (by linarith)
    calc -(2 * b) = fl p (-(2 * b)) := by rw [fl_neg, fl_rep hp1 h2]
      _ ≤ _ := fl_mono hp1 (by linarith)
  have hi : fl p (fl p (a - 2 * b) + d) ≤ 4 * (1 - b) := by
    have m1 : fl p (fl p (a - 2 * b) + d) ≤ fl p (fl p (1 - 2 * b) + 1) :=
      fl_mono hp1 (by have := fl_mono (p := p) hp1 (show a - 2 * b ≤ 1 - 2 * b by linarith); linarith)
    refine m1.trans ?_
    rcases eq_or_lt_of_le b1 with rfl | hlt
    · rw [show (1 : ℝ) - 2 * 1 = -1 by norm_num, fl_neg, fl_one hp1]
      norm_num [fl_zero]
    · have hδ := rep_lt_one hp1 hb hlt
      have hx : |1 - 2 * b| ≤ 1 := abs_le.2 ⟨by linarith, by linarith⟩
      have e1 := (abs_le.1 (fl_err (p := p) (1 - 2 * b))).2
      have e1' : fl p (1 - 2 * b) ≤ 1 - 2 * b + unit p := by
        have : 2 ^ (-(p : ℤ)) * |1 - 2 * b| ≤ unit p := by unfold unit; exact mul_le_of_le_one_right (two_zpow_pos _).le hx
        linarith
      have m2 : fl p (fl p (1 - 2 * b) + 1) ≤ fl p (2 * (1 - b) + unit p) := fl_mono hp1 (by linarith)
      refine m2.trans ((fl_le (by linarith)).trans ?_)
      nlinarith
  set t := fl p (fl p (a - 2 * b) + d) with ht
  have v0 : 0 ≤ t / 4 + b := by linarith
  have v1 : t / 4 + b ≤ 1 := by linarith
  refine ⟨fl_nonneg v0, ?_, ?_⟩
  · calc fl p (t / 4 + b) ≤ fl p 1 := fl_mono hp1 v1
      _ = 1 := fl_one hp1
  · have f1 := abs_le.1 (fl_err (p := p) (a - 2 * b))
    have f2 := abs_le.1 (fl_err (p := p) (fl p (a - 2 * b) + d))
    have f3 := abs_le.1 (fl_err (p := p) (t / 4 + b))
    change -(unit p * _) ≤ _ ∧ _ ≤ unit p * _ at f1 f2 f3
    have g1 : |a - 2 * b| ≤ 2 := abs_le.2 ⟨by linarith, by linarith⟩
    have g1' : unit p * |a - 2 * b| ≤ 2 * unit p := by nlinarith
    have g2 : |fl p (a - 2 * b) + d| ≤ 2 + 2 * unit p := abs_le.2 ⟨by linarith [f1.1], by linarith [f1.2]⟩
    have g2' : unit p * |fl p (a - 2 * b) + d| ≤ 3 * unit p := by nlinarith
    have g3 : unit p * |t / 4 + b| ≤ unit p := by
      rw [abs_of_nonneg v0]; nlinarith
    rw [← ht] at f2
    apply abs_le.2
    constructor <;> linarith [f1.1, f1.2, f2.1, f2.2, f3.1, f3.2]

theorem passFl_eq (p : Nat) (nx : Int) (dx c : ℝ) (old new : Int → ℝ) :
    passFl p nx dx c old new = .ok fun x => if 0 < x ∧ x < nx - 1 then nodeFl p dx c (old (x - 1)) (old x) (old (x + 1)) else new x := by
  have key : ∀ k : Nat, (k : Int) ≤ max nx 0 → (List.range k).foldlM (fun new (n : Nat) =>
    let x := (Relax.line .periodic nx).x0 0 + n
    if x = 0 ∨ x = nx - 1 then .ok new
    else
      (Relax.sub (Relax.line .periodic nx) old (x - 1)).bind fun a => (Relax.sub (Relax.line .periodic nx) old x).bind fun b => (Relax.sub (Relax.line .periodic nx) old (x + 1)).bind fun d =>
      store (Relax.line .periodic nx) new ((Relax.line .periodic nx).atSub .serial [x]) (nodeFl p dx c a b d)) new =
      .ok fun x => if 0 < x ∧ x < nx - 1 ∧ x < k then nodeFl p dx c (old (x - 1)) (old x) (old (x + 1)) else new x := by
    intro k
    induction k with
    | zero =>
      intro _
      rw [List.range_zero, List.foldlM_nil]
      show Outcome.ok new = _
      congr 1; funext x; rw [if_neg (by omega)]
    | succ k ih =>
      intro hk
      rw [List.range_succ, List.foldlM_append, ih (by omega)]
      have hx : (Relax.line .periodic nx).x0 0 + (k : Int) = k := by simp [Relax.line]
      simp only [List.foldlM_cons, List.foldlM_nil, Outcome.bind_eq, Outcome.ok_bind, Outcome.pure_eq, hx]
      by_cases he : (k : Int) = 0 ∨ (k : Int) = nx - 1
      · rw [if_pos he, Outcome.ok_bind]
        congr 1; funext x
        by_cases hp : 0 < x ∧ x < nx - 1 ∧ x < (k : Int)
        · rw [if_pos hp, if_pos (by push_cast; omega)]
        · rw [if_neg hp, if_neg (by push_cast; omega)]
      · rw [if_neg he, Relax.line_deref _ (by omega) (by omega), Outcome.ok_bind, Relax.line_deref _ (by omega) (by omega), Outcome.ok_bind, Relax.line_deref _ (by omega) (by omega), Outcome.ok_bind,
          Relax.line_sub _ (by omega) (by omega), Relax.line_store _ (by omega) (by omega), Outcome.ok_bind]
        congr 1; funext x
        by_cases hpk : x = k
        · subst hpk
          rw [Function.update_self, if_pos (by push_cast; omega)]
        · rw [Function.update_of_ne hpk]
          by_cases hp : 0 < x ∧ x < nx - 1 ∧ x < (k : Int)
          · rw [if_pos hp, if_pos (by push_cast; omega)]
          · rw [if_neg hp, if_neg (by push_cast; omega)]
  unfold passFl
  dsimp only
  have hl : ((Relax.line .periodic nx).x1 0 - (Relax.line .periodic nx).x0 0).toNat = nx.toNat := by simp [Relax.line]
  rw [hl, key _ (by omega)]
  congr 1; funext x
  by_cases hp : 0 < x ∧ x < nx - 1
  · rw [if_pos hp, if_pos (by omega)]
  · rw [if_neg hp, if_neg (by omega)]

theorem half_range (nx x : Int) : 0 ≤ (Relax.half nx x : ℝ) ∧ (Relax.half nx x : ℝ) ≤ 1 := by unfold Relax.half; split_ifs <;> norm_num

theorem half_rep (p : Nat) (nx x : Int) : Rep p (Relax.half nx x : ℝ) := by
  unfold Relax.half; split_ifs
  · exact rep_one p
  · exact rep_zero p

/-- **C95.** `1stDiffusion` in floating point: after any number `n` of iterations the two ends have their initial values, all values are in [0,1] exactly, and each is within
`3 n` relative errors of the result of exact arithmetic. -/
theorem diffusion_rounded {p : Nat} (hp : 2 ≤ p) (nx : Int) (n : Nat) : ∃ s, runFl p nx n = .ok s ∧
    (∀ x, ¬(0 < x ∧ x < nx - 1) → s.1 x = Relax.half nx x) ∧ (∀ x, 0 ≤ s.1 x ∧ s.1 x ≤ 1) ∧
    ∀ e, Relax.firstRun nx 1 (1 / 4) n = .ok e → ∀ x, |s.1 x - e.1 x| ≤ 3 * n * unit p := by
  have hp1 : 1 ≤ p := by omega
  suffices h : ∃ s, runFl p nx n = .ok s ∧ (∀ x, ¬(0 < x ∧ x < nx - 1) → s.1 x = Relax.half nx x ∧ s.2 x = Relax.half nx x) ∧ (∀ x, 0 ≤ s.1 x ∧ s.1 x ≤ 1 ∧ Rep p (s.1 x)) ∧
      ∀ x, |s.1 x - (Relax.heat1 nx (1 / 4 : ℝ))^[n] (Relax.half nx) x| ≤ 3 * n * unit p by
    obtain ⟨s, a, b, c, d⟩ := h
    refine ⟨s, a, fun x hx => (b x hx).1, fun x => ⟨(c x).1, (c x).2.1⟩, fun e he x => ?_⟩
    obtain ⟨e', h1, h2⟩ := Relax.first_correct nx (1 : ℝ) (1 / 4) n
    rw [he] at h1; cases h1
    rw [h2, show (1 / 4 / (1 * 1) : ℝ) = 1 / 4 by norm_num]
    exact d x
  induction n with
  | zero =>
    refine ⟨_, rfl, fun x _ => ⟨rfl, rfl⟩, fun x => ⟨(half_range nx x).1, (half_range nx x).2, half_rep p nx x⟩, fun x => ?_⟩
    simp
  | succ n ih =>
    obtain ⟨s, a, b, c, d⟩ := ih
    refine ⟨_, by rw [runFl, a, Outcome.ok_bind, coefficient hp1, passFl_eq, Outcome.ok_bind], ?_, ?_, ?_⟩
    · intro x hx
      dsimp only
      rw [if_neg hx]
      exact ⟨(b x hx).2, (b x hx).1⟩
    · intro x
      dsimp only
      by_cases hx : 0 < x ∧ x < nx - 1
      · rw [if_pos hx]
        have := nodeFl_spec hp (c x).2.2 (c (x - 1)).1 (c (x - 1)).2.1 (c x).1 (c x).2.1 (c (x + 1)).1 (c (x + 1)).2.1
        exact ⟨this.1, this.2.1, rep_fl _⟩
      · rw [if_neg hx, (b x hx).2]
        exact ⟨(half_range nx x).1, (half_range nx x).2, half_rep p nx x⟩
    · intro x
      dsimp only
      have u0 := unit_pos p
      rw [Function.iterate_succ_apply']
      by_cases hx : 0 < x ∧ x < nx - 1
      · rw [if_pos hx]
        unfold Relax.heat1
        rw [if_pos hx]
        change |_ - ((Relax.heat1 nx (1 / 4 : ℝ))^[n] (Relax.half nx) x + 1 / 4 * ((Relax.heat1 nx (1 / 4 : ℝ))^[n] (Relax.half nx) (x - 1) - 2 * (Relax.heat1 nx (1 / 4 : ℝ))^[n] (Relax.half nx) x +
          (Relax.heat1 nx (1 / 4 : ℝ))^[n] (Relax.half nx) (x + 1)))| ≤ _
        have e := abs_le.1 (nodeFl_spec hp (c x).2.2 (c (x - 1)).1 (c (x - 1)).2.1 (c x).1 (c x).2.1 (c (x + 1)).1 (c (x + 1)).2.1).2.2
        have d1 := abs_le.1 (d (x - 1))
        have d2 := abs_le.1 (d x)
        have d3 := abs_le.1 (d (x + 1))
        push_cast
        apply abs_le.2
        constructor <;> linarith [e.1, e.2, d1.1, d1.2, d2.1, d2.2, d3.1, d3.2]
      · rw [if_neg hx, (b x hx).2, Relax.heat1_end _ _ hx, Relax.iterate_end _ _ hx, sub_self, abs_zero]
        positivity

/-! ## Random numbers -/

/-- The constant `1.0/4294967295.0` as a `double`. -/
theorem constant_eq : fl 53 (1 / 4294967295) = (2 ^ 32 + 1) / 2 ^ 64 := by
  have hlog : Int.log 2 |(1 : ℝ) / 4294967295| = -32 := by
    rw [abs_of_pos (by norm_num)]
    have a : (-32 : ℤ) ≤ Int.log 2 ((1 : ℝ) / 4294967295) := (Int.zpow_le_iff_le_log (by norm_num) (by norm_num)).1 (by norm_num)
    have b : Int.log 2 ((1 : ℝ) / 4294967295) < -31 := (Int.lt_zpow_iff_log_lt (by norm_num) (by norm_num)).1 (by norm_num)
    omega
  have he : ulpExp 53 ((1 : ℝ) / 4294967295) = -84 := by unfold ulpExp; rw [hlog]; norm_num
  have hf : ⌊(1 : ℝ) / 4294967295 / 2 ^ (-84 : ℤ)⌋ = 2 ^ 52 + 2 ^ 20 := by
    rw [Int.floor_eq_iff]; push_cast; constructor <;> norm_num
  rw [fl_eq (by norm_num), he]
  unfold rne
  rw [hf, if_pos (by push_cast; norm_num)]
  push_cast; norm_num

theorem top_eq : fl 53 ((2 ^ 64 - 1) / 2 ^ 64) = 1 := by
  have hlog : Int.log 2 |((2 : ℝ) ^ 64 - 1) / 2 ^ 64| = -1 := by
    rw [abs_of_pos (by norm_num)]
    have a : (-1 : ℤ) ≤ Int.log 2 (((2 : ℝ) ^ 64 - 1) / 2 ^ 64) := (Int.zpow_le_iff_le_log (by norm_num) (by norm_num)).1 (by norm_num)
    have b : Int.log 2 (((2 : ℝ) ^ 64 - 1) / 2 ^ 64) < 0 := (Int.lt_zpow_iff_log_lt (by norm_num) (by norm_num)).1 (by norm_num)
    omega
  have he : ulpExp 53 (((2 : ℝ) ^ 64 - 1) / 2 ^ 64) = -53 := by unfold ulpExp; rw [hlog]; norm_num
  have hf : ⌊((2 : ℝ) ^ 64 - 1) / 2 ^ 64 / 2 ^ (-53 : ℤ)⌋ = 2 ^ 53 - 1 := by
    rw [Int.floor_eq_iff]; push_cast; constructor <;> norm_num
  rw [fl_eq (by norm_num), he]
  unfold rne
  rw [hf, if_neg (by push_cast; norm_num), if_pos (by push_cast; norm_num)]
  push_cast; norm_num

theorem int_le {r : Nat} (hr : r < 2 ^ 32) : (r : ℝ) ≤ 2 ^ 32 - 1 := by
  have : r + 1 ≤ 2 ^ 32 := hr
  have : ((r + 1 : Nat) : ℝ) ≤ ((2 ^ 32 : Nat) : ℝ) := Nat.cast_le.2 this
  push_cast at this; linarith

/-- **C95.** `rand()` in doubles is in [0,1], both ends included, and does not decrease with `randInt()`. -/
theorem randFl_range {r : Nat} (hr : r < 2 ^ 32) : 0 ≤ randFl 53 r ∧ randFl 53 r ≤ 1 := by
  have h := int_le hr
  have h0 : (0 : ℝ) ≤ r := Nat.cast_nonneg r
  unfold randFl
  rw [constant_eq]
  refine ⟨fl_nonneg (by positivity), ?_⟩
  refine le_trans (fl_mono (y := 1) (by norm_num) ?_) (fl_one (by norm_num)).le
  rw [← mul_div_assoc, div_le_one (by positivity)]
  nlinarith

theorem randFl_ends : randFl 53 0 = 0 ∧ randFl 53 (2 ^ 32 - 1) = 1 := by
  constructor
  · unfold randFl; rw [Nat.cast_zero, zero_mul, fl_zero]
  · unfold randFl
    rw [constant_eq, show (((2 ^ 32 - 1 : Nat) : ℝ)) * ((2 ^ 32 + 1) / 2 ^ 64) = (2 ^ 64 - 1) / 2 ^ 64 by norm_num, top_eq]

theorem randFl_mono {r r' : Nat} (h : r ≤ r') : randFl 53 r ≤ randFl 53 r' := by
  unfold randFl
  rw [constant_eq]
  exact fl_mono (by norm_num) (mul_le_mul_of_nonneg_right (by exact_mod_cast h) (by positivity))

theorem rep_pow2 (k : ℤ) {x : ℝ} (h : x = 2 ^ k) : fl 53 x = x := fl_rep (by omega) ⟨1, k, by rw [abs_one]; exact one_le_pow₀ (by norm_num), by rw [h]; simp⟩

/-- **C95.** `randExc()`, `randDblExc()` and `rand53()` are computed without rounding: in doubles they return the numbers of C36. -/
theorem randExcFl_eq {r : Nat} (hr : r < 2 ^ 32) : randExcFl 53 r = (MTRand.randExc r : ℚ) := by
  unfold randExcFl MTRand.randExc
  rw [rep_pow2 (x := 1 / 4294967296) (-32) (by norm_num)]
  have : Rep 53 ((r : ℝ) * (1 / 4294967296)) := ⟨r, -32, by rw [abs_of_nonneg (by positivity)]; norm_cast; omega, by push_cast; norm_num⟩
  rw [fl_rep (by norm_num) this]
  push_cast; rfl

theorem randDblExcFl_eq {r : Nat} (hr : r < 2 ^ 32) : randDblExcFl 53 r = (MTRand.randDblExc r : ℚ) := by
  unfold randDblExcFl MTRand.randDblExc
  rw [rep_pow2 (x := 1 / 4294967296) (-32) (by norm_num)]
  have h1 : Rep 53 ((r : ℝ) + 1 / 2) := ⟨2 * r + 1, -1, by rw [abs_of_nonneg (by positivity)]; norm_cast; omega, by push_cast; norm_num; ring⟩
  have h2 : Rep 53 (((r : ℝ) + 1 / 2) * (1 / 4294967296)) := by have := rep_scale h1 (-32); rwa [show (2 : ℝ) ^ (-32 : ℤ) = 1 / 4294967296 by norm_num] at this
  rw [fl_rep (by norm_num) h1, fl_rep (by norm_num) h2]
  push_cast; rfl

theorem rand53Fl_eq {r r' : Nat} (hr : r < 2 ^ 32) (hr' : r' < 2 ^ 32) : rand53Fl 53 r r' = (MTRand.rand53 r r' : ℚ) := by
  unfold rand53Fl MTRand.rand53
  rw [rep_pow2 (x := 1 / 9007199254740992) (-53) (by norm_num), Nat.shiftRight_eq_div_pow, Nat.shiftRight_eq_div_pow]
  have e1 : ((r / 2 ^ 5 : Nat) : ℝ) * 67108864 = ((r / 2 ^ 5 * 67108864 : Nat) : ℝ) := by push_cast; rfl
  have h1 : Rep 53 (((r / 2 ^ 5 : Nat) : ℝ) * 67108864) := by rw [e1]; exact rep_nat (by omega)
  have e2 : ((r / 2 ^ 5 : Nat) : ℝ) * 67108864 + ((r' / 2 ^ 6 : Nat) : ℝ) = ((r / 2 ^ 5 * 67108864 + r' / 2 ^ 6 : Nat) : ℝ) := by push_cast; rfl
  have h2 : Rep 53 (((r / 2 ^ 5 : Nat) : ℝ) * 67108864 + ((r' / 2 ^ 6 : Nat) : ℝ)) := by rw [e2]; exact rep_nat (by omega)
  have h3 : Rep 53 ((((r / 2 ^ 5 : Nat) : ℝ) * 67108864 + ((r' / 2 ^ 6 : Nat) : ℝ)) * (1 / 9007199254740992)) := by
    have := rep_scale h2 (-53); rwa [show (2 : ℝ) ^ (-53 : ℤ) = 1 / 9007199254740992 by norm_num] at this
  rw [fl_rep (by norm_num) h1, fl_rep (by norm_num) h2, fl_rep (by norm_num) h3]
  push_cast; rfl

/-- **C95.** With a bound `n > 0`, a `double`: `rand(n)` is in [0,n], `randExc(n)` in [0,n), `randDblExc(n)` in (0,n). -/
theorem rand_bound {r : Nat} (hr : r < 2 ^ 32) {n : ℝ} (hn : 0 < n) (hrep : Rep 53 n) : 0 ≤ boundFl 53 (randFl 53 r) n ∧ boundFl 53 (randFl 53 r) n ≤ n := by
  obtain ⟨a, b⟩ := randFl_range hr
  unfold boundFl
  refine ⟨fl_nonneg (by positivity), ?_⟩
  conv_rhs => rw [← fl_rep (p := 53) (by norm_num) hrep]
  exact fl_mono (by norm_num) (mul_le_of_le_one_left hn.le b)

theorem bound_lt {u n : ℝ} (hn : 0 < n) (h0 : 0 ≤ u) (h1 : u ≤ 1 - 1 / 2 ^ 33) : boundFl 53 u n < n := by
  unfold boundFl
  have := fl_le (p := 53) (x := u * n) (by positivity)
  have hu : unit 53 ≤ 1 / 2 ^ 34 := (unit_le (q := 34) (by norm_num)).trans (by norm_num)
  have hu0 := unit_pos 53
  have : (1 + unit 53) * (u * n) ≤ (1 + 1 / 2 ^ 34) * ((1 - 1 / 2 ^ 33) * n) :=
    mul_le_mul (by linarith) (mul_le_mul_of_nonneg_right h1 hn.le) (by positivity) (by norm_num)
  have : (1 + 1 / 2 ^ 34 : ℝ) * ((1 - 1 / 2 ^ 33) * n) < n := by
    rw [← mul_assoc]; exact mul_lt_of_lt_one_left hn (by norm_num)
  linarith

theorem randExc_bound {r : Nat} (hr : r < 2 ^ 32) {n : ℝ} (hn : 0 < n) : 0 ≤ boundFl 53 (randExcFl 53 r) n ∧ boundFl 53 (randExcFl 53 r) n < n := by
  have h := int_le hr
  have h0 : (0 : ℝ) ≤ r := Nat.cast_nonneg r
  have e : randExcFl 53 r = (r : ℝ) / 2 ^ 32 := by rw [randExcFl_eq hr]; unfold MTRand.randExc; push_cast; norm_num; ring
  have hu0 : 0 ≤ randExcFl 53 r := by rw [e]; positivity
  refine ⟨fl_nonneg (mul_nonneg hu0 hn.le), bound_lt hn hu0 ?_⟩
  rw [e, div_le_iff₀ (by norm_num)]
  norm_num; linarith

theorem randDblExc_bound {r : Nat} (hr : r < 2 ^ 32) {n : ℝ} (hn : 0 < n) : 0 < boundFl 53 (randDblExcFl 53 r) n ∧ boundFl 53 (randDblExcFl 53 r) n < n := by
  have h := int_le hr
  have h0 : (0 : ℝ) ≤ r := Nat.cast_nonneg r
  have e : randDblExcFl 53 r = ((r : ℝ) + 1 / 2) / 2 ^ 32 := by rw [randDblExcFl_eq hr]; unfold MTRand.randDblExc; push_cast; norm_num; ring
  have hu0 : 0 < randDblExcFl 53 r := by rw [e]; positivity
  refine ⟨?_, bound_lt hn hu0.le ?_⟩
  · have := le_fl (p := 53) (x := randDblExcFl 53 r * n) (by positivity)
    have hu : unit 53 ≤ 1 / 2 := (unit_le (q := 1) (by norm_num)).trans (by norm_num)
    have : 0 < (1 - unit 53) * (randDblExcFl 53 r * n) := mul_pos (by linarith) (by positivity)
    unfold boundFl; linarith
  · rw [e, div_le_iff₀ (by norm_num)]
    norm_num; linarith

/-! ## Grey levels -/

theorem shadeFl_eq {p : Nat} (hp : 8 ≤ p) {m : ℝ × ℝ} (hm : m.1 < m.2) {v : ℝ} (h0 : m.1 ≤ v) (h1 : v ≤ m.2) :
    0 ≤ fl p (255 * fl p (fl p (v - m.1) / fl p (m.2 - m.1))) ∧ fl p (255 * fl p (fl p (v - m.1) / fl p (m.2 - m.1))) ≤ 255 ∧
    shadeFl p m v = .ok ⌊fl p (255 * fl p (fl p (v - m.1) / fl p (m.2 - m.1)))⌋.toNat := by
  have hp1 : 1 ≤ p := by omega
  have u1 : unit p ≤ 1 / 2 := (unit_le hp1).trans (by norm_num)
  have hd : 0 < fl p (m.2 - m.1) := lt_of_lt_of_le (mul_pos (by linarith) (sub_pos.2 hm)) (le_fl (sub_pos.2 hm).le)
  have hn : 0 ≤ fl p (v - m.1) := fl_nonneg (by linarith)
  have hle : fl p (v - m.1) ≤ fl p (m.2 - m.1) := fl_mono hp1 (by linarith)
  have q0 : 0 ≤ fl p (fl p (v - m.1) / fl p (m.2 - m.1)) := fl_nonneg (by positivity)
  have q1 : fl p (fl p (v - m.1) / fl p (m.2 - m.1)) ≤ 1 := by
    rw [← fl_one hp1]; exact fl_mono hp1 ((div_le_one hd).2 hle)
  have r255 : Rep p (255 : ℝ) := by
    have h : (255 : Nat) ≤ 2 ^ p := le_trans (by norm_num) (Nat.pow_le_pow_right (by norm_num) hp)
    exact_mod_cast rep_nat h
  have a0 : 0 ≤ fl p (255 * fl p (fl p (v - m.1) / fl p (m.2 - m.1))) := fl_nonneg (by positivity)
  have a1 : fl p (255 * fl p (fl p (v - m.1) / fl p (m.2 - m.1))) ≤ 255 := by
    rw [← fl_rep hp1 r255]
    apply fl_mono hp1
    rw [fl_rep hp1 r255]
    linarith
  refine ⟨a0, a1, ?_⟩
  unfold shadeFl Image.toByte
  rw [if_neg hd.ne', if_pos ⟨by linarith, by linarith⟩]

/-- **C95.** A value of a non-empty range has a grey level in 0..255 in floating point too: the rounded quotient is never above 1. The level is the exact one within four roundings. -/
theorem shadeFl_spec {p : Nat} (hp : 8 ≤ p) {m : ℝ × ℝ} (hm : m.1 < m.2) {v : ℝ} (h0 : m.1 ≤ v) (h1 : v ≤ m.2) :
    ∃ b, shadeFl p m v = .ok b ∧ b ≤ 255 ∧ (b : ℝ) ≤ 255 * ((v - m.1) / (m.2 - m.1)) * ((1 + unit p) ^ 3 / (1 - unit p)) ∧
      255 * ((v - m.1) / (m.2 - m.1)) * ((1 - unit p) ^ 3 / (1 + unit p)) < b + 1 := by
  obtain ⟨a0, a1, e⟩ := shadeFl_eq hp hm h0 h1
  have hp1 : 1 ≤ p := by omega
  have u0 := unit_pos p
  have u1 : unit p ≤ 1 / 2 := (unit_le hp1).trans (by norm_num)
  have hpos := sub_pos.2 hm
  have hv : 0 ≤ v - m.1 := by linarith
  have hd : 0 < fl p (m.2 - m.1) := lt_of_lt_of_le (mul_pos (by linarith) hpos) (le_fl hpos.le)
  have hn : 0 ≤ fl p (v - m.1) := fl_nonneg hv
  have n1 := fl_le (p := p) hv
  have n2 := le_fl (p := p) hv
  have d1 := fl_le (p := p) hpos.le
  have d2 := le_fl (p := p) hpos.le
  have q1 := fl_le (p := p) (x := fl p (v - m.1) / fl p (m.2 - m.1)) (by positivity)
  have q2 := le_fl (p := p) (x := fl p (v - m.1) / fl p (m.2 - m.1)) (by positivity)
  have q0 : 0 ≤ fl p (fl p (v - m.1) / fl p (m.2 - m.1)) := fl_nonneg (by positivity)
  have t1 := fl_le (p := p) (x := 255 * fl p (fl p (v - m.1) / fl p (m.2 - m.1))) (by positivity)
  have t2 := le_fl (p := p) (x := 255 * fl p (fl p (v - m.1) / fl p (m.2 - m.1))) (by positivity)
  have w : 0 < 1 - unit p := by linarith
  have r1 : fl p (v - m.1) / fl p (m.2 - m.1) ≤ (1 + unit p) * (v - m.1) / ((1 - unit p) * (m.2 - m.1)) := div_le_div₀ (by positivity) n1 (by positivity) d2
  have r2 : (1 - unit p) * (v - m.1) / ((1 + unit p) * (m.2 - m.1)) ≤ fl p (v - m.1) / fl p (m.2 - m.1) := div_le_div₀ hn n2 hd d1
  have hf0 : 0 ≤ ⌊fl p (255 * fl p (fl p (v - m.1) / fl p (m.2 - m.1)))⌋ := Int.floor_nonneg.2 a0
  have ec : ((⌊fl p (255 * fl p (fl p (v - m.1) / fl p (m.2 - m.1)))⌋.toNat : Nat) : ℝ) = (⌊fl p (255 * fl p (fl p (v - m.1) / fl p (m.2 - m.1)))⌋ : ℝ) := by
    rw [← Int.cast_natCast, Int.toNat_of_nonneg hf0]
  refine ⟨_, e, ?_, ?_, ?_⟩
  · have : ⌊fl p (255 * fl p (fl p (v - m.1) / fl p (m.2 - m.1)))⌋ ≤ 255 := by
      rw [← Int.floor_intCast (R := ℝ) 255]
      exact Int.floor_le_floor (by push_cast; linarith)
    omega
  · rw [ec]
    refine (Int.floor_le _).trans ?_
    calc _ ≤ (1 + unit p) * (255 * ((1 + unit p) * ((1 + unit p) * (v - m.1) / ((1 - unit p) * (m.2 - m.1))))) :=
          t1.trans (mul_le_mul_of_nonneg_left (mul_le_mul_of_nonneg_left (q1.trans (mul_le_mul_of_nonneg_left r1 (by linarith))) (by norm_num)) (by linarith))
      _ = _ := by field_simp
  · rw [ec]
    refine lt_of_le_of_lt ?_ (Int.lt_floor_add_one _)
    calc _ = (1 - unit p) * (255 * ((1 - unit p) * ((1 - unit p) * (v - m.1) / ((1 + unit p) * (m.2 - m.1))))) := by field_simp
      _ ≤ _ := (mul_le_mul_of_nonneg_left (mul_le_mul_of_nonneg_left ((mul_le_mul_of_nonneg_left r2 w.le).trans q2) (by norm_num)) w.le).trans t2

/-- **C95.** The ends of the range are black and white, exactly. -/
theorem shadeFl_ends {p : Nat} (hp : 8 ≤ p) {m : ℝ × ℝ} (hm : m.1 < m.2) : shadeFl p m m.1 = .ok 0 ∧ shadeFl p m m.2 = .ok 255 := by
  have hp1 : 1 ≤ p := by omega
  have u1 : unit p ≤ 1 / 2 := (unit_le hp1).trans (by norm_num)
  have hd : 0 < fl p (m.2 - m.1) := lt_of_lt_of_le (mul_pos (by linarith) (sub_pos.2 hm)) (le_fl (sub_pos.2 hm).le)
  have r255 : Rep p (255 : ℝ) := by
    have h : (255 : Nat) ≤ 2 ^ p := le_trans (by norm_num) (Nat.pow_le_pow_right (by norm_num) hp)
    exact_mod_cast rep_nat h
  constructor
  · rw [(shadeFl_eq hp hm le_rfl hm.le).2.2, sub_self, fl_zero, zero_div, fl_zero, mul_zero, fl_zero, Int.floor_zero]
    rfl
  · rw [(shadeFl_eq hp hm hm.le le_rfl).2.2, div_self hd.ne', fl_one hp1, mul_one, fl_rep hp1 r255]
    have : ⌊(255 : ℝ)⌋ = 255 := by exact_mod_cast Int.floor_intCast (R := ℝ) 255
    rw [this]
    rfl

/-- **C95.** Larger values are not darker, in floating point too. -/
theorem shadeFl_mono {p : Nat} (hp : 8 ≤ p) {m : ℝ × ℝ} (hm : m.1 < m.2) {v w : ℝ} (h0 : m.1 ≤ v) (hvw : v ≤ w) (h1 : w ≤ m.2) {b c : Nat} (hb : shadeFl p m v = .ok b) (hc : shadeFl p m w = .ok c) :
    b ≤ c := by
  have hp1 : 1 ≤ p := by omega
  have u1 : unit p ≤ 1 / 2 := (unit_le hp1).trans (by norm_num)
  have hd : 0 < fl p (m.2 - m.1) := lt_of_lt_of_le (mul_pos (by linarith) (sub_pos.2 hm)) (le_fl (sub_pos.2 hm).le)
  rw [(shadeFl_eq hp hm h0 (hvw.trans h1)).2.2] at hb
  rw [(shadeFl_eq hp hm (h0.trans hvw) h1).2.2] at hc
  cases hb; cases hc
  apply Int.toNat_le_toNat
  apply Int.floor_le_floor
  apply fl_mono hp1
  apply mul_le_mul_of_nonneg_left _ (by norm_num)
  apply fl_mono hp1
  exact div_le_div_of_nonneg_right (fl_mono hp1 (by linarith)) hd.le

/-! ## Cases -/

/-- Doubles: three fields of which one is zero. -/
example : ∀ w ∈ projectFl 53 [1 / 4, 0, 1 / 2], 0 ≤ w ∧ w ≤ 1 := fun w hw =>
  have r : ∀ v ∈ [(1 : ℝ) / 4, 0, 1 / 2], 0 ≤ v ∧ Rep 53 v := by
    intro v hv
    simp only [List.mem_cons, List.not_mem_nil, or_false] at hv
    rcases hv with rfl | rfl | rfl
    · exact ⟨by norm_num, rep_quarter 53⟩
    · exact ⟨le_rfl, rep_zero 53⟩
    · exact ⟨by norm_num, ⟨1, -1, by norm_num, by norm_num⟩⟩
  have h := projectFl_range (p := 53) (by norm_num) (fun v hv => (r v hv).1) (fun v hv => (r v hv).2) hw
  ⟨h.1, h.2.1⟩

/-- A run with two fields on a periodic line of four nodes meets the hypotheses. -/
example (steps : Nat) : ∃ r, DensePF.run (Relax.line .periodic 4) (roundedCell 53 .serial (Relax.line .periodic 4) 2 fun d i h => fl 53 (DensePF.entry (d i) h + 1 / 3)) steps
    (fun i => if i < 2 then [1, 0] else [0, 1], fun _ => [0, 0]) = .ok r ∧ ∀ i, 0 ≤ i → i < 4 → InUnit 53 2 (r.1 i) := by
  obtain ⟨r, e, h⟩ := rounded_run (p := 53) (by norm_num) (g := Relax.line .periodic 4) (n := 2) (raw := fun d i h => fl 53 (DensePF.entry (d i) h + 1 / 3)) (Relax.line_wf _ (by norm_num)) rfl
    (Relax.reach_of_serial ⟨Relax.line_wf _ (by norm_num), rfl, fun _ _ => Or.inl ⟨rfl, rfl⟩⟩) (fun _ _ _ => rep_fl _) steps (old := fun i => if i < 2 then [1, 0] else [0, 1])
    (new := fun _ => [0, 0]) (fun _ _ _ => rfl) (fun i _ _ => by
      refine ⟨by split_ifs <;> rfl, fun v hv => ?_⟩
      have : v = 1 ∨ v = 0 := by split_ifs at hv <;> simp at hv <;> tauto
      rcases this with rfl | rfl
      · exact ⟨by norm_num, le_rfl, rep_one 53⟩
      · exact ⟨le_rfl, by norm_num, rep_zero 53⟩)
  exact ⟨r, e, fun i a b => h i a (by rw [Relax.line_nodes]; exact b)⟩

end MMSP.Rounded
