import Verif.MultigridCycle
import Mathlib.Data.Nat.Choose.Sum
/-!
# The multigrid solver: whole runs
-/

namespace MMSP.Multigrid

open Stencil (gridAt)

section
variable {α : Type} [Field α]

/-- Every side is a power of two times the stride (plus one node), the shortest 2^(n+1) strides long. -/
structure Dyadic (g : Shape) (s n : Nat) : Prop where
  wf : g.Wf
  ghosts : g.ghosts = 0
  x0 : ∀ j, j < g.dim → g.x0 j = 0
  pos : 0 < s
  side : ∀ j, j < g.dim → ∃ k, n ≤ k ∧ g.x1 j = ((2 ^ (k + 1) * s : Nat) : Int) + 1
  short : ∃ j, j < g.dim ∧ g.x1 j = ((2 ^ (n + 1) * s : Nat) : Int) + 1

omit [Field α] in
theorem Dyadic.aligned2 {g : Shape} {s n : Nat} (h : Dyadic g s n) : Aligned g (2 * s) := by
  refine ⟨h.wf, h.ghosts, h.x0, by have := h.pos; omega, fun j hj => ?_⟩
  obtain ⟨k, -, e⟩ := h.side j hj
  rw [e, add_sub_cancel_right]
  exact Int.natCast_dvd_natCast.2 ⟨2 ^ k, by rw [pow_succ]; ring⟩

omit [Field α] in
theorem Dyadic.aligned {g : Shape} {s n : Nat} (h : Dyadic g s n) : Aligned g s := aligned_half h.pos h.aligned2

omit [Field α] in
theorem Dyadic.up {g : Shape} {s n : Nat} (h : Dyadic g s (n + 1)) : Dyadic g (2 * s) n := by
  refine ⟨h.wf, h.ghosts, h.x0, by have := h.pos; omega, fun j hj => ?_, ?_⟩
  · obtain ⟨k, hk, e⟩ := h.side j hj
    obtain ⟨k, rfl⟩ : ∃ k', k = k' + 1 := ⟨k - 1, by omega⟩
    refine ⟨k, by omega, ?_⟩
    rw [e, pow_succ 2 (k + 1), mul_assoc]
  · obtain ⟨j, hj, e⟩ := h.short
    refine ⟨j, hj, ?_⟩
    rw [e, pow_succ 2 (n + 1), mul_assoc]

omit [Field α] in
theorem Dyadic.down {g : Shape} {s n : Nat} (hs : 0 < s) (h : Dyadic g (2 * s) n) : Dyadic g s (n + 1) := by
  refine ⟨h.wf, h.ghosts, h.x0, hs, fun j hj => ?_, ?_⟩
  · obtain ⟨k, hk, e⟩ := h.side j hj
    refine ⟨k + 1, by omega, ?_⟩
    rw [e, pow_succ 2 (k + 1), mul_assoc]
  · obtain ⟨j, hj, e⟩ := h.short
    refine ⟨j, hj, ?_⟩
    rw [e, pow_succ 2 (n + 1), mul_assoc]

omit [Field α] in
theorem coarsest_iff {g : Shape} {s n : Nat} (h : Dyadic g s n) : coarsest g s = true ↔ n = 0 := by
  unfold coarsest
  rw [List.any_eq_true]
  constructor
  · rintro ⟨j, hj, e⟩
    rw [decide_eq_true_iff] at e
    obtain ⟨k, hk, e'⟩ := h.side j (List.mem_range.1 hj)
    by_contra hn
    have hs := h.pos
    have h4 : 4 ≤ 2 ^ (k + 1) := by
      calc 4 = 2 ^ 2 := rfl
        _ ≤ 2 ^ (k + 1) := Nat.pow_le_pow_right (by norm_num) (by omega)
    have : 4 * s ≤ 2 ^ (k + 1) * s := Nat.mul_le_mul_right s h4
    omega
  · rintro rfl
    obtain ⟨j, hj, e⟩ := h.short
    refine ⟨j, List.mem_range.2 hj, ?_⟩
    rw [decide_eq_true_iff, e]
    push_cast
    ring

/-! ## One cycle -/

theorem swept_congr {g : Shape} {s : Nat} (ha : Aligned g s) (dx : Nat → α) {f f' : Int → α} (h : ∀ x, Inner g s x → val g f' x = val g f x) (u : Int → α) : swept g dx s f' u = swept g dx s f u := by
  unfold swept
  apply List.foldl_ext
  intro u x hx
  have hx' := ((mem_inner ha.pos).1 ((mem_order ha).1 hx)).1
  unfold relax
  rw [h x hx']

/-- The interpolation of the correction. -/
theorem refine_correction {g : Shape} {s : Nat} (ha : Aligned g s) (v : Int → α) :
    ∃ w, refine g s (linear g s) v = .ok w ∧ (∀ x, g.IsNode x → ¬ Inner g s x → val g w x = val g v x) ∧ (v = (fun _ => 0) → w = fun _ => 0) := by
  by_cases hd : g.dim = 1
  · exact ⟨v, refine_line hd s _ v, fun _ _ _ => rfl, id⟩
  · refine ⟨_, refine_ok ha hd (fun a _ u x hx => linear_ok ha u (pass_inner ha.pos hx) a) v, fun x hx hn => refined_other ha _ v hx hn, ?_⟩
    rintro rfl
    apply refined_zero
    intro x a
    simp [lin, val]

/-- The restricted defect: no undefined subscript, and the values at the inner nodes of the coarser level do not depend on what was in the memory of `d`. -/
theorem restrict_ok {g : Shape} {s : Nat} (hs : 0 < s) (ha : Aligned g (2 * s)) (dx : Nat → α) (f u : Int → α) :
    ∃ r : Int → α, (∀ (f' d : Int → α), (∀ x, Inner g s x → val g f' x = val g f x) →
      ∃ d1 d2, defect g dx s u f' d = .ok d1 ∧ coarsen g s d1 = .ok d2 ∧ ∀ x, Inner g (2 * s) x → val g d2 x = val g r x) ∧
      (Solves g dx s f u → ∀ x, Inner g (2 * s) x → val g r x = 0) := by
  have has := aligned_half hs ha
  have step : ∀ (f' d : Int → α), (∀ x, Inner g s x → val g f' x = val g f x) →
      ∃ d1 d2, defect g dx s u f' d = .ok d1 ∧ coarsen g s d1 = .ok d2 ∧ (∀ x, Inner g s x → val g d1 x = val g f x - lap g dx s u x) ∧
        (∀ x, Inner g (2 * s) x → val g d2 x = if g.dim = 1 then val g d1 x else fullWeight g s d1 x) := by
    intro f' d hf
    obtain ⟨d1, h1, h2, -⟩ := defect_spec has dx u f' d
    by_cases hd : g.dim = 1
    · exact ⟨d1, d1, h1, coarsen_line hd s d1, fun x hx => by rw [h2 x hx, hf x hx], fun x _ => by rw [if_pos hd]⟩
    · obtain ⟨d2, h3, h4, -⟩ := coarsen_spec hs ha hd d1
      exact ⟨d1, d2, h1, h3, fun x hx => by rw [h2 x hx, hf x hx], fun x hx => by rw [if_neg hd, h4 x hx]⟩
  obtain ⟨r1, r, -, -, hr1, hr⟩ := step f (fun _ => 0) fun _ _ => rfl
  refine ⟨r, fun f' d hf => ?_, fun hsol x hx => ?_⟩
  · obtain ⟨d1, d2, h1, h2, h3, h4⟩ := step f' d hf
    refine ⟨d1, d2, h1, h2, fun x hx => ?_⟩
    rw [h4 x hx, hr x hx]
    split_ifs with hd
    · rw [h3 x (inner_half hx), hr1 x (inner_half hx)]
    · exact fullWeight_congr hs ha hx fun y hy => by rw [h3 y hy, hr1 y hy]
  · rw [hr x hx]
    have hz : ∀ y, Inner g s y → val g r1 y = 0 := fun y hy => by rw [hr1 y hy, hsol y hy, sub_self]
    split_ifs with hd
    · exact hz x (inner_half hx)
    · rw [fullWeight_congr hs ha hx (u' := fun _ => 0) fun y hy => by rw [hz y hy]; rfl]
      unfold fullWeight val
      simp

/-- Everything about a cycle at once. -/
theorem mg_all {g : Shape} (dx : Nat → α) (gamma nu1 nu2 : Nat) {n : Nat} : ∀ {s : Nat}, Dyadic g s n → ∀ f u : Int → α,
    ∃ u', (∀ (junk : Nat → Int → α) (fuel : Nat) (f' : Int → α), n < fuel → (∀ x, Inner g s x → val g f' x = val g f x) → mg g dx junk gamma nu1 nu2 fuel s f' u = some (.ok u')) ∧
      (∀ x, g.IsNode x → ¬ Inner g s x → val g u' x = val g u x) ∧ ((∀ k, Spaced g dx (2 ^ k * s)) → Solves g dx s f u → u' = u) := by
  induction n with
  | zero =>
    intro s hD f u
    have ha := hD.aligned
    refine ⟨(swept g dx s f)^[40] u, fun junk fuel f' hfuel hf => ?_, fun x hx hn => ?_, fun hsp hsol => ?_⟩
    · obtain ⟨fuel, rfl⟩ : ∃ k, fuel = k + 1 := ⟨fuel - 1, by omega⟩
      rw [mg, if_pos ((coarsest_iff hD).2 rfl), smooth_ok ha, funext fun u => swept_congr ha dx hf u]
    · obtain ⟨u', h1, h2⟩ := smooth_other ha dx f 40 u hx hn
      rw [smooth_ok ha] at h1
      rw [Outcome.ok.inj h1]; exact h2
    · have hs0 := hsp 0
      rw [pow_zero, one_mul] at hs0
      have := smooth_fixed ha hs0 hsol 40
      rw [smooth_ok ha] at this
      exact Outcome.ok.inj this
  | succ n ih =>
    intro s hD f u
    have ha := hD.aligned
    have ha2 := hD.aligned2
    have hs := hD.pos
    obtain ⟨r, hr, hr0⟩ := restrict_ok hs ha2 dx f ((swept g dx s f)^[nu1] u)
    -- the calls on the coarser level
    have calls : ∀ (k : Nat) (v : Int → α), ∃ v', (∀ (junk : Nat → Int → α) (fuel : Nat) (f' : Int → α), n < fuel → (∀ x, Inner g (2 * s) x → val g f' x = val g r x) →
        times (mg g dx junk gamma nu1 nu2 fuel (2 * s) f') k v = some (.ok v')) ∧
        (∀ x, g.IsNode x → ¬ Inner g (2 * s) x → val g v' x = val g v x) ∧ ((∀ k, Spaced g dx (2 ^ k * (2 * s))) → Solves g dx (2 * s) r v → v' = v) := by
      intro k
      induction k with
      | zero => intro v; exact ⟨v, fun _ _ _ _ _ => rfl, fun _ _ _ => rfl, fun _ _ => rfl⟩
      | succ k ihk =>
        intro v
        obtain ⟨v1, a1, a2, a3⟩ := ih hD.up r v
        obtain ⟨v2, b1, b2, b3⟩ := ihk v1
        refine ⟨v2, fun junk fuel f' hfuel hf => ?_, fun x hx hn => by rw [b2 x hx hn, a2 x hx hn], fun hsp hsol => ?_⟩
        · rw [times, a1 junk fuel f' hfuel hf]
          exact b1 junk fuel f' hfuel hf
        · have e := a3 hsp hsol
          subst e
          exact b3 hsp hsol
    obtain ⟨v, v1, v2, v3⟩ := calls gamma fun _ => 0
    obtain ⟨w, w1, w2, w3⟩ := refine_correction ha v
    refine ⟨(swept g dx s f)^[nu2] fun p => (swept g dx s f)^[nu1] u p + w p, fun junk fuel f' hfuel hf => ?_, fun x hx hn => ?_, fun hsp hsol => ?_⟩
    · obtain ⟨fuel, rfl⟩ : ∃ k, fuel = k + 1 := ⟨fuel - 1, by omega⟩
      have hc : ¬ coarsest g s = true := fun h => by have := (coarsest_iff hD).1 h; omega
      obtain ⟨d1, d2, c1, c2, c3⟩ := hr f' (junk fuel) hf
      rw [mg, if_neg hc, smooth_ok ha, funext fun u => swept_congr ha dx hf u]
      simp only [Outcome.ok_bind, c1, c2]
      rw [v1 junk fuel d2 (by omega) c3]
      simp only [Outcome.ok_bind, w1]
      rw [smooth_ok ha, funext fun u => swept_congr ha dx hf u]
    · have keep : ∀ (k : Nat) (u : Int → α), val g ((swept g dx s f)^[k] u) x = val g u x := by
        intro k u
        obtain ⟨u', h1, h2⟩ := smooth_other ha dx f k u hx hn
        rw [smooth_ok ha] at h1
        rw [Outcome.ok.inj h1]; exact h2
      rw [keep]
      show (swept g dx s f)^[nu1] u (g.rawOffset x) + w (g.rawOffset x) = _
      have e1 := keep nu1 u
      have e2 : w (g.rawOffset x) = 0 := by
        have h3 := w2 x hx hn
        have h4 := v2 x hx fun h => hn (inner_half h)
        unfold val at h3 h4
        rw [h3, h4]
      unfold val at e1
      rw [e1, e2, add_zero]
      rfl
    · have hs0 := hsp 0
      rw [pow_zero, one_mul] at hs0
      have fix : ∀ k, (swept g dx s f)^[k] u = u := by
        intro k
        have := smooth_fixed ha hs0 hsol k
        rw [smooth_ok ha] at this
        exact Outcome.ok.inj this
      have hsp2 : ∀ k, Spaced g dx (2 ^ k * (2 * s)) := fun k => by
        have := hsp (k + 1)
        rwa [pow_succ, mul_assoc] at this
      have hv : v = fun _ => 0 := by
        apply v3 hsp2
        intro x hx
        have := hr0 (by rw [fix]; exact hsol) x hx
        rw [this]
        unfold lap val
        simp
      have hw := w3 hv
      subst hw
      simp only [add_zero]
      rw [fix, fix]

/-- **C56.** On a level whose sides are powers of two times the stride, a multigrid cycle (any number of smoothing steps, V, W or more) always ends, reads nothing but nodes of the grid,
does not depend on the uninitialised memory of the defect, depends on the right-hand side at the inner nodes of the level only, and changes no other node: boundary values stay. -/
theorem mg_spec {g : Shape} (dx : Nat → α) (gamma nu1 nu2 : Nat) {s n : Nat} (hD : Dyadic g s n) (f u : Int → α) :
    ∃ u', (∀ (junk : Nat → Int → α) (fuel : Nat) (f' : Int → α), n < fuel → (∀ x, Inner g s x → val g f' x = val g f x) → mg g dx junk gamma nu1 nu2 fuel s f' u = some (.ok u')) ∧
      ∀ x, g.IsNode x → ¬ Inner g s x → val g u' x = val g u x := by
  obtain ⟨u', h1, h2, -⟩ := mg_all dx gamma nu1 nu2 hD f u
  exact ⟨u', h1, h2⟩

/-- **C56.** A multigrid cycle leaves a solution as it is. -/
theorem mg_fixed {g : Shape} {dx : Nat → α} (gamma nu1 nu2 : Nat) {s n : Nat} (hD : Dyadic g s n) (hsp : ∀ k, Spaced g dx (2 ^ k * s)) {f u : Int → α} (hsol : Solves g dx s f u)
    (junk : Nat → Int → α) {fuel : Nat} (hfuel : n < fuel) : mg g dx junk gamma nu1 nu2 fuel s f u = some (.ok u) := by
  obtain ⟨u', h1, -, h3⟩ := mg_all dx gamma nu1 nu2 hD f u
  rw [h1 junk fuel f hfuel fun _ _ => rfl, h3 hsp hsol]

omit [Field α] in
theorem times_none {step : (Int → α) → Option (Outcome (Int → α))} (h : ∀ v r, step v ≠ some (.ok r)) {k : Nat} (hk : 0 < k) (v r : Int → α) : times step k v ≠ some (.ok r) := by
  obtain ⟨k, rfl⟩ : ∃ k', k = k' + 1 := ⟨k - 1, by omega⟩
  rw [times]
  rcases e : step v with _ | (r' | _ | _)
  · simp
  · exact absurd e (h v r')
  · simp
  · simp

/-- **C56.** If no side is a power of two (at least 2) times the stride, the cycle never returns: the test for the coarsest level fails on every level. -/
theorem mg_never {g : Shape} (dx : Nat → α) (junk : Nat → Int → α) {gamma : Nat} (hgamma : 0 < gamma) (nu1 nu2 : Nat) {s : Nat}
    (hno : ∀ i, i < g.dim → ∀ n : Nat, g.x1 i ≠ ((2 ^ (n + 1) * s : Nat) : Int) + 1) (fuel : Nat) (f u r : Int → α) : mg g dx junk gamma nu1 nu2 fuel s f u ≠ some (.ok r) := by
  induction fuel generalizing s f u r with
  | zero => simp [mg]
  | succ fuel ih =>
    have hc : ¬ coarsest g s = true := by
      unfold coarsest
      rw [List.any_eq_true]
      rintro ⟨i, hi, e⟩
      rw [decide_eq_true_iff] at e
      apply hno i (List.mem_range.1 hi) 0
      rw [← e]; push_cast; ring
    have ih' : ∀ f u r, mg g dx junk gamma nu1 nu2 fuel (2 * s) f u ≠ some (.ok r) := fun f u r => by
      apply ih
      intro i hi n e
      apply hno i hi (n + 1)
      rw [e, pow_succ 2 (n + 1), mul_assoc]
    rw [mg, if_neg hc]
    split
    · simp
    · simp
    · next u1 d _ =>
      have ht := times_none (ih' d) hgamma (fun _ => 0)
      split
      · simp
      · next o ho =>
        rcases o with v | _ | _
        · exact absurd ho (ht v)
        · simp
        · simp

/-! ## Full multigrid -/

omit [Field α] in
/-- The stride of the first level is a quarter of the shortest side. -/
theorem coarseStride_spec {g : Shape} (hd : 0 < g.dim) : (∀ j, j < g.dim → coarseStride g ≤ Int.tdiv (g.x1 j - 1) 4) ∧ ∃ j, j < g.dim ∧ coarseStride g = Int.tdiv (g.x1 j - 1) 4 := by
  unfold coarseStride
  have key : ∀ (n : Nat), n ≤ g.dim →
      (let c := (List.range n).foldl (fun s i => if Int.tdiv (g.x1 i - 1) 4 < s then Int.tdiv (g.x1 i - 1) 4 else s) (Int.tdiv (g.x1 0 - 1) 4);
       c ≤ Int.tdiv (g.x1 0 - 1) 4 ∧ (∀ j, j < n → c ≤ Int.tdiv (g.x1 j - 1) 4) ∧ ∃ j, j < g.dim ∧ c = Int.tdiv (g.x1 j - 1) 4) := by
    intro n
    induction n with
    | zero => intro _; exact ⟨le_refl _, fun j hj => absurd hj (by omega), 0, hd, rfl⟩
    | succ n ih =>
      intro hn
      obtain ⟨h0, h1, j, hj, h2⟩ := ih (by omega)
      dsimp only at h0 h1 h2 ⊢
      rw [List.range_succ, List.foldl_append, List.foldl_cons, List.foldl_nil]
      split_ifs with hlt
      · refine ⟨by omega, fun i hi => ?_, n, by omega, rfl⟩
        by_cases e : i = n
        · subst e; exact le_refl _
        · have := h1 i (by omega); omega
      · refine ⟨h0, fun i hi => ?_, j, hj, h2⟩
        by_cases e : i = n
        · subst e; omega
        · exact h1 i (by omega)
  obtain ⟨-, h1, h2⟩ := key g.dim (le_refl _)
  exact ⟨h1, h2⟩

/-- **C56.** With fewer than five nodes along some axis the stride of the first level is 0 and the solver never returns. -/
theorem update_hangs {g : Shape} (hw : g.Wf) (h0 : ∀ j, j < g.dim → g.x0 j = 0) {j : Nat} (hj : j < g.dim) (hshort : g.x1 j < 5) (hmore : 1 < g.x1 0)
    (dx : Nat → α) (junk : Nat → Int → α) (fuel : Nat) (f : Int → α) : update g dx junk fuel f = none := by
  have h1 := (coarseStride_spec hw.dim_pos).1 j hj
  have h2 : Int.tdiv (g.x1 j - 1) 4 = 0 := by
    have := hw.side j hj
    have := h0 j hj
    rw [Int.tdiv_eq_ediv_of_nonneg (by omega)]
    omega
  have hz : (coarseStride g).toNat = 0 := by omega
  unfold update fmg
  simp only [hz, if_true]
  rw [if_pos (by omega)]

/-- The finer levels. -/
theorem levels_all {g : Shape} (dx : Nat → α) (gamma nu1 nu2 : Nat) {p : Nat} : ∀ {n : Nat}, Dyadic g (2 ^ p) (n + 1) → ∀ (f u : Int → α),
    ∃ u', (∀ (junk : Nat → Int → α) (fuel m : Nat) (f' : Int → α), n + 1 + p < fuel → p < m → (∀ x, Inner g 1 x → val g f' x = val g f x) →
        levels g dx junk gamma nu1 nu2 fuel f' m (2 ^ p) u = some (.ok u')) ∧ ∀ x, g.IsNode x → Boundary g x → val g u' x = val g u x := by
  induction p with
  | zero =>
    intro n _ f u
    refine ⟨u, fun junk fuel m f' _ hm _ => ?_, fun _ _ _ => rfl⟩
    obtain ⟨m, rfl⟩ : ∃ k, m = k + 1 := ⟨m - 1, by omega⟩
    rw [levels]; rfl
  | succ p ih =>
    intro n hD f u
    have hpos : 0 < 2 ^ p := Nat.pos_of_ne_zero (by simp)
    have e2 : 2 ^ (p + 1) = 2 * 2 ^ p := by rw [pow_succ]; ring
    rw [e2] at hD
    have hD1 := hD.down hpos
    have ha2 : Aligned g (2 * 2 ^ p) := hD.aligned
    have has := hD1.aligned
    have hlong : ∀ j, j < g.dim → 6 * ((2 ^ p : Nat) : Int) ≤ g.x1 j - 1 := by
      intro j hj
      obtain ⟨k, hk, e⟩ := hD.side j hj
      have h4 : 4 ≤ 2 ^ (k + 1) := by
        calc 4 = 2 ^ 2 := rfl
          _ ≤ 2 ^ (k + 1) := Nat.pow_le_pow_right (by norm_num) (by omega)
      have : 4 * (2 * 2 ^ p) ≤ 2 ^ (k + 1) * (2 * 2 ^ p) := Nat.mul_le_mul_right _ h4
      omega
    -- the cubic interpolation
    have hre : ∃ u1, refine g (2 ^ p) (cubic g (2 ^ p)) u = .ok u1 ∧ ∀ x, g.IsNode x → ¬ Inner g (2 ^ p) x → val g u1 x = val g u x := by
      by_cases hd : g.dim = 1
      · exact ⟨u, refine_line hd _ _ u, fun _ _ _ => rfl⟩
      · exact ⟨_, refine_ok has hd (fun a hag u x hx => cubic_ok hpos ha2 hlong u hag hx) u, fun x hx hn => refined_other has _ u hx hn⟩
    obtain ⟨u1, r1, r2⟩ := hre
    obtain ⟨u2, m1, m2⟩ := mg_spec dx gamma nu1 nu2 hD1 f u1
    obtain ⟨u3, l1, l2⟩ := ih hD1 f u2
    refine ⟨u3, fun junk fuel m f' hfuel hm hf => ?_, fun x hx hb => ?_⟩
    · obtain ⟨m, rfl⟩ : ∃ k, m = k + 1 := ⟨m - 1, by omega⟩
      have hhalf : 2 ^ (p + 1) / 2 = 2 ^ p := by rw [e2]; omega
      have hf' : ∀ x, Inner g (2 ^ p) x → val g f' x = val g f x := fun x hx => hf x fun j hj => ⟨(hx j hj).1, (hx j hj).2.1, by simp⟩
      rw [levels]
      simp only [hhalf]
      rw [if_neg (by omega)]
      simp only [r1]
      rw [m1 junk fuel f' (by omega) hf']
      exact l1 junk fuel m f' (by omega) (by omega) hf
    · have hni : ¬ Inner g (2 ^ p) x := fun h => not_boundary_of_inner h hb
      rw [l2 x hx hb, m2 x hx hni, r2 x hx hni]

/-- **C56.** On a grid whose sides have 2^k+1 nodes, k at least 2, the solver always ends, with 0 on the boundary; the result depends on the right-hand side at the inner nodes only, not on
uninitialised memory. -/
theorem update_spec {g : Shape} (hw : g.Wf) (h0 : g.ghosts = 0) (hx0 : ∀ j, j < g.dim → g.x0 j = 0) (hside : ∀ j, j < g.dim → ∃ k, g.x1 j = ((2 ^ (k + 2) : Nat) : Int) + 1)
    (dx : Nat → α) (f : Int → α) : ∃ u' K, (∀ (junk : Nat → Int → α) (fuel : Nat) (f' : Int → α), K < fuel → (∀ x, Inner g 1 x → val g f' x = val g f x) → update g dx junk fuel f' = some (.ok u')) ∧
      ∀ x, g.IsNode x → Boundary g x → val g u' x = 0 := by
  obtain ⟨hmin, j, hj, hjs⟩ := coarseStride_spec hw.dim_pos
  obtain ⟨p, hp⟩ := hside j hj
  have quarter : ∀ i k, g.x1 i = ((2 ^ (k + 2) : Nat) : Int) + 1 → Int.tdiv (g.x1 i - 1) 4 = ((2 ^ k : Nat) : Int) := by
    intro i k e
    have : 2 ^ (k + 2) = 4 * 2 ^ k := by rw [pow_add]; ring
    rw [e, this, add_sub_cancel_right, Int.tdiv_eq_ediv_of_nonneg (by positivity)]
    omega
  have hc : coarseStride g = ((2 ^ p : Nat) : Int) := by rw [hjs, quarter j p hp]
  have hD : Dyadic g (2 ^ p) 1 := by
    refine ⟨hw, h0, hx0, Nat.pos_of_ne_zero (by simp), fun i hi => ?_, j, hj, ?_⟩
    · obtain ⟨k, hk⟩ := hside i hi
      have h1 := hmin i hi
      rw [hc, quarter i k hk] at h1
      have hpk : p ≤ k := (Nat.pow_le_pow_iff_right (show 1 < 2 by norm_num)).1 (by exact_mod_cast h1)
      refine ⟨k - p + 1, by omega, ?_⟩
      rw [hk, ← pow_add]
      congr 3
      omega
    · rw [hp, ← pow_add]
      congr 3
      omega
  have ha := hD.aligned
  obtain ⟨u', l1, l2⟩ := levels_all dx 1 2 2 (n := 0) hD f ((swept g dx (2 ^ p) f)^[40] fun _ => 0)
  refine ⟨u', p + 1, fun junk fuel f' hfuel hf => ?_, fun x hx hb => ?_⟩
  · have hs : (coarseStride g).toNat = 2 ^ p := by rw [hc]; exact Int.toNat_natCast _
    have hf' : ∀ x, Inner g (2 ^ p) x → val g f' x = val g f x := fun x hx => hf x fun j hj => ⟨(hx j hj).1, (hx j hj).2.1, by simp⟩
    unfold update fmg
    simp only [hs]
    rw [if_neg (by simp), smooth_ok ha, funext fun u => swept_congr ha dx hf' u]
    exact l1 junk fuel fuel f' (by omega) (by omega) hf
  · rw [l2 x hx hb]
    have hni : ¬ Inner g (2 ^ p) x := fun h => not_boundary_of_inner h hb
    obtain ⟨u1, h1, h2⟩ := smooth_other ha dx f 40 (fun _ => 0) hx hni
    rw [smooth_ok ha] at h1
    rw [Outcome.ok.inj h1, h2]
    rfl

/-- If a level above the finest is left, the last cycle is the one with stride 1. -/
theorem levels_last {g : Shape} {dx : Nat → α} {junk : Nat → Int → α} {gamma nu1 nu2 fuel : Nat} {f : Int → α} (hno : ∀ u r, mg g dx junk gamma nu1 nu2 fuel 1 f u ≠ some (.ok r))
    (m : Nat) {s : Nat} (hs : 2 ≤ s) (u r : Int → α) : levels g dx junk gamma nu1 nu2 fuel f m s u ≠ some (.ok r) := by
  induction m generalizing s u r with
  | zero => simp [levels]
  | succ m ih =>
    rw [levels, if_neg (by omega)]
    split
    · simp
    · simp
    · next u1 _ =>
      split
      · simp
      · simp
      · simp
      · next u2 he =>
        by_cases h : 2 ≤ s / 2
        · exact ih h u2 r
        · have : s / 2 = 1 := by omega
          rw [this] at he
          exact absurd he (hno _ _)

/-- **C56.** With at least nine nodes along every axis, and along none of them a power of two plus one, the solver never returns. -/
theorem update_never {g : Shape} (hd : 0 < g.dim) (hlong : ∀ j, j < g.dim → 9 ≤ g.x1 j) (hno : ∀ i, i < g.dim → ∀ n : Nat, g.x1 i ≠ ((2 ^ (n + 1) : Nat) : Int) + 1)
    (dx : Nat → α) (junk : Nat → Int → α) (fuel : Nat) (f r : Int → α) : update g dx junk fuel f ≠ some (.ok r) := by
  obtain ⟨-, j, hj, hjs⟩ := coarseStride_spec hd
  have hs : 2 ≤ (coarseStride g).toNat := by
    have := hlong j hj
    rw [hjs, Int.tdiv_eq_ediv_of_nonneg (by omega)]
    omega
  unfold update fmg
  dsimp only
  rw [if_neg (by omega)]
  split
  · simp
  · simp
  · apply levels_last _ fuel hs
    intro u r
    apply mg_never dx junk (by norm_num)
    intro i hi n
    rw [mul_one]
    exact hno i hi n

end

/-! ## Examples -/

/-- A plane of 9×n nodes. -/
def plane (n : Int) : Shape := ⟨2, fun _ => 0, fun j => if j = 0 then 9 else n, fun _ => .neumann, fun _ => .neumann, 0⟩

theorem plane_wf {n : Int} (hn : 0 < n) : (plane n).Wf :=
  ⟨show 0 < 2 by norm_num, fun j _ => by show (0 : Int) < if j = 0 then 9 else n; split_ifs <;> omega, le_refl _⟩

theorem plane_raw (n : Int) (x : Nat → Int) : (plane n).rawOffset x = x 0 * n + x 1 := by
  simp [Shape.rawOffset, encode, plane, Shape.sx, Shape.s0, Shape.s1, slice, Finset.sum_range_succ]

theorem plane_dyadic : Dyadic (plane 5) 1 1 :=
  ⟨plane_wf (by norm_num), rfl, fun _ _ => rfl, by norm_num, fun j _ => by
    by_cases e : j = 0
    · exact ⟨2, by norm_num, by subst e; rfl⟩
    · exact ⟨1, le_refl _, by show (if j = 0 then (9 : Int) else 5) = _; rw [if_neg e]; rfl⟩, 1, by show 1 < 2; norm_num, rfl⟩

theorem plane_aligned : Aligned (plane 9) 2 :=
  ⟨plane_wf (by norm_num), rfl, fun _ _ => rfl, by norm_num, fun j _ => by show _ ∣ (if j = 0 then (9 : Int) else 9) - 1; rw [ite_self]; norm_num⟩

/-- `(5x+y)²` on 9×5 nodes: both second differences are constant. -/
theorem plane_solves : Solves (plane 5) (fun _ => (1 : ℚ)) 1 (fun _ => 52) fun p => (p : ℚ) ^ 2 := by
  intro x _
  unfold lap val h2
  simp only [show (plane 5).dim = 2 from rfl, Finset.sum_range_succ, Finset.sum_range_zero, plane_raw, move]
  simp
  ring

-- The smoother, a cycle and the defect on this solution; the memory of the defect full of sevens.
example : sweep (plane 5) (fun _ => (1 : ℚ)) 1 (fun _ => 52) (fun p => (p : ℚ) ^ 2) = .ok fun p => (p : ℚ) ^ 2 :=
  (sweep_fixed_iff plane_dyadic.aligned (spaced_of_pos (by show 0 < 2; norm_num) (fun _ _ => by norm_num) (by norm_num)) _ _).2 plane_solves

example : mg (plane 5) (fun _ => (1 : ℚ)) (fun _ _ => 7) 2 1 3 2 1 (fun _ => 52) (fun p => (p : ℚ) ^ 2) = some (.ok fun p => (p : ℚ) ^ 2) :=
  mg_fixed 2 1 3 plane_dyadic (fun k => spaced_of_pos (by show 0 < 2; norm_num) (fun _ _ => by norm_num) (by positivity)) plane_solves _ (by norm_num)

example (u f d : Int → ℚ) : ∃ d', defect (plane 5) (fun _ => 1) 1 u f d = .ok d' ∧ ∀ x, Inner (plane 5) 1 x → val (plane 5) d' x = val (plane 5) f x - lap (plane 5) (fun _ => 1) 1 u x := by
  obtain ⟨d', h1, h2, -⟩ := defect_spec plane_dyadic.aligned (fun _ => (1 : ℚ)) u f d
  exact ⟨d', h1, h2⟩

-- Restriction on 9×9 nodes.
example (u : Int → ℚ) : ∃ u', coarsen (plane 9) 1 u = .ok u' ∧ ∀ x, Inner (plane 9) 2 x → val (plane 9) u' x = mean 1 (val (plane 9) u) 2 x := by
  obtain ⟨u', h1, h2, -⟩ := coarsen_spec (g := plane 9) (s := 1) (by norm_num) plane_aligned (by show 2 ≠ 1; norm_num) u
  exact ⟨u', h1, fun x hx => by rw [h2 x hx, fullWeight_eq]; rfl⟩

theorem plane_poly (n : Nat) : PolyAlong (plane 9) n fun p => (p : ℚ) ^ n := by
  intro a ha x _
  have ha : a = 0 ∨ a = 1 := by have : a < 2 := ha; omega
  have expand : ∀ (b c : ℚ) (t : ℚ), (c * t + b) ^ n = ∑ i ∈ Finset.range (n + 1), (c ^ i * b ^ (n - i) * (n.choose i : ℚ)) * t ^ i := by
    intro b c t
    rw [add_pow]
    apply Finset.sum_congr rfl
    intro i _
    rw [mul_pow]; ring
  rcases ha with rfl | rfl
  · refine ⟨fun i => 9 ^ i * (x 1 : ℚ) ^ (n - i) * (n.choose i : ℚ), fun t _ _ => ?_⟩
    rw [← expand]
    unfold val
    rw [plane_raw]
    simp
    ring
  · refine ⟨fun i => 1 ^ i * (9 * (x 0 : ℚ)) ^ (n - i) * (n.choose i : ℚ), fun t _ _ => ?_⟩
    rw [← expand]
    unfold val
    rw [plane_raw]
    simp
    ring

/-- The values of `w` with one of them, at the node (1,1), replaced. -/
theorem plane_agree (w : Int → ℚ) : Agree (plane 9) 1 0 w (Function.update w 10 7) := by
  intro x hx hc
  unfold val
  apply Function.update_of_ne
  rw [plane_raw]
  intro e
  have b0 : 0 ≤ x 0 ∧ x 0 ≤ 9 - 1 ∧ _ := hx 0 (show 0 < 2 by norm_num)
  have b1 : 0 ≤ x 1 ∧ x 1 ≤ 9 - 1 ∧ _ := hx 1 (show 1 < 2 by norm_num)
  have e0 : x 0 = 1 := by omega
  have e1 : x 1 = 1 := by omega
  rcases hc with ⟨j, hj, h⟩ | h
  · have hj : j = 0 ∨ j = 1 := by have : j < 2 := hj; omega
    have h9 : (plane 9).x1 j = 9 := by rcases hj with rfl | rfl <;> rfl
    rw [h9] at h
    rcases hj with rfl | rfl <;> omega
  · have := h 0 (le_refl _) (show 0 < 2 by norm_num)
    rw [e0] at this
    norm_num at this

-- Linear and cubic interpolation repair that value.
example : ∃ u', refine (plane 9) 1 (linear (plane 9) 1) (Function.update (fun p => (p : ℚ) ^ 1) 10 7) = .ok u' ∧ ∀ x, Node (plane 9) 1 x → val (plane 9) u' x = val (plane 9) (fun p => (p : ℚ) ^ 1) x := by
  obtain ⟨u', h1, h2, -⟩ := refine_linear (by norm_num) plane_aligned (by show 2 ≠ 1; norm_num) (plane_poly 1) (plane_agree _)
  exact ⟨u', h1, h2⟩

example : ∃ u', refine (plane 9) 1 (cubic (plane 9) 1) (Function.update (fun p => (p : ℚ) ^ 3) 10 7) = .ok u' ∧ ∀ x, Node (plane 9) 1 x → val (plane 9) u' x = val (plane 9) (fun p => (p : ℚ) ^ 3) x := by
  obtain ⟨u', h1, h2, -⟩ := refine_cubic (by norm_num) plane_aligned (by show 2 ≠ 1; norm_num)
    (fun j _ => by show _ ≤ (if j = 0 then (9 : Int) else 9) - 1; rw [ite_self]; norm_num) (plane_poly 3) (plane_agree _)
  exact ⟨u', h1, h2⟩

-- The whole solver on 9×5 nodes, where it ends; on 9×3, where the first loop does not, and on 10×12, where the recursion does not.
example (f : Int → ℚ) : ∃ u' K, ∀ junk fuel, K < fuel → update (plane 5) (fun _ => 1) junk fuel f = some (.ok u') := by
  obtain ⟨u', K, h, -⟩ := update_spec (g := plane 5) (plane_wf (by norm_num)) rfl (fun _ _ => rfl) (fun j hj => by
    have hj : j = 0 ∨ j = 1 := by have : j < 2 := hj; omega
    rcases hj with rfl | rfl
    · exact ⟨1, rfl⟩
    · exact ⟨0, rfl⟩) (fun _ => (1 : ℚ)) f
  exact ⟨u', K, fun junk fuel hf => h junk fuel f hf fun _ _ => rfl⟩

example (junk : Nat → Int → ℚ) (fuel : Nat) (f : Int → ℚ) : update (plane 3) (fun _ => 1) junk fuel f = none :=
  update_hangs (plane_wf (by norm_num)) (fun _ _ => rfl) (j := 1) (by show 1 < 2; norm_num) (by show (3 : Int) < 5; norm_num) (by show (1 : Int) < 9; norm_num) _ junk fuel f

/-- **C56.** Ten nodes along every axis: no result, whatever the right-hand side. -/
theorem ten_never (junk : Nat → Int → ℚ) (fuel : Nat) (f r : Int → ℚ) :
    update ⟨2, fun _ => 0, fun _ => 10, fun _ => .neumann, fun _ => .neumann, 0⟩ (fun _ => 1) junk fuel f ≠ some (.ok r) := by
  apply update_never (by norm_num) (fun _ _ => by norm_num)
  intro i _ n e
  have e : (10 : Int) = ((2 ^ (n + 1) : Nat) : Int) + 1 := e
  have : 2 ^ (n + 1) = 2 * 2 ^ n := by rw [pow_succ]; ring
  omega

end MMSP.Multigrid
