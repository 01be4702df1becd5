import Verif.RoundConfine
/-!
# Property C112: what two Allen-Cahn runs have to do with each other

The update of allen-cahn.cpp 47-75 (`allenCahnUpdate`, `acRhs`) is run twice: from two initial fields in exact arithmetic, or once in exact and once in floating-point arithmetic (`powRhs` of C111).
-/

namespace MMSP.Compare

open Finset
open MMSP.Stencil MMSP.ParallelRun MMSP.Symmetry

/-! ## Specification -/

section
variable {α : Type} [Field α] [LinearOrder α] [IsStrictOrderedRing α]

/-- Sum of the weights `1/(dx*dx)` of `d` axes. -/
def mass (d : Nat) (dx : Nat → α) : α := ∑ i ∈ range d, lapWeight (dx i)

/-- The time step does not overshoot on fields within `±R`, and the well does not push outwards at `R`. `c` is `dt*M`. -/
structure Calm (d : Nat) (dx : Nat → α) (c r u k R : α) : Prop where
  c0 : 0 ≤ c
  u0 : 0 ≤ u
  k0 : 0 ≤ k
  turn : r * R ≤ u * R ^ 3
  small : c * (k * (2 * mass d dx) + 3 * u * R ^ 2 - r) ≤ 1

/-- A field and a test on its values. -/
def AllNodes {T : Type} (g : Shape) (P : T → Prop) (data : Int → T) : Prop := ∀ x, g.IsNode x → P (cellAt g data x)

/-- Two fields and a test on the values of the same node. -/
def Pairs {T T' : Type} (g : Shape) (P : T → T' → Prop) (a : Int → T) (b : Int → T') : Prop := ∀ x, g.IsNode x → P (cellAt g a x) (cellAt g b x)

end

/-! ## Two runs side by side -/

section Run
variable {T T' : Type} [Zero T] [One T] [Add T] [Sub T] [Mul T] [Div T] [Zero T'] [One T'] [Add T'] [Sub T'] [Mul T'] [Div T']

/-- A relation between the values of two runs that every node keeps is kept by the runs. -/
theorem run_pairs {g : Shape} (hg : Room 1 g) {dx : Nat → T} {dx' : Nat → T'} {f : T → T → T} {f' : T' → T' → T'} {P : Nat → T → T' → Prop}
    (hnode : ∀ n (phi : T) (phi' : T') (F G : Nat → T) (F' G' : Nat → T'), P n phi phi' → (∀ i, i < g.dim → P n (F i) (F' i)) → (∀ i, i < g.dim → P n (G i) (G' i)) →
      P (n + 1) (f phi ((List.range g.dim).foldl (fun a i => a + lapWeight (dx i) * (F i - (1 + 1) * phi + G i)) 0))
        (f' phi' ((List.range g.dim).foldl (fun a i => a + lapWeight (dx' i) * (F' i - (1 + 1) * phi' + G' i)) 0)))
    (steps : Nat) {σ : Grids T} {τ : Grids T'} (h : Pairs g (P 0) (σ 0) (τ 0)) :
    ∃ σ' τ', serialRun g (allenCahnUpdate g.dim dx f steps) σ = .ok σ' ∧ serialRun g (allenCahnUpdate g.dim dx' f' steps) τ = .ok τ' ∧ Pairs g (P steps) (σ' 0) (τ' 0) := by
  induction steps with
  | zero => exact ⟨σ, τ, rfl, rfl, h⟩
  | succ n ih =>
    obtain ⟨σ1, τ1, e1, e2, h1⟩ := ih
    obtain ⟨σ2, e3, h3⟩ := allenCahn_one hg dx f σ1
    obtain ⟨τ2, e4, h4⟩ := allenCahn_one hg dx' f' τ1
    refine ⟨σ2, τ2, ?_, ?_, fun x hx => ?_⟩
    · have ea : allenCahnUpdate g.dim dx f (n + 1) = allenCahnUpdate g.dim dx f n ++ allenCahn g.dim dx f := by
        unfold allenCahnUpdate; rw [repeatProg_succ]; rfl
      rw [ea, serialRun_append, e1, Outcome.ok_bind]
      exact e3
    · have ea : allenCahnUpdate g.dim dx' f' (n + 1) = allenCahnUpdate g.dim dx' f' n ++ allenCahn g.dim dx' f' := by
        unfold allenCahnUpdate; rw [repeatProg_succ]; rfl
      rw [ea, serialRun_append, e2, Outcome.ok_bind]
      exact e4
    · rw [h3 x hx, h4 x hx]
      have near : ∀ i t, -1 ≤ t → t ≤ 1 → g.IsNode (wrap g (bump x i t)) := fun i t h0 h1 =>
        near_reach hg.reach hx fun j _ => by unfold bump; by_cases e : j = i <;> simp [e]; omega
      have own : ∀ {V : Type} (a : Int → V), cellAt g a (wrap g x) = cellAt g a x := fun a => by
        unfold cellAt
        rw [rawOffset_congr fun j hj => ?_]
        have := hx j hj
        unfold wrap checkBoundary
        split_ifs <;> omega
      unfold lapF
      beta_reduce
      rw [own, own]
      exact hnode n _ _ _ _ _ _ (h1 x hx) (fun i _ => h1 _ (near i 1 (by decide) (by decide))) (fun i _ => h1 _ (near i (-1) (by decide) (by decide)))

/-- The same on ranks. -/
theorem ranks_pairs {w : World} {np : Nat} {c : Nat → Cell T} {c' : Nat → Cell T'} (hc : ∀ k, RoundTrips (c k)) (hv : ∀ k v, (c k).Valid v) (hc' : ∀ k, RoundTrips (c' k))
    (hv' : ∀ k v, (c' k).Valid v) (h : w.Ok np) (hgh : 1 ≤ w.ghosts) {dx : Nat → T} {dx' : Nat → T'} {f : T → T → T} {f' : T' → T' → T'} {P : T → T' → Prop} (steps : Nat)
    {σ : Grids T} {τ : Grids T'} {D : Int → Grids T} {E : Int → Grids T'} (hD : SameField w np σ D 0) (hE : SameField w np τ E 0)
    (hσ : ∃ σ' τ', serialRun w.serial (allenCahnUpdate w.d dx f steps) σ = .ok σ' ∧ serialRun w.serial (allenCahnUpdate w.d dx' f' steps) τ = .ok τ' ∧ Pairs w.serial P (σ' 0) (τ' 0)) :
    ∃ D' E', Finished np (mpiRun c w (allenCahnUpdate w.d dx f steps) fun r => .ok (D r)) D' ∧ Finished np (mpiRun c' w (allenCahnUpdate w.d dx' f' steps) fun r => .ok (E r)) E' ∧
      ∀ r, Ghost.IsRank np r → Pairs (w.shape r) P (D' r 0) (E' r 0) := by
  have hd : Disciplined w.d w.ghosts (fun _ (_ : T) => True) ⟨fun k => k = 0, fun _ => False⟩ (allenCahnUpdate w.d dx f steps) oldKnown :=
    .ghostswap rfl (((allenCahn_disciplined w.d hgh dx _).steps steps).mono ⟨fun _ => id, fun _ hk => Or.inr hk⟩)
  have hd' : Disciplined w.d w.ghosts (fun _ (_ : T') => True) ⟨fun k => k = 0, fun _ => False⟩ (allenCahnUpdate w.d dx' f' steps) oldKnown :=
    .ghostswap rfl (((allenCahn_disciplined w.d hgh dx' _).steps steps).mono ⟨fun _ => id, fun _ hk => Or.inr hk⟩)
  obtain ⟨σ', D', e1, e2, hA, _⟩ := parallel_eq_serial hc (fun k v _ => hv k v) h hd (σ := σ) (D := D) (S := fun r => .ok (D r)) (fun _ _ => rfl)
    ⟨fun k hk => hk ▸ hD, fun _ hk => hk.elim⟩ (fun _ => ⟨fun _ _ _ => trivial, fun _ _ _ _ _ => trivial⟩)
  obtain ⟨τ', E', f1, f2, hB, _⟩ := parallel_eq_serial hc' (fun k v _ => hv' k v) h hd' (σ := τ) (D := E) (S := fun r => .ok (E r)) (fun _ _ => rfl)
    ⟨fun k hk => hk ▸ hE, fun _ hk => hk.elim⟩ (fun _ => ⟨fun _ _ _ => trivial, fun _ _ _ _ _ => trivial⟩)
  obtain ⟨σ2, τ2, e3, f3, hw⟩ := hσ
  obtain rfl : σ2 = σ' := Outcome.ok.inj (e3.symm.trans e1)
  obtain rfl : τ2 = τ' := Outcome.ok.inj (f3.symm.trans f1)
  refine ⟨D', E', e2, f2, fun r hr x hx => ?_⟩
  rw [hA.1 0 rfl r hr x hx, hB.1 0 rfl r hr x hx]
  exact hw x (Ghost.isNode_global h.setup hr hx)

end Run

/-! ## One node -/

section
variable {α : Type} [Field α] [LinearOrder α] [IsStrictOrderedRing α]

/-- The right-hand side at a node with neighbours `F`, `G`. -/
def node (d : Nat) (dx : Nat → α) (c r u k phi : α) (F G : Nat → α) : α :=
  phi - c * (-r * phi + u * phi ^ 3 - k * ∑ i ∈ range d, lapWeight (dx i) * (F i - 2 * phi + G i))

omit [LinearOrder α] [IsStrictOrderedRing α] in
theorem fold_eq (d : Nat) (dx : Nat → α) (phi : α) (F G : Nat → α) :
    (List.range d).foldl (fun a i => a + lapWeight (dx i) * (F i - (1 + 1) * phi + G i)) 0 = ∑ i ∈ range d, lapWeight (dx i) * (F i - 2 * phi + G i) := by
  induction d with
  | zero => simp
  | succ d ih => rw [List.range_succ, List.foldl_append, ih, sum_range_succ]; norm_num

omit [LinearOrder α] [IsStrictOrderedRing α] in
theorem acRhs_node (d : Nat) (dx : Nat → α) (dt m r u k phi : α) (F G : Nat → α) :
    acRhs dt m r u k phi ((List.range d).foldl (fun a i => a + lapWeight (dx i) * (F i - (1 + 1) * phi + G i)) 0) = node d dx (dt * m) r u k phi F G := by
  rw [fold_eq]; unfold acRhs node; ring

theorem lapWeight_nonneg (h : α) : 0 ≤ lapWeight h := div_nonneg zero_le_one (mul_self_nonneg h)

/-- How far two nodes are apart after a step. `Q` bounds the slope of the cubic term from below. -/
theorem node_gap {d : Nat} {dx : Nat → α} {c r u k R : α} (hc : Calm d dx c r u k R) {a b E Q : α} {F G F' G' : Nat → α} (ha : |a| ≤ R) (hb : |b| ≤ R) (hE : 0 ≤ E) (hab : b - a ≤ E)
    (hF : ∀ i, i < d → F' i - F i ≤ E) (hG : ∀ i, i < d → G' i - G i ≤ E) (hQ : Q ≤ a ^ 2 + a * b + b ^ 2) :
    node d dx c r u k b F' G' - node d dx c r u k a F G ≤ (1 + c * (r - u * Q)) * E := by
  obtain ⟨a1, a2⟩ := abs_le.1 ha
  obtain ⟨b1, b2⟩ := abs_le.1 hb
  have hR : 0 ≤ R := (abs_nonneg a).trans ha
  set q := a ^ 2 + a * b + b ^ 2 with hq
  have hq3 : q ≤ 3 * R ^ 2 := by
    have h1 := sq_le_sq' a1 a2
    have h2 := sq_le_sq' b1 b2
    nlinarith [sq_nonneg (a - b)]
  have hsum : ∑ i ∈ range d, lapWeight (dx i) * (F' i - 2 * b + G' i) - ∑ i ∈ range d, lapWeight (dx i) * (F i - 2 * a + G i) ≤ 2 * mass d dx * (E - (b - a)) := by
    unfold mass
    rw [← sum_sub_distrib, mul_comm (2 : α) (∑ i ∈ range d, _), mul_assoc, sum_mul]
    refine sum_le_sum fun i hi => ?_
    have h1 := hF i (mem_range.1 hi)
    have h2 := hG i (mem_range.1 hi)
    rw [← mul_sub]
    exact mul_le_mul_of_nonneg_left (by linarith) (lapWeight_nonneg _)
  set S' := ∑ i ∈ range d, lapWeight (dx i) * (F' i - 2 * b + G' i)
  set S := ∑ i ∈ range d, lapWeight (dx i) * (F i - 2 * a + G i)
  have t1 := mul_nonneg (mul_nonneg hc.c0 hc.k0) (sub_nonneg.2 hsum)
  have hA : 0 ≤ 1 - c * (k * (2 * mass d dx) + u * q - r) := by
    have := mul_nonneg (mul_nonneg hc.c0 hc.u0) (sub_nonneg.2 hq3)
    linarith [hc.small]
  have t2 := mul_nonneg hA (sub_nonneg.2 hab)
  have t3 := mul_nonneg (mul_nonneg (mul_nonneg hc.c0 hc.u0) (sub_nonneg.2 hQ)) hE
  unfold node
  have e : (1 + c * (r - u * Q)) * E - (b - c * (-r * b + u * b ^ 3 - k * S') - (a - c * (-r * a + u * a ^ 3 - k * S))) =
      c * k * (2 * mass d dx * (E - (b - a)) - (S' - S)) + (1 - c * (k * (2 * mass d dx) + u * q - r)) * (E - (b - a)) + c * u * (q - Q) * E := by rw [hq]; ring
  linarith

/-- Higher neighbours and a higher value give a higher value. -/
theorem node_mono {d : Nat} {dx : Nat → α} {c r u k R : α} (hc : Calm d dx c r u k R) {a b : α} {F G F' G' : Nat → α} (ha : |a| ≤ R) (hb : |b| ≤ R) (hab : a ≤ b)
    (hF : ∀ i, i < d → F i ≤ F' i) (hG : ∀ i, i < d → G i ≤ G' i) : node d dx c r u k a F G ≤ node d dx c r u k b F' G' := by
  have := node_gap hc (a := b) (b := a) (E := 0) (Q := b ^ 2 + b * a + a ^ 2) (F := F') (G := G') (F' := F) (G' := G) hb ha le_rfl (by linarith) (fun i hi => by linarith [hF i hi])
    (fun i hi => by linarith [hG i hi]) le_rfl
  rw [mul_zero] at this
  linarith

omit [LinearOrder α] [IsStrictOrderedRing α] in
/-- A constant field. -/
theorem node_const (d : Nat) (dx : Nat → α) (c r u k a : α) : node d dx c r u k a (fun _ => a) (fun _ => a) = a - c * (u * a ^ 3 - r * a) := by
  unfold node
  rw [show ∑ i ∈ range d, lapWeight (dx i) * (a - 2 * a + a) = 0 from sum_eq_zero fun i _ => by ring]
  ring

theorem node_within {d : Nat} {dx : Nat → α} {c r u k R : α} (hc : Calm d dx c r u k R) {a : α} {F G : Nat → α} (ha : |a| ≤ R) (hF : ∀ i, i < d → |F i| ≤ R) (hG : ∀ i, i < d → |G i| ≤ R) :
    |node d dx c r u k a F G| ≤ R := by
  have hR : 0 ≤ R := (abs_nonneg a).trans ha
  have t := mul_nonneg hc.c0 (sub_nonneg.2 hc.turn)
  refine abs_le.2 ⟨?_, ?_⟩
  · have h := node_mono hc (a := -R) (b := a) (F := fun _ => -R) (G := fun _ => -R) (F' := F) (G' := G) (by rw [abs_neg, abs_of_nonneg hR]) ha (abs_le.1 ha).1 (fun i hi => (abs_le.1 (hF i hi)).1)
      (fun i hi => (abs_le.1 (hG i hi)).1)
    rw [node_const] at h
    linarith
  · have h := node_mono hc (a := a) (b := R) (F := F) (G := G) (F' := fun _ => R) (G' := fun _ => R) ha (by rw [abs_of_nonneg hR]) (abs_le.1 ha).2 (fun i hi => (abs_le.1 (hF i hi)).2)
      (fun i hi => (abs_le.1 (hG i hi)).2)
    rw [node_const] at h
    linarith

/-! ## Exact runs -/

/-- **C112.** Comparison: of two initial fields within `±R`, if one is nowhere above the other, neither is its result. -/
theorem allenCahn_ordered {g : Shape} (hg : Room 1 g) {dx : Nat → α} {dt m r u k R : α} (hc : Calm g.dim dx (dt * m) r u k R) (steps : Nat) {σ τ : Grids α}
    (hσ : AllNodes g (fun v => |v| ≤ R) (σ 0)) (hτ : AllNodes g (fun v => |v| ≤ R) (τ 0)) (h : Pairs g (· ≤ ·) (σ 0) (τ 0)) :
    ∃ σ' τ', serialRun g (allenCahnUpdate g.dim dx (acRhs dt m r u k) steps) σ = .ok σ' ∧ serialRun g (allenCahnUpdate g.dim dx (acRhs dt m r u k) steps) τ = .ok τ' ∧
      Pairs g (· ≤ ·) (σ' 0) (τ' 0) := by
  obtain ⟨σ', τ', e1, e2, hP⟩ := run_pairs hg (dx := dx) (dx' := dx) (f := acRhs dt m r u k) (f' := acRhs dt m r u k) (P := fun _ a b => |a| ≤ R ∧ |b| ≤ R ∧ a ≤ b)
    (fun n a b F G F' G' h hF hG => by
      simp only [acRhs_node]
      exact ⟨node_within hc h.1 (fun i hi => (hF i hi).1) (fun i hi => (hG i hi).1), node_within hc h.2.1 (fun i hi => (hF i hi).2.1) (fun i hi => (hG i hi).2.1),
        node_mono hc h.1 h.2.1 h.2.2 (fun i hi => (hF i hi).2.2) (fun i hi => (hG i hi).2.2)⟩)
    steps (σ := σ) (τ := τ) fun x hx => ⟨hσ x hx, hτ x hx, h x hx⟩
  exact ⟨σ', τ', e1, e2, fun x hx => (hP x hx).2.2⟩

/-- **C112.** Stability: two initial fields within `±R` that differ by at most `E` give results that differ by at most `(1+dt*M*r)^n` times that. -/
theorem allenCahn_stable {g : Shape} (hg : Room 1 g) {dx : Nat → α} {dt m r u k R E : α} (hc : Calm g.dim dx (dt * m) r u k R) (steps : Nat) {σ τ : Grids α}
    (hσ : AllNodes g (fun v => |v| ≤ R) (σ 0)) (hτ : AllNodes g (fun v => |v| ≤ R) (τ 0)) (h : Pairs g (fun a b => |b - a| ≤ E) (σ 0) (τ 0)) :
    ∃ σ' τ', serialRun g (allenCahnUpdate g.dim dx (acRhs dt m r u k) steps) σ = .ok σ' ∧ serialRun g (allenCahnUpdate g.dim dx (acRhs dt m r u k) steps) τ = .ok τ' ∧
      Pairs g (fun a b => |b - a| ≤ (1 + dt * m * r) ^ steps * E) (σ' 0) (τ' 0) := by
  obtain ⟨σ', τ', e1, e2, hP⟩ := run_pairs hg (dx := dx) (dx' := dx) (f := acRhs dt m r u k) (f' := acRhs dt m r u k)
    (P := fun n a b => |a| ≤ R ∧ |b| ≤ R ∧ |b - a| ≤ (1 + dt * m * r) ^ n * E)
    (fun n a b F G F' G' h hF hG => by
      simp only [acRhs_node]
      refine ⟨node_within hc h.1 (fun i hi => (hF i hi).1) (fun i hi => (hG i hi).1), node_within hc h.2.1 (fun i hi => (hF i hi).2.1) (fun i hi => (hG i hi).2.1), ?_⟩
      have hE' : 0 ≤ (1 + dt * m * r) ^ n * E := (abs_nonneg _).trans h.2.2
      have up := node_gap hc (a := a) (b := b) (E := (1 + dt * m * r) ^ n * E) (Q := 0) (F := F) (G := G) (F' := F') (G' := G') h.1 h.2.1 hE' (abs_le.1 h.2.2).2
        (fun i hi => (abs_le.1 (hF i hi).2.2).2) (fun i hi => (abs_le.1 (hG i hi).2.2).2) (by nlinarith [sq_nonneg (a + b), sq_nonneg a, sq_nonneg b])
      have dn := node_gap hc (a := b) (b := a) (E := (1 + dt * m * r) ^ n * E) (Q := 0) (F := F') (G := G') (F' := F) (G' := G) h.2.1 h.1 hE' (by linarith [(abs_le.1 h.2.2).1])
        (fun i hi => by linarith [(abs_le.1 (hF i hi).2.2).1]) (fun i hi => by linarith [(abs_le.1 (hG i hi).2.2).1]) (by nlinarith [sq_nonneg (a + b), sq_nonneg a, sq_nonneg b])
      have ep : (1 + dt * m * r) ^ (n + 1) * E = (1 + dt * m * (r - u * 0)) * ((1 + dt * m * r) ^ n * E) := by ring
      rw [ep]
      exact abs_le.2 ⟨by linarith, by linarith⟩)
    steps (σ := σ) (τ := τ) fun x hx => ⟨hσ x hx, hτ x hx, by rw [pow_zero, one_mul]; exact h x hx⟩
  exact ⟨σ', τ', e1, e2, fun x hx => (hP x hx).2.2⟩

/-- **C112.** One sign: a field that is nowhere negative stays so, and if it is at least `a > 0` everywhere it approaches the bottom `s` of the well (`u*s*s = r`), each step taking off at least
the fraction `dt*M*u*a*(a+s)` of the largest distance. -/
theorem allenCahn_well {g : Shape} (hg : Room 1 g) {dx : Nat → α} {dt m r u k R a s E : α} (hc : Calm g.dim dx (dt * m) r u k R) (ha : 0 ≤ a) (has : a ≤ s) (hs : u * s ^ 2 = r) (hsR : s ≤ R)
    (steps : Nat) {σ : Grids α} (hσ : AllNodes g (fun v => a ≤ v ∧ v ≤ R ∧ |v - s| ≤ E) (σ 0)) :
    ∃ σ', serialRun g (allenCahnUpdate g.dim dx (acRhs dt m r u k) steps) σ = .ok σ' ∧ AllNodes g (fun v => a ≤ v ∧ v ≤ R ∧ |v - s| ≤ (1 - dt * m * u * a * (a + s)) ^ steps * E) (σ' 0) := by
  have hs0 : 0 ≤ s := ha.trans has
  have inR : ∀ {v : α}, a ≤ v → v ≤ R → |v| ≤ R := fun {v} h1 h2 => abs_le.2 ⟨by linarith, h2⟩
  obtain ⟨σ', _, e1, _, hP⟩ := run_pairs hg (dx := dx) (dx' := dx) (f := acRhs dt m r u k) (f' := acRhs dt m r u k)
    (P := fun n v _ => a ≤ v ∧ v ≤ R ∧ |v - s| ≤ (1 - dt * m * u * a * (a + s)) ^ n * E)
    (fun n v _ F G _ _ h hF hG => by
      simp only [acRhs_node]
      obtain ⟨h1, h2, h3⟩ := h
      have hw := node_within hc (inR h1 h2) (fun i hi => inR (hF i hi).1 (hF i hi).2.1) (fun i hi => inR (hG i hi).1 (hG i hi).2.1)
      have low := node_mono hc (a := a) (b := v) (F := fun _ => a) (G := fun _ => a) (F' := F) (G' := G) (inR le_rfl (has.trans hsR)) (inR h1 h2) h1 (fun i hi => (hF i hi).1) (fun i hi => (hG i hi).1)
      rw [node_const] at low
      have grow : 0 ≤ dt * m * (r * a - u * a ^ 3) := by
        refine mul_nonneg hc.c0 ?_
        have : r * a - u * a ^ 3 = u * a * ((s - a) * (s + a)) := by rw [← hs]; ring
        rw [this]
        exact mul_nonneg (mul_nonneg hc.u0 ha) (mul_nonneg (by linarith) (by linarith))
      refine ⟨by linarith, (abs_le.1 hw).2, ?_⟩
      have hE' : 0 ≤ (1 - dt * m * u * a * (a + s)) ^ n * E := (abs_nonneg _).trans h3
      have fix : node g.dim dx (dt * m) r u k s (fun _ => s) (fun _ => s) = s := by
        rw [node_const, show u * s ^ 3 - r * s = 0 by rw [← hs]; ring]; ring
      have hsq : a ^ 2 + a * s + s ^ 2 ≤ s ^ 2 + s * v + v ^ 2 := by nlinarith
      have up := node_gap hc (a := s) (b := v) (E := (1 - dt * m * u * a * (a + s)) ^ n * E) (Q := a ^ 2 + a * s + s ^ 2) (F := fun _ => s) (G := fun _ => s) (F' := F) (G' := G)
        (inR has hsR) (inR h1 h2) hE' (abs_le.1 h3).2 (fun i hi => (abs_le.1 (hF i hi).2.2).2) (fun i hi => (abs_le.1 (hG i hi).2.2).2) hsq
      have dn := node_gap hc (a := v) (b := s) (E := (1 - dt * m * u * a * (a + s)) ^ n * E) (Q := a ^ 2 + a * s + s ^ 2) (F := F) (G := G) (F' := fun _ => s) (G' := fun _ => s)
        (inR h1 h2) (inR has hsR) hE' (by linarith [(abs_le.1 h3).1]) (fun i hi => by linarith [(abs_le.1 (hF i hi).2.2).1]) (fun i hi => by linarith [(abs_le.1 (hG i hi).2.2).1]) (by nlinarith)
      rw [fix] at up dn
      have ep : (1 - dt * m * u * a * (a + s)) ^ (n + 1) * E = (1 + dt * m * (r - u * (a ^ 2 + a * s + s ^ 2))) * ((1 - dt * m * u * a * (a + s)) ^ n * E) := by rw [← hs]; ring
      rw [ep]
      exact abs_le.2 ⟨by linarith, by linarith⟩)
    steps (σ := σ) (τ := σ) fun x hx => by rw [pow_zero, one_mul]; exact hσ x hx
  exact ⟨σ', e1, hP⟩

/-- **C112.** Comparison on any decomposition. -/
theorem ranks_ordered {w : World} {np : Nat} {c : Nat → Cell α} (hcell : ∀ k, RoundTrips (c k)) (hv : ∀ k v, (c k).Valid v) (h : w.Ok np) (hgh : 1 ≤ w.ghosts) (hg : Room 1 w.serial)
    {dx : Nat → α} {dt m r u k R : α} (hc : Calm w.d dx (dt * m) r u k R) (steps : Nat) {σ τ : Grids α} {D E : Int → Grids α} (hD : SameField w np σ D 0) (hE : SameField w np τ E 0)
    (hσ : AllNodes w.serial (fun v => |v| ≤ R) (σ 0)) (hτ : AllNodes w.serial (fun v => |v| ≤ R) (τ 0)) (ho : Pairs w.serial (· ≤ ·) (σ 0) (τ 0)) :
    ∃ D' E', Finished np (mpiRun c w (allenCahnUpdate w.d dx (acRhs dt m r u k) steps) fun r => .ok (D r)) D' ∧
      Finished np (mpiRun c w (allenCahnUpdate w.d dx (acRhs dt m r u k) steps) fun r => .ok (E r)) E' ∧ ∀ r, Ghost.IsRank np r → Pairs (w.shape r) (· ≤ ·) (D' r 0) (E' r 0) :=
  ranks_pairs hcell hv hcell hv h hgh steps hD hE (allenCahn_ordered hg hc steps hσ hτ ho)

end

/-- **C112, necessity.** With the coefficients of the example and the time step 1 comparison fails: from a field that is nowhere negative one step makes a negative value, while the field 0 stays. -/
theorem large_step_disorders : ∃ σ' τ', serialRun (Conserve.line .periodic .periodic) (allenCahnUpdate 1 (fun _ => (1 : ℚ)) (acRhs 1 1 1 1 1) 1) (fun _ _ => 0) = .ok σ' ∧
    serialRun (Conserve.line .periodic .periodic) (allenCahnUpdate 1 (fun _ => (1 : ℚ)) (acRhs 1 1 1 1 1) 1) (fun _ n => if n = 1 then 1 else 0) = .ok τ' ∧
    τ' 0 1 < σ' 0 1 := by
  obtain ⟨σ', e1, h1⟩ := allenCahn_one (line_room .periodic (by decide)) (fun _ => (1 : ℚ)) (acRhs 1 1 1 1 1) fun _ _ => 0
  obtain ⟨τ', e2, h2⟩ := allenCahn_one (line_room .periodic (by decide)) (fun _ => (1 : ℚ)) (acRhs 1 1 1 1 1) fun _ n => if n = 1 then 1 else 0
  refine ⟨σ', τ', e1, e2, ?_⟩
  have hx : (Conserve.line .periodic .periodic).IsNode fun _ => 1 := fun i _ => by simp [Conserve.line]
  have v1 : σ' 0 1 = 0 := (h1 _ hx).trans (by decide +kernel)
  have v2 : τ' 0 1 = -1 := (h2 _ hx).trans (by decide +kernel)
  rw [v1, v2]; norm_num

/-! ## Floating point against exact arithmetic -/

section Float
open Rounding MMSP.RoundConserve MMSP.RoundConfine
variable {p : Nat}

/-- What one step in floating point adds to the distance: its rounding errors and the error of `dt*M`. -/
noncomputable def stray (d : Nat) (dx : Nat → Num p) (cF r u k : Num p) (c R : ℝ) : ℝ :=
  slip d dx cF r u k R + |cF.val - c| * (|r.val| * R + |u.val| * R ^ 3 + |k.val| * (4 * weights d dx * R))

/-- One step in floating point against one step in exact arithmetic on the same values. -/
theorem step_stray (hp : 1 ≤ p) {cube : Num p → Num p} (hcube : Cube cube) {d : Nat} {dx : Nat → Num p} {dx' : Nat → ℝ} (hdx : ∀ i, i < d → lapWeight (dx' i) = (lapWeight (dx i)).val)
    (dt m r u k : Num p) (c : ℝ) {R : ℝ} {phi : Num p} (F G : Nat → Num p) (hphi : |phi.val| ≤ R) (hF : ∀ i, i < d → |(F i).val| ≤ R) (hG : ∀ i, i < d → |(G i).val| ≤ R) :
    |(powRhs cube dt m r u k phi ((List.range d).foldl (fun a i => a + lapWeight (dx i) * (F i - (1 + 1) * phi + G i)) 0)).val -
      node d dx' c r.val u.val k.val phi.val (fun i => (F i).val) (fun i => (G i).val)| ≤ stray d dx (dt * m) r u k c R := by
  have h1 := node_slip hp hcube dx dt m r u k F G hphi hF hG
  have es : ∑ i ∈ range d, lapWeight (dx' i) * ((F i).val - 2 * phi.val + (G i).val) = ∑ i ∈ range d, (lapWeight (dx i)).val * ((F i).val - 2 * phi.val + (G i).val) :=
    sum_congr rfl fun i hi => by rw [hdx i (mem_range.1 hi)]
  unfold node stray
  rw [es]
  set y := ∑ i ∈ range d, (lapWeight (dx i)).val * ((F i).val - 2 * phi.val + (G i).val) with hy
  set v := (powRhs cube dt m r u k phi ((List.range d).foldl (fun a i => a + lapWeight (dx i) * (F i - (1 + 1) * phi + G i)) 0)).val
  have hyb : |y| ≤ 4 * weights d dx * R := by
    refine (abs_sum_le_sum_abs _ _).trans (le_trans (sum_le_sum fun i _ => ?_) (lap_size dx F G hphi hF hG))
    rw [abs_mul]
    refine mul_le_mul_of_nonneg_left ?_ (abs_nonneg _)
    refine (abs_add_le _ _).trans (add_le_add ((abs_sub _ _).trans ?_) le_rfl)
    rw [abs_mul, abs_two]
  have hb : |(-r.val * phi.val + u.val * phi.val ^ 3 - k.val * y)| ≤ |r.val| * R + |u.val| * R ^ 3 + |k.val| * (4 * weights d dx * R) := by
    refine (abs_sub _ _).trans (add_le_add ((abs_add_le _ _).trans (add_le_add ?_ ?_)) ?_)
    · rw [abs_mul, abs_neg]; exact mul_le_mul_of_nonneg_left hphi (abs_nonneg _)
    · rw [abs_mul, abs_pow]; exact mul_le_mul_of_nonneg_left (pow_le_pow_left₀ (abs_nonneg _) hphi 3) (abs_nonneg _)
    · rw [abs_mul]; exact mul_le_mul_of_nonneg_left hyb (abs_nonneg _)
  set B := -r.val * phi.val + u.val * phi.val ^ 3 - k.val * y
  have e : v - (phi.val - c * B) = (v - (phi.val - (dt * m).val * B)) + -(((dt * m).val - c) * B) := by ring
  rw [e]
  refine (abs_add_le _ _).trans (add_le_add h1 ?_)
  rw [abs_neg, abs_mul]
  exact mul_le_mul_of_nonneg_left hb (abs_nonneg _)

/-- The distance after `n` steps. -/
noncomputable def spread (L e E : ℝ) : Nat → ℝ
  | 0 => E
  | n + 1 => L * spread L e E n + e

theorem spread_eq (L e E : ℝ) (n : Nat) : spread L e E n = L ^ n * E + e * ∑ j ∈ range n, L ^ j := by
  induction n with
  | zero => simp [spread]
  | succ n ih =>
    rw [spread, ih, sum_range_succ', pow_zero]
    have : ∑ j ∈ range n, L ^ (j + 1) = L * ∑ j ∈ range n, L ^ j := by rw [mul_sum]; exact sum_congr rfl fun j _ => by ring
    rw [this]; ring

theorem distance_of_stay (hp : 1 ≤ p) {cube : Num p → Num p} (hcube : Cube cube) {g : Shape} (hg : Room 1 g) {dx : Nat → Num p} {dx' : Nat → ℝ}
    (hdx : ∀ i, i < g.dim → lapWeight (dx' i) = (lapWeight (dx i)).val) {dt m r u k : Num p} {dt' m' R E : ℝ}
    (hstay : ∀ (phi : Num p) (F G : Nat → Num p), |phi.val| ≤ R → (∀ i, i < g.dim → |(F i).val| ≤ R) → (∀ i, i < g.dim → |(G i).val| ≤ R) →
      |(powRhs cube dt m r u k phi ((List.range g.dim).foldl (fun a i => a + lapWeight (dx i) * (F i - (1 + 1) * phi + G i)) 0)).val| ≤ R)
    (hc : Calm g.dim dx' (dt' * m') r.val u.val k.val R) (steps : Nat) {σ : Grids (Num p)} {τ : Grids ℝ} (hσ : AllNodes g (fun v => |v.val| ≤ R) (σ 0))
    (hτ : AllNodes g (fun v => |v| ≤ R) (τ 0)) (h : Pairs g (fun a b => |a.val - b| ≤ E) (σ 0) (τ 0)) :
    ∃ σ' τ', serialRun g (allenCahnUpdate g.dim dx (powRhs cube dt m r u k) steps) σ = .ok σ' ∧
      serialRun g (allenCahnUpdate g.dim dx' (acRhs dt' m' r.val u.val k.val) steps) τ = .ok τ' ∧
      Pairs g (fun a b => |a.val - b| ≤ (1 + dt' * m' * r.val) ^ steps * E + stray g.dim dx (dt * m) r u k (dt' * m') R * ∑ j ∈ range steps, (1 + dt' * m' * r.val) ^ j) (σ' 0) (τ' 0) := by
  obtain ⟨σ', τ', e1, e2, hP⟩ := run_pairs hg (dx := dx) (dx' := dx') (f := powRhs cube dt m r u k) (f' := acRhs dt' m' r.val u.val k.val)
    (P := fun n a b => |a.val| ≤ R ∧ |b| ≤ R ∧ |a.val - b| ≤ spread (1 + dt' * m' * r.val) (stray g.dim dx (dt * m) r u k (dt' * m') R) E n)
    (fun n a b F G F' G' h hF hG => by
      simp only [acRhs_node]
      refine ⟨hstay a F G h.1 (fun i hi => (hF i hi).1) fun i hi => (hG i hi).1, node_within hc h.2.1 (fun i hi => (hF i hi).2.1) (fun i hi => (hG i hi).2.1), ?_⟩
      have hs := step_stray hp hcube hdx dt m r u k (dt' * m') F G h.1 (fun i hi => (hF i hi).1) fun i hi => (hG i hi).1
      rw [spread]
      set S := spread (1 + dt' * m' * r.val) (stray g.dim dx (dt * m) r u k (dt' * m') R) E n
      have hS : 0 ≤ S := (abs_nonneg _).trans h.2.2
      have up := node_gap hc (a := b) (b := a.val) (E := S) (Q := 0) (F := F') (G := G') (F' := fun i => (F i).val) (G' := fun i => (G i).val) h.2.1 h.1 hS (abs_le.1 h.2.2).2
        (fun i hi => (abs_le.1 (hF i hi).2.2).2) (fun i hi => (abs_le.1 (hG i hi).2.2).2) (by nlinarith [sq_nonneg (a.val + b), sq_nonneg a.val, sq_nonneg b])
      have dn := node_gap hc (a := a.val) (b := b) (E := S) (Q := 0) (F := fun i => (F i).val) (G := fun i => (G i).val) (F' := F') (G' := G') h.1 h.2.1 hS (by linarith [(abs_le.1 h.2.2).1])
        (fun i hi => by linarith [(abs_le.1 (hF i hi).2.2).1]) (fun i hi => by linarith [(abs_le.1 (hG i hi).2.2).1]) (by nlinarith [sq_nonneg (a.val + b), sq_nonneg a.val, sq_nonneg b])
      rw [mul_zero, sub_zero] at up dn
      obtain ⟨s1, s2⟩ := abs_le.1 hs
      exact abs_le.2 ⟨by linarith, by linarith⟩)
    steps (σ := σ) (τ := τ) fun x hx => ⟨hσ x hx, hτ x hx, h x hx⟩
  exact ⟨σ', τ', e1, e2, fun x hx => by rw [← spread_eq]; exact (hP x hx).2.2⟩

/-- **C112.** Floating point against exact arithmetic, fields within `±R`: after `n` steps the values differ by at most the initial distance times `(1+dt*M*r)^n` and the errors of the steps, each
growing with the same factor. -/
theorem allenCahn_distance (hp : 1 ≤ p) {cube : Num p → Num p} (hcube : Cube cube) {g : Shape} (hg : Room 1 g) {dx : Nat → Num p} {dx' : Nat → ℝ}
    (hdx : ∀ i, i < g.dim → lapWeight (dx' i) = (lapWeight (dx i)).val) {dt m r u k : Num p} {dt' m' R E : ℝ} (ht : Turns g.dim dx (dt * m) r u k R)
    (hc : Calm g.dim dx' (dt' * m') r.val u.val k.val R) (steps : Nat) {σ : Grids (Num p)} {τ : Grids ℝ} (hσ : AllNodes g (fun v => |v.val| ≤ R) (σ 0))
    (hτ : AllNodes g (fun v => |v| ≤ R) (τ 0)) (h : Pairs g (fun a b => |a.val - b| ≤ E) (σ 0) (τ 0)) :
    ∃ σ' τ', serialRun g (allenCahnUpdate g.dim dx (powRhs cube dt m r u k) steps) σ = .ok σ' ∧
      serialRun g (allenCahnUpdate g.dim dx' (acRhs dt' m' r.val u.val k.val) steps) τ = .ok τ' ∧
      Pairs g (fun a b => |a.val - b| ≤ (1 + dt' * m' * r.val) ^ steps * E + stray g.dim dx (dt * m) r u k (dt' * m') R * ∑ j ∈ range steps, (1 + dt' * m' * r.val) ^ j) (σ' 0) (τ' 0) :=
  distance_of_stay hp hcube hg hdx (fun _ F G => RoundConfine.node_within hp hcube ht F G) hc steps hσ hτ h

/-- **C112.** The same for fields within `±1`. -/
theorem allenCahn_distance_one (hp : 2 ≤ p) {cube : Num p → Num p} (hcube : Cube cube) {g : Shape} (hg : Room 1 g) {dx : Nat → Num p} {dx' : Nat → ℝ}
    (hdx : ∀ i, i < g.dim → lapWeight (dx' i) = (lapWeight (dx i)).val) {dt m r u k : Num p} {dt' m' E : ℝ} (ht : Pinned g.dim dx (dt * m) r u k)
    (hc : Calm g.dim dx' (dt' * m') r.val u.val k.val 1) (steps : Nat) {σ : Grids (Num p)} {τ : Grids ℝ} (hσ : AllNodes g (fun v => |v.val| ≤ 1) (σ 0))
    (hτ : AllNodes g (fun v => |v| ≤ 1) (τ 0)) (h : Pairs g (fun a b => |a.val - b| ≤ E) (σ 0) (τ 0)) :
    ∃ σ' τ', serialRun g (allenCahnUpdate g.dim dx (powRhs cube dt m r u k) steps) σ = .ok σ' ∧
      serialRun g (allenCahnUpdate g.dim dx' (acRhs dt' m' r.val u.val k.val) steps) τ = .ok τ' ∧
      Pairs g (fun a b => |a.val - b| ≤ (1 + dt' * m' * r.val) ^ steps * E + stray g.dim dx (dt * m) r u k (dt' * m') 1 * ∑ j ∈ range steps, (1 + dt' * m' * r.val) ^ j) (σ' 0) (τ' 0) :=
  distance_of_stay (by omega) hcube hg hdx (fun _ F G => node_pinned (by omega) hp hcube ht F G) hc steps hσ hτ h

/-! ## The example as shipped -/

theorem shipped_calm {d : Nat} (hd : d ≤ 3) : Calm d (fun _ => (1 : ℝ)) (1 / 100 * 1) 1 1 1 1 := by
  have hw : mass d (fun _ => (1 : ℝ)) = d := by unfold mass; simp [lapWeight]
  refine ⟨by norm_num, by norm_num, by norm_num, by norm_num, ?_⟩
  rw [hw]
  interval_cases d <;> norm_num

theorem shipped_stray {d : Nat} (hd : d ≤ 3) : stray d (fun _ => (1 : Num 53)) (dtNum * 1) 1 1 1 (1 / 100 * 1) 1 ≤ 3 * eps 53 := by
  have hw : weights d (fun _ => (1 : Num 53)) = d := by
    unfold weights
    simp [lapWeight_one (p := 53) (by norm_num), Num.one_val]
  have he : eps 53 = 1 / 9007199254740992 := by unfold eps; norm_num
  rw [mul_one_num (by norm_num)]
  unfold stray slip
  rw [hw, he, dtNum_val, Num.one_val]
  interval_cases d <;> norm_num [abs_of_nonneg, abs_of_nonpos]

/-- **C112.** The example in `double`s with unit spacing on one, two or three axes, from a field within `±1`: after `n` steps every value is within `300*2^-53*1.01^n` of that of exact arithmetic. -/
theorem shipped_distance {cube : Num 53 → Num 53} (hcube : Cube cube) {g : Shape} (hg : Room 1 g) (hd : g.dim ≤ 3) (steps : Nat) {σ : Grids (Num 53)} {τ : Grids ℝ}
    (hσ : AllNodes g (fun v => |v.val| ≤ 1) (σ 0)) (h : Pairs g (fun a b => a.val = b) (σ 0) (τ 0)) :
    ∃ σ' τ', serialRun g (allenCahnUpdate g.dim (fun _ => 1) (powRhs cube dtNum 1 1 1 1) steps) σ = .ok σ' ∧
      serialRun g (allenCahnUpdate g.dim (fun _ => 1) (acRhs (1 / 100) 1 1 1 1) steps) τ = .ok τ' ∧ Pairs g (fun a b => |a.val - b| ≤ 300 * eps 53 * (101 / 100) ^ steps) (σ' 0) (τ' 0) := by
  have one : (1 : Num 53).val = 1 := Num.one_val
  have hw : ∀ i, i < g.dim → lapWeight ((fun _ => 1 : Nat → ℝ) i) = (lapWeight ((fun _ => 1 : Nat → Num 53) i)).val := fun i _ => by
    rw [lapWeight_one (p := 53) (by norm_num), one]; simp [lapWeight]
  have hc : Calm g.dim (fun _ => (1 : ℝ)) (1 / 100 * 1) (1 : Num 53).val (1 : Num 53).val (1 : Num 53).val 1 := by rw [one]; exact shipped_calm hd
  obtain ⟨σ', τ', e1, e2, hP⟩ := allenCahn_distance_one (by norm_num) hcube hg hw (shipped_pinned hd) hc steps (E := 0) hσ (fun x hx => by rw [← h x hx]; exact hσ x hx)
    (fun x hx => by
      have := h x hx
      beta_reduce at this ⊢
      rw [this, sub_self, abs_zero])
  rw [one] at e2
  refine ⟨σ', τ', e1, e2, fun x hx => (hP x hx).trans ?_⟩
  rw [one, mul_zero, zero_add]
  have hgeo : ∑ j ∈ range steps, (1 + 1 / 100 * 1 * 1 : ℝ) ^ j ≤ 100 * (101 / 100) ^ steps := by
    rw [show (1 + 1 / 100 * 1 * 1 : ℝ) = 101 / 100 by norm_num]
    have : ∀ n : Nat, ∑ j ∈ range n, (101 / 100 : ℝ) ^ j = 100 * (101 / 100) ^ n - 100 := fun n => by
      induction n with
      | zero => norm_num
      | succ n ih => rw [sum_range_succ, ih, pow_succ]; ring
    rw [this]; linarith
  have h0 : 0 ≤ ∑ j ∈ range steps, (1 + 1 / 100 * 1 * 1 : ℝ) ^ j := sum_nonneg fun j _ => by positivity
  have he := eps_pos 53
  calc _ ≤ 3 * eps 53 * ∑ j ∈ range steps, (1 + 1 / 100 * 1 * 1 : ℝ) ^ j := mul_le_mul_of_nonneg_right (shipped_stray hd) h0
    _ ≤ 3 * eps 53 * (100 * (101 / 100) ^ steps) := mul_le_mul_of_nonneg_left hgeo (by positivity)
    _ = _ := by ring

/-- **C112.** One thousand steps of the example: nine digits behind the point are right. -/
theorem shipped_thousand {cube : Num 53 → Num 53} (hcube : Cube cube) {g : Shape} (hg : Room 1 g) (hd : g.dim ≤ 3) {steps : Nat} (hn : steps ≤ 1000) {σ : Grids (Num 53)} {τ : Grids ℝ}
    (hσ : AllNodes g (fun v => |v.val| ≤ 1) (σ 0)) (h : Pairs g (fun a b => a.val = b) (σ 0) (τ 0)) :
    ∃ σ' τ', serialRun g (allenCahnUpdate g.dim (fun _ => 1) (powRhs cube dtNum 1 1 1 1) steps) σ = .ok σ' ∧
      serialRun g (allenCahnUpdate g.dim (fun _ => 1) (acRhs (1 / 100) 1 1 1 1) steps) τ = .ok τ' ∧ Pairs g (fun a b => |a.val - b| ≤ 1 / 10 ^ 9) (σ' 0) (τ' 0) := by
  obtain ⟨σ', τ', e1, e2, hP⟩ := shipped_distance hcube hg hd steps hσ h
  refine ⟨σ', τ', e1, e2, fun x hx => (hP x hx).trans ?_⟩
  have hm : ((101 : ℝ) / 100) ^ steps ≤ (101 / 100) ^ 1000 := pow_le_pow_right₀ (by norm_num) hn
  have he : eps 53 = 1 / 9007199254740992 := by unfold eps; norm_num
  refine (mul_le_mul_of_nonneg_left hm (by rw [he]; norm_num)).trans ?_
  have h1 : ((101 : ℝ) / 100) ^ 100 ≤ 271 / 100 := by norm_num
  have h2 : ((101 : ℝ) / 100) ^ 1000 ≤ (271 / 100) ^ 10 := by
    rw [show 1000 = 100 * 10 from rfl, pow_mul]; exact pow_le_pow_left₀ (by norm_num) h1 10
  refine (mul_le_mul_of_nonneg_left h2 (by rw [he]; norm_num)).trans ?_
  rw [he]
  norm_num

/-- **C112.** The distance on any decomposition: ranks computing in floating point against ranks computing exactly. -/
theorem ranks_distance (hp : 1 ≤ p) {cube : Num p → Num p} (hcube : Cube cube) {w : World} {np : Nat} {c : Nat → Cell (Num p)} {c' : Nat → Cell ℝ} (hcell : ∀ k, RoundTrips (c k))
    (hv : ∀ k v, (c k).Valid v) (hcell' : ∀ k, RoundTrips (c' k)) (hv' : ∀ k v, (c' k).Valid v) (hw : w.Ok np) (hgh : 1 ≤ w.ghosts) (hg : Room 1 w.serial) {dx : Nat → Num p} {dx' : Nat → ℝ}
    (hdx : ∀ i, i < w.d → lapWeight (dx' i) = (lapWeight (dx i)).val) {dt m r u k : Num p} {dt' m' R E : ℝ} (ht : Turns w.d dx (dt * m) r u k R)
    (hc : Calm w.d dx' (dt' * m') r.val u.val k.val R) (steps : Nat) {σ : Grids (Num p)} {τ : Grids ℝ} {A : Int → Grids (Num p)} {B : Int → Grids ℝ} (hA : SameField w np σ A 0)
    (hB : SameField w np τ B 0) (hσ : AllNodes w.serial (fun v => |v.val| ≤ R) (σ 0)) (hτ : AllNodes w.serial (fun v => |v| ≤ R) (τ 0)) (h : Pairs w.serial (fun a b => |a.val - b| ≤ E) (σ 0) (τ 0)) :
    ∃ A' B', Finished np (mpiRun c w (allenCahnUpdate w.d dx (powRhs cube dt m r u k) steps) fun r => .ok (A r)) A' ∧
      Finished np (mpiRun c' w (allenCahnUpdate w.d dx' (acRhs dt' m' r.val u.val k.val) steps) fun r => .ok (B r)) B' ∧
      ∀ q, Ghost.IsRank np q → Pairs (w.shape q) (fun a b => |a.val - b| ≤ (1 + dt' * m' * r.val) ^ steps * E + stray w.d dx (dt * m) r u k (dt' * m') R *
        ∑ j ∈ range steps, (1 + dt' * m' * r.val) ^ j) (A' q 0) (B' q 0) :=
  ranks_pairs hcell hv hcell' hv' hw hgh steps hA hB (allenCahn_distance hp hcube hg hdx ht hc steps hσ hτ h)

/-! ## Examples -/

/-- Two fields on three periodic nodes, one above the other, exact arithmetic. -/
example : ∃ σ' τ', serialRun (Conserve.line .periodic .periodic) (allenCahnUpdate 1 (fun _ => (1 : ℚ)) (acRhs (1 / 100) 1 1 1 1) 500) (fun _ n => if n = 1 then -1 else 0) = .ok σ' ∧
    serialRun (Conserve.line .periodic .periodic) (allenCahnUpdate 1 (fun _ => (1 : ℚ)) (acRhs (1 / 100) 1 1 1 1) 500) (fun _ n => if n = 1 then 1 / 2 else 0) = .ok τ' ∧
    Pairs (Conserve.line .periodic .periodic) (· ≤ ·) (σ' 0) (τ' 0) := by
  refine allenCahn_ordered (g := Conserve.line .periodic .periodic) (R := 1) (line_room .periodic (by decide)) ⟨by norm_num, by norm_num, by norm_num, by norm_num, ?_⟩ 500 (fun x _ => ?_) (fun x _ => ?_) (fun x _ => ?_)
  · show (1 / 100 * 1 : ℚ) * (1 * (2 * mass 1 fun _ => 1) + 3 * 1 * 1 ^ 2 - 1) ≤ 1
    norm_num [mass, lapWeight]
  · show |(if _ = (1 : Int) then (-1 : ℚ) else 0)| ≤ 1
    split_ifs <;> norm_num
  · show |(if _ = (1 : Int) then (1 / 2 : ℚ) else 0)| ≤ 1
    split_ifs <;> norm_num [abs_of_nonneg]
  · show (if _ = (1 : Int) then (-1 : ℚ) else 0) ≤ (if _ = (1 : Int) then (1 / 2 : ℚ) else 0)
    split_ifs <;> norm_num

/-- A field of one sign, at least 1/2: after a thousand steps within 1/1000 of the well. -/
example : ∃ σ', serialRun (Conserve.line .neumann .neumann) (allenCahnUpdate 1 (fun _ => (1 : ℝ)) (acRhs (1 / 100) 1 1 1 1) 1000) (fun _ n => if n = 1 then 1 else 1 / 2) = .ok σ' ∧
    AllNodes (Conserve.line .neumann .neumann) (fun v => |v - 1| ≤ 1 / 1000) (σ' 0) := by
  obtain ⟨σ', e, h⟩ := allenCahn_well (g := Conserve.line .neumann .neumann) (line_room .neumann (by decide)) (dt := 1 / 100) (m := 1) (r := 1) (u := 1) (k := 1) (R := 1) (a := 1 / 2) (s := 1)
    (E := 1 / 2) (shipped_calm (d := 1) (by norm_num)) (by norm_num) (by norm_num) (by norm_num) le_rfl 1000 (σ := fun _ n => if n = 1 then 1 else 1 / 2) (fun x _ => by
      show _ ≤ (if _ = (1 : Int) then (1 : ℝ) else 1 / 2) ∧ (if _ = (1 : Int) then (1 : ℝ) else 1 / 2) ≤ _ ∧ |(if _ = (1 : Int) then (1 : ℝ) else 1 / 2) - 1| ≤ _
      split_ifs <;> norm_num [abs_of_nonpos])
  refine ⟨σ', e, fun x hx => (h x hx).2.2.trans ?_⟩
  have h1 : ((1 : ℝ) - 1 / 100 * 1 * 1 * (1 / 2) * (1 / 2 + 1)) ^ 100 ≤ 48 / 100 := by norm_num
  have h2 := pow_le_pow_left₀ (by norm_num) h1 10
  rw [← pow_mul] at h2
  refine (mul_le_mul_of_nonneg_right h2 (by norm_num)).trans ?_
  norm_num

/-- One thousand steps in `double`s from -1, 1/2, 1 on three periodic nodes. -/
example : ∃ σ' τ', serialRun (Conserve.line .periodic .periodic) (allenCahnUpdate 1 (fun _ => 1) (powRhs roundedCube dtNum 1 1 1 1) 1000) (fun _ n => if n = 0 then -1 else if n = 1 then half else 1) =
      .ok σ' ∧ serialRun (Conserve.line .periodic .periodic) (allenCahnUpdate 1 (fun _ => (1 : ℝ)) (acRhs (1 / 100) 1 1 1 1) 1000) (fun _ n => if n = 0 then -1 else if n = 1 then 1 / 2 else 1) = .ok τ' ∧
    Pairs (Conserve.line .periodic .periodic) (fun a b => |a.val - b| ≤ 1 / 10 ^ 9) (σ' 0) (τ' 0) := by
  refine shipped_thousand (roundedCube_cube (by norm_num)) (g := Conserve.line .periodic .periodic) (line_room .periodic (by decide)) (by decide) le_rfl (fun x _ => ?_) (fun x _ => ?_)
  · show |(if _ = (0 : Int) then (-1 : Num 53) else if _ = (1 : Int) then half else 1).val| ≤ 1
    split_ifs
    · rw [Num.neg_exact (by norm_num), Num.one_val]; norm_num
    · rw [half_val]; norm_num
    · rw [Num.one_val]; norm_num
  · show (if _ = (0 : Int) then (-1 : Num 53) else if _ = (1 : Int) then half else 1).val = if _ = (0 : Int) then (-1 : ℝ) else if _ = (1 : Int) then 1 / 2 else 1
    split_ifs
    · rw [Num.neg_exact (by norm_num), Num.one_val]
    · rw [half_val]
    · rw [Num.one_val]

end Float

end MMSP.Compare
