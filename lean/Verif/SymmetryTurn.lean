import Verif.SymmetryShift
import Verif.RoundConserve
import Verif.ParallelExamplesLink
/-!
# Change of sign, exchange of axes and reflection

What the Allen-Cahn and Cahn-Hilliard updates (allen-cahn.cpp 47-75, cahn-hilliard.cpp 47-81) return when the initial field changes sign, when axes are exchanged and when axes are run through
backwards; in exact arithmetic and with rounding.
-/

namespace MMSP.Symmetry

open MMSP.Stencil MMSP.ParallelRun MMSP.Ghost MMSP.RoundConserve

/-! ## Specification -/

/-- Where a node goes when axis `j` of `g` is axis `axis j` of `g'`, run through backwards if `flip j`. -/
def turnPt (g g' : Shape) (axis : Equiv.Perm Nat) (flip : Nat → Bool) (x : Nat → Int) : Nat → Int := fun j =>
  if flip j then g.x1 j - 1 - (x (axis j) - g'.x0 (axis j)) else g.x0 j + (x (axis j) - g'.x0 (axis j))

/-- The array `b` on `g'` holds the field of the array `a` on `g`, turned. -/
def Turned {V : Type} (g g' : Shape) (axis : Equiv.Perm Nat) (flip : Nat → Bool) (a b : Int → V) : Prop := ∀ x, g'.IsNode x → cellAt g' b x = cellAt g a (turnPt g g' axis flip x)

/-- `g'` is `g` turned, with its boundary conditions. -/
structure TurnOk (g g' : Shape) (axis : Equiv.Perm Nat) (flip : Nat → Bool) : Prop where
  dim : g'.dim = g.dim
  axes : ∀ j, axis j < g.dim ↔ j < g.dim
  side : ∀ j, j < g.dim → g'.x1 (axis j) - g'.x0 (axis j) = g.x1 j - g.x0 j
  lower : ∀ j, j < g.dim → g'.b0 (axis j) = if flip j then g.b1 j else g.b0 j
  upper : ∀ j, j < g.dim → g'.b1 (axis j) = if flip j then g.b0 j else g.b1 j

/-- Numbers whose operations respect a change of sign: exact ones (`oddNumbers_ring`) and floating-point numbers (`oddNumbers_num`). -/
structure OddNumbers (T : Type) [Zero T] [Add T] [Sub T] [Mul T] [Neg T] : Prop where
  zero : -(0 : T) = 0
  neg : ∀ a : T, - -a = a
  add : ∀ a b : T, -a + -b = -(a + b)
  sub : ∀ a b : T, -a - -b = -(a - b)
  mul : ∀ a b : T, a * -b = -(a * b)
  mul_left : ∀ a b : T, -a * b = -(a * b)

section Rhs
variable {T : Type} [Add T] [Sub T] [Mul T] [Neg T]

/-- allen-cahn.cpp 69: `phi-dt*M*(-r*phi+u*pow(phi,3)-K*laplacian(oldGrid,i))`; `pow(phi,3)` is `phi*phi*phi`. -/
def acRhs (dt m r u k phi l : T) : T := phi - dt * m * (-r * phi + u * (phi * phi * phi) - k * l)

/-- cahn-hilliard.cpp 74: `oldGrid(i)+dt*M*laplacian(temp,i)`. -/
def chRhs (dt m phi l : T) : T := phi + dt * m * l

end Rhs

/-! ## The Laplacian as a function of the values -/

section Lap
variable {T : Type} [Zero T] [One T] [Add T] [Sub T] [Mul T] [Div T]

/-- `laplacian(GRID, x)` where `GRID(y)` has the value `F y` (`lapLoop_eq`). -/
def lapF (d : Nat) (dx : Nat → T) (F : (Nat → Int) → T) (x : Nat → Int) : T :=
  (List.range d).foldl (fun a i => a + lapWeight (dx i) * (F (bump x i 1) - (1 + 1) * F x + F (bump x i (-1)))) 0

theorem pointKernel_total (d : Nat) (dx : Nat → T) (k l : Nat) (f : T → T → T) (F : Nat → (Nat → Int) → T) (x : Nat → Int) :
    pointKernel d dx k l (fun _ => f) (fun k y => .ok (F k y)) x = .ok (f (F k x) (lapF d dx (F l) x)) := by
  simp only [pointKernel, lapKernel, Outcome.ok_bind]
  rw [lapLoop_eq (F := F l) _ _ _ _ _ fun _ _ => ⟨rfl, rfl⟩, Outcome.ok_bind]
  rfl

/-- The Laplacian of the moved field with changed values is the changed Laplacian. -/
def LapFollows (m : Motion) (S : T → T) (d : Nat) (dx dx' : Nat → T) : Prop :=
  ∀ c (F : (Nat → Int) → T) x, lapF d dx' (fun y => S (F (m.affine c y))) x = S (lapF d dx F (m.affine c x))

theorem pointKernel_follows {m : Motion} {S : T → T} {d : Nat} {dx dx' : Nat → T} (h : LapFollows m S d dx dx') (k l : Nat) {f f' : T → T → T} (hf : ∀ a b, f' (S a) (S b) = S (f a b)) :
    Follows m S (pointKernel d dx k l fun _ => f) (pointKernel d dx' k l fun _ => f') := by
  intro c F x
  rw [pointKernel_total d dx k l f, pointKernel_total d dx' k l f' fun k y => S (F k (m.affine c y)), h c, hf, Outcome.ok_bind]

variable {V : Type} {m : Motion} {g g' : Shape}

theorem twin_repeat {T : V → V} {p p' : List (Stmt V)} (h : List.Forall₂ (Twin m T) p p') (steps : Nat) : List.Forall₂ (Twin m T) (repeatProg p steps) (repeatProg p' steps) := by
  induction steps with
  | zero => exact .nil
  | succ n ih =>
    unfold repeatProg at ih ⊢
    rw [List.replicate_succ, List.replicate_succ, List.flatten_cons, List.flatten_cons]
    exact List.rel_append h ih

/-- **C109.** Allen-Cahn under a motion of the grid and a change of the values under which the Laplacian is the changed Laplacian. -/
theorem allenCahn_moves {S : T → T} (hm : m.Ok 1 g g') (hg : Reach 1 g) (hg' : Reach 1 g') {dx dx' : Nat → T} (hl : LapFollows m S g.dim dx dx') {f f' : T → T → T}
    (hf : ∀ a b, f' (S a) (S b) = S (f a b)) (steps : Nat) {σ τ : Grids T} (hM : Moved m S g g' (σ 0) (τ 0)) :
    ∃ σ' τ', serialRun g (allenCahnUpdate g.dim dx f steps) σ = .ok σ' ∧ serialRun g' (allenCahnUpdate g.dim dx' f' steps) τ = .ok τ' ∧ Moved m S g g' (σ' 0) (τ' 0) := by
  have ht : List.Forall₂ (Twin m S) (allenCahnUpdate g.dim dx f steps) (allenCahnUpdate g.dim dx' f' steps) :=
    .cons (.ghostswap 0) (twin_repeat (.cons (.loop 1 (pointKernel_follows hl 0 0 hf)) (.cons (.swap 0 1) (.cons (.ghostswap 0) .nil))) steps)
  obtain ⟨σ', τ', e1, e2, _, hM'⟩ := run_moves hm hg hg' (allenCahnUpdate_disciplined g.dim (le_refl _) dx f steps) (allenCahnUpdate_disciplined g.dim (le_refl _) dx' f' steps) ht
    (fun _ _ _ _ => trivial) (fun k hk => hk.elim (fun e => e ▸ hM) False.elim)
  exact ⟨σ', τ', e1, e2, hM' 0 (Or.inl rfl)⟩

/-- **C109.** Cahn-Hilliard likewise. -/
theorem cahnHilliard_moves {S : T → T} (hm : m.Ok 1 g g') (hg : Reach 1 g) (hg' : Reach 1 g') {dx dx' : Nat → T} (hl : LapFollows m S g.dim dx dx') {mu mu' f f' : T → T → T}
    (hmu : ∀ a b, mu' (S a) (S b) = S (mu a b)) (hf : ∀ a b, f' (S a) (S b) = S (f a b)) (steps : Nat) {σ τ : Grids T} (hM : Moved m S g g' (σ 0) (τ 0)) :
    ∃ σ' τ', serialRun g (cahnHilliardUpdate g.dim dx mu f steps) σ = .ok σ' ∧ serialRun g' (cahnHilliardUpdate g.dim dx' mu' f' steps) τ = .ok τ' ∧ Moved m S g g' (σ' 0) (τ' 0) := by
  have ht : List.Forall₂ (Twin m S) (cahnHilliardUpdate g.dim dx mu f steps) (cahnHilliardUpdate g.dim dx' mu' f' steps) :=
    .cons (.ghostswap 0) (twin_repeat (.cons (.loop 2 (pointKernel_follows hl 0 0 hmu)) (.cons (.ghostswap 2) (.cons (.loop 1 (pointKernel_follows hl 0 2 hf)) (.cons (.swap 0 1)
      (.cons (.ghostswap 0) .nil))))) steps)
  obtain ⟨σ', τ', e1, e2, _, hM'⟩ := run_moves hm hg hg' (cahnHilliardUpdate_disciplined g.dim (le_refl _) dx mu f steps)
    (cahnHilliardUpdate_disciplined g.dim (le_refl _) dx' mu' f' steps) ht (fun _ _ _ _ => trivial) (fun k hk => hk.elim (fun e => e ▸ hM) False.elim)
  exact ⟨σ', τ', e1, e2, hM' 0 (Or.inl rfl)⟩

end Lap

/-! ## Motions -/

/-- Nothing moves. -/
def stay : Motion := ⟨Equiv.refl _, fun _ => 1, fun _ a => a⟩

theorem stay_ok {ρ : Int} (g : Shape) : stay.Ok ρ g g where
  dim := rfl
  axes := fun _ => Iff.rfl
  sign := fun _ => Or.inl rfl
  node := fun _ _ _ ha => ha
  step := fun j _ a _ t _ _ => by
    show checkBoundary .serial (a + 1 * t) _ _ _ _ = checkBoundary .serial (a + t) (g.x0 j) (g.x1 j) (g.b0 j) (g.b1 j)
    rw [Int.one_mul]

/-- The turn as a motion. -/
def turnMotion (g g' : Shape) (axis : Equiv.Perm Nat) (flip : Nat → Bool) : Motion :=
  ⟨axis, fun j => if flip j then -1 else 1, fun j a => if flip j then g.x1 j - 1 - (a - g'.x0 (axis j)) else g.x0 j + (a - g'.x0 (axis j))⟩

theorem axis_turn {x0 x1 y0 y1 : Int} {b0 b1 : BC} (h0 : b0 ≠ .parallel) (h1 : b1 ≠ .parallel) {ρ : Int} (hne : x0 < x1) (_hρ : ρ ≤ x1 - x0)
    (hm : b0 = .mirror ∨ b1 = .mirror → ρ < x1 - x0) (hs : y1 - y0 = x1 - x0) {a : Int} (_ha : OnAxis y0 y1 a) {t : Int} (_ht0 : -ρ ≤ t) (_ht1 : t ≤ ρ) :
    checkBoundary .serial (x1 - 1 - (a - y0) + -1 * t) x0 x1 b0 b1 = x1 - 1 - (checkBoundary .serial (a + t) y0 y1 b1 b0 - y0) := by
  unfold OnAxis at _ha
  unfold checkBoundary
  cases b0 <;> cases b1 <;> simp at h0 h1 hm ⊢ <;> split_ifs <;> omega

theorem turnMotion_ok {ρ : Int} {g g' : Shape} {axis : Equiv.Perm Nat} {flip : Nat → Bool} (h : TurnOk g g' axis flip) (hg : Room ρ g) : (turnMotion g g' axis flip).Ok ρ g g' where
  dim := h.dim
  axes := h.axes
  sign := fun j => by simp only [turnMotion]; split <;> simp
  node := fun j hj a ha => by
    have h1 := h.side j hj
    have h2 : g'.x0 (axis j) ≤ a ∧ a < g'.x1 (axis j) := ha
    simp only [turnMotion, OnAxis]
    split <;> omega
  step := fun j hj a ha t ht0 ht1 => by
    have h1 := h.lower j hj
    have h2 := h.upper j hj
    have hs := h.side j hj
    simp only [turnMotion]
    rw [h1, h2]
    by_cases hf : flip j = true
    · simp only [hf, if_true]
      exact axis_turn (hg.outer j hj).1 (hg.outer j hj).2 (hg.wf.side j hj) (hg.side j hj) (hg.mirror j hj) hs ha ht0 ht1
    · simp only [hf]
      have h2 : g'.x0 (axis j) ≤ a ∧ a < g'.x1 (axis j) := ha
      have := hg.outer j hj
      unfold checkBoundary
      simp only [Bool.false_eq_true, if_false]
      split_ifs <;> omega

theorem TurnOk.room {ρ : Int} {g g' : Shape} {axis : Equiv.Perm Nat} {flip : Nat → Bool} (h : TurnOk g g' axis flip) (hg : Room ρ g) (h0 : g'.ghosts = 0) : Room ρ g' := by
  have key : ∀ i, i < g'.dim → ∃ j, j < g.dim ∧ axis j = i := fun i hi => ⟨axis.symm i, (h.axes _).mp (by rw [Equiv.apply_symm_apply, ← h.dim]; exact hi), Equiv.apply_symm_apply _ _⟩
  refine ⟨⟨h.dim ▸ hg.wf.dim_pos, fun i hi => ?_, by omega⟩, h0, hg.pos, fun i hi => ?_, fun i hi => ?_, fun i hi => ?_⟩ <;> obtain ⟨j, hj, rfl⟩ := key i hi
  · have := h.side j hj; have := hg.wf.side j hj; omega
  · have := hg.outer j hj
    rw [h.lower j hj, h.upper j hj]; split <;> simp [this]
  · rw [h.side j hj]; exact hg.side j hj
  · rw [h.side j hj, h.lower j hj, h.upper j hj]
    intro hm
    refine hg.mirror j hj ?_
    split at hm
    · exact hm.symm
    · exact hm

theorem affine_bump {m : Motion} (c x : Nat → Int) (i : Nat) (t : Int) : m.affine c (bump x i t) = bump (m.affine c x) (m.axis.symm i) (m.sign (m.axis.symm i) * t) := by
  funext j
  by_cases e : j = m.axis.symm i
  · subst e
    simp only [Motion.affine, bump, Equiv.apply_symm_apply, Function.update_self]
    rw [Int.mul_add]; omega
  · have : m.axis j ≠ i := fun h => e (by rw [← h, Equiv.symm_apply_apply])
    simp only [Motion.affine, bump, Function.update_of_ne e, Function.update_of_ne this]

/-! ## Change of sign -/

section Sign
variable {T : Type} [Zero T] [One T] [Add T] [Sub T] [Mul T] [Div T] [Neg T]

theorem lap_odd (hT : OddNumbers T) (d : Nat) (dx : Nat → T) : LapFollows stay (fun a : T => -a) d dx dx := by
  intro c F x
  have e : ∀ y, stay.affine c y = fun j => c j + y j := fun y => by funext j; simp [Motion.affine, stay]
  have eb : ∀ i t, stay.affine c (bump x i t) = bump (stay.affine c x) i t := fun i t => by
    rw [affine_bump]; simp [stay]
  unfold lapF
  have key : ∀ (is : List Nat) (acc : T), is.foldl (fun a i => a + lapWeight (dx i) * (-F (stay.affine c (bump x i 1)) - (1 + 1) * -F (stay.affine c x) + -F (stay.affine c (bump x i (-1))))) (-acc) =
      -is.foldl (fun a i => a + lapWeight (dx i) * (F (bump (stay.affine c x) i 1) - (1 + 1) * F (stay.affine c x) + F (bump (stay.affine c x) i (-1)))) acc := by
    intro is
    induction is with
    | nil => intro acc; rfl
    | cons i is ih =>
      intro acc
      simp only [List.foldl_cons]
      have step : -acc + lapWeight (dx i) * (-F (stay.affine c (bump x i 1)) - (1 + 1) * -F (stay.affine c x) + -F (stay.affine c (bump x i (-1)))) =
          -(acc + lapWeight (dx i) * (F (bump (stay.affine c x) i 1) - (1 + 1) * F (stay.affine c x) + F (bump (stay.affine c x) i (-1)))) := by
        rw [eb, eb, hT.mul, hT.sub, hT.add, hT.mul, hT.add]
      rw [step]
      exact ih _
  have := key (List.range d) 0
  rw [hT.zero] at this
  exact this

/-- **C109, sign (Allen-Cahn).** The field with the opposite sign evolves into the result with the opposite sign, in any arithmetic that respects signs, in particular in that of floating-point
numbers. -/
theorem allenCahn_sign (hT : OddNumbers T) {g : Shape} (hg : Room 1 g) (dx : Nat → T) {f : T → T → T} (hf : ∀ a b, f (-a) (-b) = -f a b) (steps : Nat) {σ τ : Grids T}
    (h : ∀ x, g.IsNode x → cellAt g (τ 0) x = -cellAt g (σ 0) x) :
    ∃ σ' τ', serialRun g (allenCahnUpdate g.dim dx f steps) σ = .ok σ' ∧ serialRun g (allenCahnUpdate g.dim dx f steps) τ = .ok τ' ∧
      ∀ x, g.IsNode x → cellAt g (τ' 0) x = -cellAt g (σ' 0) x :=
  allenCahn_moves (S := fun a => -a) (stay_ok g) hg.reach hg.reach (lap_odd hT g.dim dx) hf steps h

/-- **C109, sign (Cahn-Hilliard).** -/
theorem cahnHilliard_sign (hT : OddNumbers T) {g : Shape} (hg : Room 1 g) (dx : Nat → T) {mu f : T → T → T} (hmu : ∀ a b, mu (-a) (-b) = -mu a b) (hf : ∀ a b, f (-a) (-b) = -f a b)
    (steps : Nat) {σ τ : Grids T} (h : ∀ x, g.IsNode x → cellAt g (τ 0) x = -cellAt g (σ 0) x) :
    ∃ σ' τ', serialRun g (cahnHilliardUpdate g.dim dx mu f steps) σ = .ok σ' ∧ serialRun g (cahnHilliardUpdate g.dim dx mu f steps) τ = .ok τ' ∧
      ∀ x, g.IsNode x → cellAt g (τ' 0) x = -cellAt g (σ' 0) x :=
  cahnHilliard_moves (S := fun a => -a) (stay_ok g) hg.reach hg.reach (lap_odd hT g.dim dx) hmu hf steps h

omit [One T] [Div T] in
/-- The right-hand sides of the examples change sign with the field. -/
theorem rhs_odd (hT : OddNumbers T) (dt m r u k : T) :
    (∀ a b, acRhs dt m r u k (-a) (-b) = -acRhs dt m r u k a b) ∧ (∀ a b, Conserve.chPotential r u k (-a) (-b) = -Conserve.chPotential r u k a b) ∧
      ∀ a b, chRhs dt m (-a) (-b) = -chRhs dt m a b := by
  have cube : ∀ a : T, -a * -a * -a = -(a * a * a) := fun a => by
    rw [hT.mul (-a) a, hT.mul_left a a, hT.neg, hT.mul]
  refine ⟨fun a b => ?_, fun a b => ?_, fun a b => ?_⟩
  · unfold acRhs; rw [cube, hT.mul, hT.mul, hT.mul, hT.add, hT.sub, hT.mul, hT.sub]
  · unfold Conserve.chPotential; rw [cube, hT.mul, hT.mul, hT.mul, hT.add, hT.sub]
  · unfold chRhs; rw [hT.mul, hT.add]

end Sign

theorem oddNumbers_ring {K : Type} [CommRing K] : OddNumbers K := ⟨neg_zero, neg_neg, fun a b => by ring, fun a b => by ring, fun a b => by ring, fun a b => by ring⟩

/-- The numbers with `p` binary digits. -/
theorem oddNumbers_num {p : Nat} (hp : 1 ≤ p) : OddNumbers (Num p) where
  zero := Num.ext (by rw [Num.neg_exact hp, Num.zero_val, neg_zero])
  neg := fun a => Num.ext (by rw [Num.neg_exact hp, Num.neg_exact hp, neg_neg])
  add := fun a b => Num.ext (by rw [Num.neg_exact hp, Num.add_val, Num.add_val, Num.neg_exact hp, Num.neg_exact hp, ← Rounding.fl_neg]; congr 1; ring)
  sub := fun a b => Num.ext (by rw [Num.neg_exact hp, Num.sub_val, Num.sub_val, Num.neg_exact hp, Num.neg_exact hp, ← Rounding.fl_neg]; congr 1; ring)
  mul := fun a b => Num.ext (by rw [Num.neg_exact hp, Num.mul_val, Num.mul_val, Num.neg_exact hp, ← Rounding.fl_neg]; congr 1; ring)
  mul_left := fun a b => Num.ext (by rw [Num.neg_exact hp, Num.mul_val, Num.mul_val, Num.neg_exact hp, ← Rounding.fl_neg]; congr 1; ring)

/-! ## Turns in exact arithmetic -/

theorem lap_turn {K : Type} [Field K] {g g' : Shape} {axis : Equiv.Perm Nat} {flip : Nat → Bool} (h : TurnOk g g' axis flip) {dx dx' : Nat → K} (hd : ∀ j, j < g.dim → dx' (axis j) = dx j) :
    LapFollows (turnMotion g g' axis flip) id g.dim dx dx' := by
  intro c F x
  unfold lapF
  rw [foldl_sum, foldl_sum, sum_list_range, sum_list_range, zero_add, zero_add]
  show _ = ∑ i ∈ Finset.range g.dim, _
  symm
  refine Finset.sum_equiv axis (fun j => by rw [Finset.mem_range, Finset.mem_range]; exact (h.axes j).symm) fun j hj => ?_
  rw [hd j (Finset.mem_range.mp hj)]
  beta_reduce
  rw [affine_bump, affine_bump]
  have e : (turnMotion g g' axis flip).axis.symm (axis j) = j := Equiv.symm_apply_apply axis j
  rw [e]
  simp only [turnMotion, id]
  split
  · simp only [neg_mul, one_mul, neg_neg]; ring
  · simp only [one_mul]

/-- **C109, turns (Allen-Cahn).** In exact arithmetic, on any grid in any dimension with any of the boundary conditions: if axes are exchanged and run through backwards, together with their spacings
and boundary conditions, the result is that of the unturned field, turned. -/
theorem allenCahn_turn {K : Type} [Field K] {g g' : Shape} {axis : Equiv.Perm Nat} {flip : Nat → Bool} (h : TurnOk g g' axis flip) (hg : Room 1 g) (h0 : g'.ghosts = 0) {dx dx' : Nat → K}
    (hd : ∀ j, j < g.dim → dx' (axis j) = dx j) (f : K → K → K) (steps : Nat) {σ τ : Grids K} (hM : Turned g g' axis flip (σ 0) (τ 0)) :
    ∃ σ' τ', serialRun g (allenCahnUpdate g.dim dx f steps) σ = .ok σ' ∧ serialRun g' (allenCahnUpdate g.dim dx' f steps) τ = .ok τ' ∧ Turned g g' axis flip (σ' 0) (τ' 0) :=
  allenCahn_moves (S := id) (f := f) (f' := f) (turnMotion_ok h hg) hg.reach (h.room hg h0).reach (lap_turn h hd) (fun _ _ => rfl) steps hM

/-- **C109, turns (Cahn-Hilliard).** -/
theorem cahnHilliard_turn {K : Type} [Field K] {g g' : Shape} {axis : Equiv.Perm Nat} {flip : Nat → Bool} (h : TurnOk g g' axis flip) (hg : Room 1 g) (h0 : g'.ghosts = 0) {dx dx' : Nat → K}
    (hd : ∀ j, j < g.dim → dx' (axis j) = dx j) (mu f : K → K → K) (steps : Nat) {σ τ : Grids K} (hM : Turned g g' axis flip (σ 0) (τ 0)) :
    ∃ σ' τ', serialRun g (cahnHilliardUpdate g.dim dx mu f steps) σ = .ok σ' ∧ serialRun g' (cahnHilliardUpdate g.dim dx' mu f steps) τ = .ok τ' ∧ Turned g g' axis flip (σ' 0) (τ' 0) :=
  cahnHilliard_moves (S := id) (mu := mu) (mu' := mu) (f := f) (f' := f) (turnMotion_ok h hg) hg.reach (h.room hg h0).reach (lap_turn h hd) (fun _ _ => rfl) (fun _ _ => rfl) steps hM

/-- **C109, symmetric fields.** A field that a turn of the grid leaves as it is stays so. -/
theorem symmetric_stays {K : Type} [Field K] {g : Shape} {axis : Equiv.Perm Nat} {flip : Nat → Bool} (h : TurnOk g g axis flip) (hg : Room 1 g) {dx : Nat → K}
    (hd : ∀ j, j < g.dim → dx (axis j) = dx j) (mu f : K → K → K) (steps : Nat) {σ : Grids K} (hM : Turned g g axis flip (σ 0) (σ 0)) :
    (∃ σ', serialRun g (allenCahnUpdate g.dim dx f steps) σ = .ok σ' ∧ Turned g g axis flip (σ' 0) (σ' 0)) ∧
      ∃ σ', serialRun g (cahnHilliardUpdate g.dim dx mu f steps) σ = .ok σ' ∧ Turned g g axis flip (σ' 0) (σ' 0) := by
  constructor
  · obtain ⟨σ', τ', e1, e2, hT⟩ := allenCahn_turn h hg hg.ghosts hd f steps hM
    rw [e1] at e2
    cases e2
    exact ⟨σ', e1, hT⟩
  · obtain ⟨σ', τ', e1, e2, hT⟩ := cahnHilliard_turn h hg hg.ghosts hd mu f steps hM
    rw [e1] at e2
    cases e2
    exact ⟨σ', e1, hT⟩

/-! ## Exchange of the two axes of a plane grid, with rounding -/

/-- Numbers for which `0 + a` is `a` and the order of two summands is irrelevant: exact ones and floating-point numbers (`plainSums_num`). -/
structure PlainSums (T : Type) [Zero T] [Add T] : Prop where
  zero : ∀ a : T, 0 + a = a
  comm : ∀ a b : T, a + b = b + a

theorem plainSums_num {p : Nat} (hp : 1 ≤ p) : PlainSums (Num p) where
  zero := fun a => Num.ext (by rw [Num.add_val, Num.zero_val, zero_add, Rounding.fl_rep hp a.rep])
  comm := fun a b => Num.ext (by rw [Num.add_val, Num.add_val, add_comm])

section Exchange
variable {T : Type} [Zero T] [One T] [Add T] [Sub T] [Mul T] [Div T]

theorem lap_exchange (hT : PlainSums T) {g g' : Shape} {dx dx' : Nat → T} (h0 : dx' 0 = dx 1) (h1 : dx' 1 = dx 0) :
    LapFollows (turnMotion g g' (Equiv.swap 0 1) fun _ => false) id 2 dx dx' := by
  intro c F x
  have s : (turnMotion g g' (Equiv.swap 0 1) fun _ => false).axis.symm = Equiv.swap 0 1 := rfl
  have e : ∀ i t, (turnMotion g g' (Equiv.swap 0 1) fun _ => false).affine c (bump x i t) =
      bump ((turnMotion g g' (Equiv.swap 0 1) fun _ => false).affine c x) (Equiv.swap 0 1 i) t := fun i t => by
    rw [affine_bump, s]; simp [turnMotion]
  show (0 + _ + _ : T) = 0 + _ + _
  rw [hT.zero, hT.zero, hT.comm]
  simp only [id, h0, h1, e, Equiv.swap_apply_left, Equiv.swap_apply_right]

/-- **C109, exchange of axes (Allen-Cahn).** On a plane grid the exchange of the two axes carries over to the result also with rounding, bit for bit. -/
theorem allenCahn_exchange (hT : PlainSums T) {g g' : Shape} (h2 : g.dim = 2) (h : TurnOk g g' (Equiv.swap 0 1) fun _ => false) (hg : Room 1 g) (hg0 : g'.ghosts = 0) {dx dx' : Nat → T}
    (h0 : dx' 0 = dx 1) (h1 : dx' 1 = dx 0) (f : T → T → T) (steps : Nat) {σ τ : Grids T} (hM : Turned g g' (Equiv.swap 0 1) (fun _ => false) (σ 0) (τ 0)) :
    ∃ σ' τ', serialRun g (allenCahnUpdate g.dim dx f steps) σ = .ok σ' ∧ serialRun g' (allenCahnUpdate g.dim dx' f steps) τ = .ok τ' ∧
      Turned g g' (Equiv.swap 0 1) (fun _ => false) (σ' 0) (τ' 0) :=
  allenCahn_moves (S := id) (f := f) (f' := f) (turnMotion_ok h hg) hg.reach (h.room hg hg0).reach (h2 ▸ lap_exchange hT h0 h1) (fun _ _ => rfl) steps hM

/-- **C109, exchange of axes (Cahn-Hilliard).** -/
theorem cahnHilliard_exchange (hT : PlainSums T) {g g' : Shape} (h2 : g.dim = 2) (h : TurnOk g g' (Equiv.swap 0 1) fun _ => false) (hg : Room 1 g) (hg0 : g'.ghosts = 0) {dx dx' : Nat → T}
    (h0 : dx' 0 = dx 1) (h1 : dx' 1 = dx 0) (mu f : T → T → T) (steps : Nat) {σ τ : Grids T} (hM : Turned g g' (Equiv.swap 0 1) (fun _ => false) (σ 0) (τ 0)) :
    ∃ σ' τ', serialRun g (cahnHilliardUpdate g.dim dx mu f steps) σ = .ok σ' ∧ serialRun g' (cahnHilliardUpdate g.dim dx' mu f steps) τ = .ok τ' ∧
      Turned g g' (Equiv.swap 0 1) (fun _ => false) (σ' 0) (τ' 0) :=
  cahnHilliard_moves (S := id) (mu := mu) (mu' := mu) (f := f) (f' := f) (turnMotion_ok h hg) hg.reach (h.room hg hg0).reach (h2 ▸ lap_exchange hT h0 h1) (fun _ _ => rfl) (fun _ _ => rfl) steps hM

/-! ## One step, node by node -/

/-- One step of the Allen-Cahn update. -/
theorem allenCahn_one {g : Shape} (hg : Room 1 g) (dx : Nat → T) (f : T → T → T) (σ : Grids T) :
    ∃ σ', serialRun g (allenCahnUpdate g.dim dx f 1) σ = .ok σ' ∧
      ∀ x, g.IsNode x → cellAt g (σ' 0) x = f (cellAt g (σ 0) x) (lapF g.dim dx (fun y => cellAt g (σ 0) (wrap g y)) x) := by
  have near : ∀ {x}, g.IsNode x → ∀ i t, -1 ≤ t → t ≤ 1 → gridAt .serial g (σ 0) (bump x i t) = .ok (cellAt g (σ 0) (wrap g (bump x i t))) := fun {x} hx i t h0 h1 =>
    gridAt_ok hg.reach (σ 0) (near_reach hg.reach hx fun j _ => by unfold bump; by_cases e : j = i <;> simp [e]; omega) fun _ _ => rfl
  have own : ∀ {x}, g.IsNode x → ∀ j, j < g.dim → wrap g x j = x j := fun {x} hx j hj => by
    have := hx j hj
    unfold wrap checkBoundary
    split_ifs <;> omega
  have here : ∀ {x}, g.IsNode x → gridAt .serial g (σ 0) x = .ok (cellAt g (σ 0) x) := fun {x} hx => gridAt_ok hg.reach (σ 0) hx (own hx)
  obtain ⟨σ', e, ho, hv, _⟩ := runLoop_cells (bd := .serial) hg.wf (fun _ => hg.ghosts) (dst := 1) (kern := pointKernel g.dim dx 0 0 fun _ => f) (σ := σ)
    (val := fun x => f (cellAt g (σ 0) x) (lapF g.dim dx (fun y => cellAt g (σ 0) (wrap g y)) x))
    (fun x y hxy => by
      have ew : ∀ i t, cellAt g (σ 0) (wrap g (bump x i t)) = cellAt g (σ 0) (wrap g (bump y i t)) := fun i t => by
        unfold cellAt
        rw [rawOffset_congr fun j hj => ?_]
        simp only [wrap, bump]
        by_cases e : j = i
        · subst e; simp [hxy j hj]
        · simp [e, hxy j hj]
      have e0 : cellAt g (σ 0) (wrap g x) = cellAt g (σ 0) (wrap g y) := by
        unfold cellAt
        rw [rawOffset_congr fun j hj => ?_]
        simp only [wrap, hxy j hj]
      have e1 : cellAt g (σ 0) x = cellAt g (σ 0) y := by
        unfold cellAt
        rw [rawOffset_congr hxy]
      simp only [lapF, ew, e0, e1])
    (fun τ hτ x hx _ => by
      simp only [pointKernel, lapKernel, hτ 0 (by decide)]
      rw [here hx, Outcome.ok_bind, Outcome.ok_bind]
      have e0 : cellAt g (σ 0) x = cellAt g (σ 0) (wrap g x) := by
        unfold cellAt
        rw [rawOffset_congr fun j hj => (own hx j hj).symm]
      rw [lapLoop_eq (F := fun y => cellAt g (σ 0) (wrap g y)) _ _ _ _ _ fun i _ => ⟨near hx i 1 (by decide) (by decide), near hx i (-1) (by decide) (by decide)⟩, Outcome.ok_bind]
      simp only [lapF, ← e0])
    (P := fun _ => True) (fun _ _ _ => trivial) fun _ _ => trivial
  refine ⟨swapGrids 0 1 σ', ?_, fun x hx => hv x hx⟩
  show ((runLoop .serial g 1 (pointKernel g.dim dx 0 0 fun _ => f) σ).bind _) = _
  rw [e]
  rfl

end Exchange

/-! ## Reflections with rounding -/

/-- A `double` that is a small integer times a power of two. -/
theorem num_val {m k : ℤ} (h : |m| ≤ 2 ^ 53) : (Num.of (p := 53) (m * 2 ^ k)).val = m * 2 ^ k := Rounding.fl_rep (by norm_num) ⟨m, k, h, rfl⟩

/-- One half, and two to the 53 with either sign, as `double`s. -/
noncomputable def half : Num 53 := Num.of ((1 : ℤ) * 2 ^ (-1 : ℤ))
noncomputable def huge : Num 53 := Num.of ((1 : ℤ) * 2 ^ (53 : ℤ))

theorem half_val : half.val = 1 / 2 := by unfold half; rw [num_val (by norm_num)]; norm_num
theorem huge_val : huge.val = 2 ^ 53 := by unfold huge; rw [num_val (by norm_num)]; norm_num

/-- Allen-Cahn in `double`s with the constants of the example (allen-cahn.cpp 51-55: r = u = K = M = 1, dt = 0.01), spacing 1. -/
noncomputable def shippedAC (steps : Nat) : List (Stmt (Num 53)) := allenCahnUpdate 1 (fun _ => 1) (acRhs dtNum 1 1 1 1) steps

/-- A field on three nodes and its mirror image. -/
noncomputable def leftRight : Grids (Num 53) := fun _ n => if n = 0 then -huge else if n = 1 then half else huge
noncomputable def rightLeft : Grids (Num 53) := fun _ n => if n = 0 then huge else if n = 1 then half else -huge

theorem line_room (b : BC) (hb : b ≠ .parallel) : Room 1 (Conserve.line b b) :=
  ⟨⟨Nat.zero_lt_one, fun _ _ => (by decide : (0 : Int) < 3), le_refl (0 : Int)⟩, rfl, by decide, fun _ _ => ⟨hb, hb⟩, fun _ _ => (by decide : (1 : Int) ≤ 3 - 0), fun _ _ _ => (by decide : (1 : Int) < 3 - 0)⟩

theorem line_flip (b : BC) : TurnOk (Conserve.line b b) (Conserve.line b b) (Equiv.refl _) (fun _ => true) :=
  ⟨rfl, fun _ => Iff.rfl, fun _ _ => rfl, fun _ _ => rfl, fun _ _ => rfl⟩

/-- **C109 (negative).** What `allenCahn_turn` says of exact arithmetic fails in `double`s: the two neighbours are added in different places of the sum `yh - 2*y + yl`
(MMSP.grid.cpp 2062-2066), so a field and its mirror image need not evolve into mirror images. -/
theorem reflection_fails : Turned (Conserve.line .periodic .periodic) (Conserve.line .periodic .periodic) (Equiv.refl _) (fun _ => true) (leftRight 0) (rightLeft 0) ∧
    ∃ σ' τ', serialRun (Conserve.line .periodic .periodic) (shippedAC 1) leftRight = .ok σ' ∧ serialRun (Conserve.line .periodic .periodic) (shippedAC 1) rightLeft = .ok τ' ∧
      ¬ Turned (Conserve.line .periodic .periodic) (Conserve.line .periodic .periodic) (Equiv.refl _) (fun _ => true) (σ' 0) (τ' 0) := by
  have hp : 1 ≤ 53 := by norm_num
  have raw : ∀ x : Nat → Int, (Conserve.line .periodic .periodic).rawOffset x = x 0 := fun x => by
    unfold Shape.rawOffset encode
    show ∑ i ∈ Finset.range 1, _ = _
    rw [Finset.sum_range_one]
    show (x 0 - (0 - 0)) * 1 = _
    omega
  have cell : ∀ (data : Int → Num 53) (x : Nat → Int), cellAt (Conserve.line .periodic .periodic) data x = data (x 0) := fun data x => by unfold cellAt; rw [raw]
  have hX : (Conserve.line .periodic .periodic).IsNode fun _ => 1 := fun _ _ => (by decide : (0 : Int) ≤ 1 ∧ (1 : Int) < 3)
  refine ⟨fun x hx => ?_, ?_⟩
  · have h3 : (0 : Int) ≤ x 0 ∧ x 0 < 3 := hx 0 (by decide)
    rw [cell, cell]
    have : turnPt (Conserve.line .periodic .periodic) (Conserve.line .periodic .periodic) (Equiv.refl _) (fun _ => true) x 0 = 2 - x 0 := by
      show 3 - 1 - (x 0 - 0) = _; omega
    rw [this]
    simp only [leftRight, rightLeft]
    rcases (by omega : x 0 = 0 ∨ x 0 = 1 ∨ x 0 = 2) with e | e | e <;> rw [e] <;> rfl
  obtain ⟨σ', e1, v1⟩ := allenCahn_one (line_room .periodic (by decide)) (fun _ => (1 : Num 53)) (acRhs dtNum 1 1 1 1) leftRight
  obtain ⟨τ', e2, v2⟩ := allenCahn_one (line_room .periodic (by decide)) (fun _ => (1 : Num 53)) (acRhs dtNum 1 1 1 1) rightLeft
  refine ⟨σ', τ', e1, e2, fun hT => ?_⟩
  have lap : ∀ (data : Int → Num 53), (lapF 1 (fun _ => (1 : Num 53)) (fun y => cellAt (Conserve.line .periodic .periodic) data (wrap (Conserve.line .periodic .periodic) y)) fun _ => 1).val =
      Rounding.fl 53 (Rounding.fl 53 ((data 2).val - 2 * (data 1).val) + (data 0).val) := fun data => by
    simp only [cell]
    show (0 + lapWeight 1 * (data 2 - (1 + 1) * data 1 + data 0) : Num 53).val = _
    rw [lapWeight_one hp, Num.add_val, Num.zero_val, zero_add, Num.mul_val, Num.one_val, one_mul, Num.add_val, Num.sub_val, Num.two_mul_exact hp, Rounding.fl_rep hp (Rounding.rep_fl _),
      Rounding.fl_rep hp (Rounding.rep_fl _)]
  have ex : ∀ (m k : ℤ), |m| ≤ 2 ^ 53 → Rounding.fl 53 (m * 2 ^ k) = m * 2 ^ k := fun m k h => Rounding.fl_rep hp ⟨m, k, h, rfl⟩
  have rhs : ∀ l : Num 53, (acRhs dtNum 1 1 1 1 half l).val = Rounding.fl 53 (1 / 2 - Rounding.fl 53 (dtNum.val * Rounding.fl 53 (-3 / 8 - l.val))) := fun l => by
    have q : Rounding.fl 53 (1 / 2 * (1 / 2)) = 1 / 4 := by have := ex 1 (-2) (by norm_num); norm_num at this ⊢; exact this
    have c : Rounding.fl 53 (1 / 4 * (1 / 2)) = 1 / 8 := by have := ex 1 (-3) (by norm_num); norm_num at this ⊢; exact this
    have s : Rounding.fl 53 (-(1 / 2) + 1 / 8) = -3 / 8 := by have := ex (-3) (-3) (by norm_num); norm_num at this ⊢; exact this
    have o : Rounding.fl 53 (-1 * (1 / 2)) = -(1 / 2) := by have := ex (-1) (-1) (by norm_num); norm_num at this ⊢; exact this
    have e8 : Rounding.fl 53 (1 / 8) = 1 / 8 := by have := ex 1 (-3) (by norm_num); norm_num at this ⊢; exact this
    unfold acRhs
    rw [Num.sub_val, Num.mul_val, mul_one_num hp, Num.sub_val, Num.add_val, Num.mul_val, Num.mul_val, Num.mul_val, Num.mul_val, Num.mul_val, Num.neg_exact hp, Num.one_val, half_val, q, c, o,
      one_mul, one_mul, e8, s, Rounding.fl_rep hp l.rep]
  have h1 : Rounding.fl 53 (Rounding.fl 53 ((2 : ℝ) ^ 53 - 2 * (1 / 2)) + -2 ^ 53) = -1 := by
    have a : Rounding.fl 53 ((2 : ℝ) ^ 53 - 2 * (1 / 2)) = 2 ^ 53 - 1 := by have := ex (2 ^ 53 - 1) 0 (by norm_num); norm_num at this ⊢; exact this
    have b : Rounding.fl 53 (-1) = -1 := by have := ex (-1) 0 (by norm_num); norm_num at this ⊢; exact this
    rw [a, show (2 : ℝ) ^ 53 - 1 + -2 ^ 53 = -1 by ring, b]
  have h2 : Rounding.fl 53 (Rounding.fl 53 (-(2 : ℝ) ^ 53 - 2 * (1 / 2)) + 2 ^ 53) = 0 := by
    have a : Rounding.fl 53 ((2 : ℝ) ^ 53 + 1) = 2 ^ 53 := by
      have := fl_eval (p := 53) (x := (2 : ℝ) ^ 53 + 1) 1 (2 ^ 52) (by norm_num) (by norm_num) (by
        rw [show ((2 : ℝ) ^ 53 + 1) / 2 ^ (1 : ℤ) = ((2 ^ 52 : ℤ) : ℝ) + 1 / 2 by norm_num]
        exact Rounding.rne_half (by decide))
      rw [this]; norm_num
    rw [show -(2 : ℝ) ^ 53 - 2 * (1 / 2) = -(2 ^ 53 + 1) by ring, Rounding.fl_neg, a, neg_add_cancel, Rounding.fl_zero]
  have i1 : (leftRight 0 2).val = 2 ^ 53 ∧ (leftRight 0 1).val = 1 / 2 ∧ (leftRight 0 0).val = -2 ^ 53 := ⟨huge_val, half_val, by show (-huge).val = _; rw [Num.neg_exact hp, huge_val]⟩
  have i2 : (rightLeft 0 2).val = -2 ^ 53 ∧ (rightLeft 0 1).val = 1 / 2 ∧ (rightLeft 0 0).val = 2 ^ 53 := ⟨by show (-huge).val = _; rw [Num.neg_exact hp, huge_val], half_val, huge_val⟩
  have r1 := congrArg Num.val (v1 _ hX)
  have r2 := congrArg Num.val (v2 _ hX)
  rw [cell (leftRight 0)] at r1
  rw [cell (rightLeft 0)] at r2
  change _ = (acRhs dtNum 1 1 1 1 half (lapF 1 _ _ _)).val at r1
  change _ = (acRhs dtNum 1 1 1 1 half (lapF 1 _ _ _)).val at r2
  rw [rhs, lap, i1.1, i1.2.1, i1.2.2, h1] at r1
  rw [rhs, lap, i2.1, i2.2.1, i2.2.2, h2] at r2
  have k1 : Rounding.fl 53 (-3 / 8 - -1) = 5 / 8 := by have := ex 5 (-3) (by norm_num); norm_num at this ⊢; exact this
  have k2 : Rounding.fl 53 (-3 / 8 - 0) = -(3 / 8) := by have := ex (-3) (-3) (by norm_num); norm_num at this ⊢; exact this
  rw [k1] at r1
  rw [k2, mul_neg, Rounding.fl_neg, sub_neg_eq_add] at r2
  have hh : Rounding.fl 53 (1 / 2 : ℝ) = 1 / 2 := by have := ex 1 (-1) (by norm_num); norm_num at this ⊢; exact this
  have hm : ∀ c : ℝ, 1 / 4 ≤ c → 1 / 1024 ≤ Rounding.fl 53 (dtNum.val * c) := fun c hc => by
    have := Rounding.fl_mono (p := 53) hp (x := 1 / 1024) (y := dtNum.val * c) (by rw [dtNum_val]; norm_num; linarith)
    have e : Rounding.fl 53 (1 / 1024 : ℝ) = 1 / 1024 := by have := ex 1 (-10) (by norm_num); norm_num at this ⊢; exact this
    rwa [e] at this
  have u1 : Rounding.fl 53 (1 / 2 - Rounding.fl 53 (dtNum.val * (5 / 8))) ≤ 511 / 1024 := by
    have := Rounding.fl_mono (p := 53) hp (x := 1 / 2 - Rounding.fl 53 (dtNum.val * (5 / 8))) (y := 511 / 1024) (by have := hm (5 / 8) (by norm_num); linarith)
    have e : Rounding.fl 53 (511 / 1024 : ℝ) = 511 / 1024 := by have := ex 511 (-10) (by norm_num); norm_num at this ⊢; exact this
    rwa [e] at this
  have u2 : 1 / 2 ≤ Rounding.fl 53 (1 / 2 + Rounding.fl 53 (dtNum.val * (3 / 8))) := by
    have := Rounding.fl_mono (p := 53) hp (x := 1 / 2) (y := 1 / 2 + Rounding.fl 53 (dtNum.val * (3 / 8))) (by have := hm (3 / 8) (by norm_num); linarith)
    rwa [hh] at this
  have := congrArg Num.val (hT _ hX)
  rw [cell, cell] at this
  rw [cell] at r1 r2
  change (τ' 0 1).val = (σ' 0 (3 - 1 - (1 - 0))).val at this
  norm_num only at this
  rw [r1, r2] at this
  linarith

/-! ## Examples -/

/-- A field on three nodes of a periodic line and the field one node further on, whatever the arithmetic. -/
example (f : Num 53 → Num 53 → Num 53) : ∃ σ' τ', serialRun (Conserve.line .periodic .periodic) (allenCahnUpdate 1 (fun _ => 1) f 1000) leftRight = .ok σ' ∧
    serialRun (Conserve.line .periodic .periodic) (allenCahnUpdate 1 (fun _ => 1) f 1000) (fun k n => leftRight k ((n + 1) % 3)) = .ok τ' ∧
    Shifted (Conserve.line .periodic .periodic) (Conserve.line .periodic .periodic) (fun _ => 1) (σ' 0) (τ' 0) :=
  allenCahn_shift (line_room .periodic (by decide)) rfl ⟨rfl, fun _ _ => rfl, fun _ _ => rfl, fun _ _ => rfl, fun _ _ => Or.inr ⟨rfl, rfl⟩⟩ _ f 1000 fun x hx => by
    have h3 : (0 : Int) ≤ x 0 ∧ x 0 < 3 := hx 0 (by decide)
    have cell : ∀ (data : Int → Num 53) (x : Nat → Int), cellAt (Conserve.line .periodic .periodic) data x = data (x 0) := fun data x => by
      unfold cellAt Shape.rawOffset encode
      show data (∑ i ∈ Finset.range 1, _) = _
      rw [Finset.sum_range_one]
      show data ((x 0 - (0 - 0)) * 1) = _
      congr 1; omega
    rw [cell, cell]
    show leftRight 0 ((x 0 + 1) % 3) = leftRight 0 (0 + (x 0 - 0 + 1) % (3 - 0))
    congr 1; omega

/-- A box of 2 by 3 by 4 nodes with three different pairs of boundary conditions, and the box with its axes exchanged in a ring and two of them run through backwards. -/
def box : Shape := ⟨3, fun j => 10 * j, fun j => 10 * j + 2 + j, fun j => if j = 0 then .periodic else if j = 1 then .mirror else .neumann,
  fun j => if j = 0 then .periodic else if j = 1 then .neumann else .dirichlet, 0⟩

def ring : Equiv.Perm Nat := (Equiv.swap 0 1).trans (Equiv.swap 0 2)

def boxTurned : Shape := ⟨3, fun _ => -7, fun j => if j = 2 then -7 + 3 else if j = 0 then -7 + 4 else -7 + 2,
  fun j => if j = 1 then .periodic else if j = 2 then .neumann else .neumann, fun j => if j = 1 then .periodic else if j = 2 then .mirror else .dirichlet, 0⟩

theorem box_room : Room 1 box := by
  have hj : ∀ j, j < 3 → j = 0 ∨ j = 1 ∨ j = 2 := by omega
  refine ⟨⟨by decide, fun j h => ?_, by decide⟩, rfl, by decide, fun j h => ?_, fun j h => ?_, fun j h => ?_⟩ <;> rcases hj j h with rfl | rfl | rfl <;> decide

theorem box_turn : TurnOk box boxTurned ring fun j => j < 2 := by
  have hj : ∀ j, j < 3 → j = 0 ∨ j = 1 ∨ j = 2 := by omega
  refine ⟨rfl, fun j => ?_, fun j h => ?_, fun j h => ?_, fun j h => ?_⟩
  · by_cases h : j < 3
    · rcases hj j h with rfl | rfl | rfl <;> decide
    · have : ring j = j := by
        unfold ring
        rw [Equiv.trans_apply, Equiv.swap_apply_of_ne_of_ne (a := 0) (b := 1) (by omega) (by omega), Equiv.swap_apply_of_ne_of_ne (by omega) (by omega)]
      rw [this]
  all_goals rcases hj j h with rfl | rfl | rfl <;> decide

/-- Every field has a turned one. -/
theorem turned_exists {V : Type} {g g' : Shape} (hw : g'.Wf) (hd : g'.dim = g.dim) (axis : Equiv.Perm Nat) (hax : ∀ j, axis j < g.dim ↔ j < g.dim) (flip : Nat → Bool) (a : Int → V) :
    ∃ b, Turned g g' axis flip a b := by
  classical
  refine ⟨fun o => if h : ∃ x, g'.IsNode x ∧ g'.rawOffset x = o then cellAt g a (turnPt g g' axis flip h.choose) else a 0, fun x hx => ?_⟩
  have h : ∃ y, g'.IsNode y ∧ g'.rawOffset y = g'.rawOffset x := ⟨x, hx, rfl⟩
  show (if h : ∃ y, g'.IsNode y ∧ g'.rawOffset y = g'.rawOffset x then _ else _) = _
  rw [dif_pos h]
  have := Shape.rawOffset_inj (isCell_of_isNode hw.ghosts h.choose_spec.1) (isCell_of_isNode hw.ghosts hx) h.choose_spec.2
  unfold cellAt
  rw [rawOffset_congr fun j hj => ?_]
  simp only [turnPt]
  rw [this _ (hd ▸ (hax j).mpr hj)]

/-- The box with the field of the node numbers, and its turned image, after a thousand steps of Cahn-Hilliard with rational numbers. -/
example : ∃ τ : Grids ℚ, ∃ σ' τ', serialRun box (cahnHilliardUpdate 3 (fun j : Nat => (j + 1 : ℚ)) (Conserve.chPotential 1 1 1) (chRhs (1 / 100) 1) 1000) (fun _ n => (n : ℚ)) = .ok σ' ∧
    serialRun boxTurned (cahnHilliardUpdate 3 (fun j : Nat => if j = 0 then 3 else (j : ℚ)) (Conserve.chPotential 1 1 1) (chRhs (1 / 100) 1) 1000) τ = .ok τ' ∧
    Turned box boxTurned ring (fun j => j < 2) (σ' 0) (τ' 0) := by
  obtain ⟨b, hb⟩ := turned_exists (g := box) (g' := boxTurned) ((box_turn.room box_room rfl).wf) rfl ring box_turn.axes (fun j => j < 2) (fun n => (n : ℚ))
  refine ⟨fun _ => b, cahnHilliard_turn box_turn box_room rfl (fun j h => ?_) _ _ 1000 hb⟩
  have hj : j = 0 ∨ j = 1 ∨ j = 2 := by have : j < 3 := h; omega
  rcases hj with rfl | rfl | rfl
  · rw [show ring 0 = 1 by decide]; norm_num
  · rw [show ring 1 = 2 by decide]; norm_num
  · rw [show ring 2 = 0 by decide]; norm_num

/-- A symmetric field on a line with mirrors at both ends, which is not constant. -/
example (f mu : ℚ → ℚ → ℚ) : ∃ σ', serialRun (Conserve.line .mirror .mirror) (cahnHilliardUpdate 1 (fun _ => 1) mu f 1000) (fun _ n => n * (2 - n)) = .ok σ' ∧
    Turned (Conserve.line .mirror .mirror) (Conserve.line .mirror .mirror) (Equiv.refl _) (fun _ => true) (σ' 0) (σ' 0) :=
  (symmetric_stays (line_flip .mirror) (line_room .mirror (by decide)) (fun _ _ => rfl) mu f 1000 fun x _ => by
    have raw : ∀ x : Nat → Int, (Conserve.line .mirror .mirror).rawOffset x = x 0 := fun x => by
      unfold Shape.rawOffset encode
      show ∑ i ∈ Finset.range 1, _ = _
      rw [Finset.sum_range_one]
      show (x 0 - (0 - 0)) * 1 = _
      omega
    unfold cellAt
    rw [raw, raw]
    show ((x 0 : Int) : ℚ) * (2 - (x 0 : Int)) = ((3 - 1 - (x 0 - 0) : Int) : ℚ) * (2 - (3 - 1 - (x 0 - 0) : Int))
    push_cast; ring).2

/-- The sign, in `double`s, with the constants of the example. -/
example : ∃ σ' τ', serialRun (Conserve.line .periodic .periodic) (shippedAC 1000) leftRight = .ok σ' ∧ serialRun (Conserve.line .periodic .periodic) (shippedAC 1000) (fun k n => -leftRight k n) = .ok τ' ∧
    ∀ x, (Conserve.line .periodic .periodic).IsNode x → cellAt (Conserve.line .periodic .periodic) (τ' 0) x = -cellAt (Conserve.line .periodic .periodic) (σ' 0) x :=
  allenCahn_sign (oddNumbers_num (by norm_num)) (line_room .periodic (by decide)) _ (rhs_odd (oddNumbers_num (by norm_num)) dtNum 1 1 1 1).1 1000 fun _ _ => rfl

/-- Two ranks, four nodes, a field and the field two nodes further on: after any number of steps the ranks have exchanged their values. -/
example (f : Byte → Byte → Byte) (steps : Nat) : ∃ D' E',
    Finished 2 (mpiRun (fun _ => primCell byteCodec) smallWorld (allenCahnUpdate 1 (fun _ => 1) f steps) fun r => .ok fun _ => shared (fun x => UInt8.ofNat x.toNat) 9 r) D' ∧
    Finished 2 (mpiRun (fun _ => primCell byteCodec) smallWorld (allenCahnUpdate 1 (fun _ => 1) f steps) fun r => .ok fun _ => shared (fun x => UInt8.ofNat ((x + 2) % 4).toNat) 9 r) E' ∧
    ∀ x, (smallWorld.shape 0).IsNode x → ∀ y, (smallWorld.shape 1).IsNode y → y 0 = x 0 + 2 → cellAt (smallWorld.shape 0) (E' 0 0) x = cellAt (smallWorld.shape 1) (D' 1 0) y := by
  have hd := allenCahnUpdate_disciplined (α := Byte) 1 (le_refl _) (fun _ => 1) f steps
  have raw : ∀ x : Nat → Int, smallWorld.serial.rawOffset x = x 0 := fun x => by
    unfold Shape.rawOffset encode
    show ∑ i ∈ Finset.range 1, _ = _
    rw [Finset.sum_range_one]
    show (x 0 - (0 - 0)) * 1 = _
    omega
  obtain ⟨D', E', h1, h2, h3⟩ := shift_ranks (c := fun _ => primCell byteCodec) (c' := fun _ => primCell byteCodec) (w := smallWorld) (w' := smallWorld) (v := fun _ => 2)
    (fun _ => primCell_roundTrips _) (fun _ => primCell_roundTrips _) (fun _ _ _ => trivial) (fun _ _ _ => trivial) smallWorld_ok smallWorld_ok
    ⟨rfl, fun _ _ => rfl, fun _ _ => rfl, fun _ _ => rfl, fun _ _ => Or.inr ⟨rfl, rfl⟩⟩ hd hd (allenCahn_homogeneous _ _ f steps)
    (σ := fun _ x => UInt8.ofNat x.toNat) (τ := fun _ x => UInt8.ofNat ((x + 2) % 4).toNat)
    (D := fun r _ => shared (fun x => UInt8.ofNat x.toNat) 9 r) (E := fun r _ => shared (fun x => UInt8.ofNat ((x + 2) % 4).toNat) 9 r)
    ⟨fun k hk => by cases hk; exact shared_same _ 9 rfl fun _ => rfl, fun _ h => h.elim⟩ (fun _ => ⟨fun _ _ _ => trivial, fun _ _ _ _ _ => trivial⟩)
    ⟨fun k hk => by cases hk; exact shared_same _ 9 rfl fun _ => rfl, fun _ h => h.elim⟩ (fun _ => ⟨fun _ _ _ => trivial, fun _ _ _ _ _ => trivial⟩)
    fun k _ x _ => by
      unfold cellAt
      rw [raw, raw]
      show UInt8.ofNat ((x 0 + 2) % 4).toNat = UInt8.ofNat (0 + (x 0 - 0 + 2) % (4 - 0)).toNat
      congr 2; omega
  refine ⟨D', E', h1, h2, fun x hx y hy hxy => ?_⟩
  have e0 : (smallWorld.shape 0).x0 0 = 0 ∧ (smallWorld.shape 0).x1 0 = 2 := by decide +kernel
  have e1 : (smallWorld.shape 1).x0 0 = 2 ∧ (smallWorld.shape 1).x1 0 = 4 := by decide +kernel
  have hx0 := hx 0 (by decide)
  have same : ∀ j, j < 1 → shiftPt smallWorld.serial smallWorld.serial (fun _ => 2) x j = y j := fun j hj => by
    have : j = 0 := by omega
    subst this
    show 0 + (x 0 - 0 + 2) % (4 - 0) = y 0
    omega
  rw [h3 0 rfl rfl 0 ⟨by omega, by omega⟩ x hx 1 ⟨by omega, by omega⟩ fun j hj => by rw [same j hj]; exact hy j hj]
  unfold cellAt
  rw [rawOffset_congr (g := smallWorld.shape 1) same]

end MMSP.Symmetry
