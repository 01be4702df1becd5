import Verif.Ostwald
import Verif.RelaxProps
import Mathlib.Algebra.MvPolynomial.PDeriv
import Mathlib.Algebra.MvPolynomial.Funext
import Mathlib.Algebra.CharZero.Infinite
import Mathlib.RingTheory.Derivation.Lie
/-!
# Property C68: Ostwald ripening
-/

namespace MMSP.Ostwald

open Finset
open DensePF (entry checked fill pass Full pass_eq deref_node lapl laplacianVec_entry fill_eq entry_map cells_eq)
open Stencil (laplacianField laplacianNode laplacianVec)
open Conserve (Serial total)
open ConvexSplit (lap total_lap bonds sum_by_parts)
open Relax (reach_of_serial laplacianNode_eq total_congr lapl_eq_lap)

section
variable {α : Type} [Field α]

theorem squares_eq (n : Nat) (y : Int → α) : squares n y = ∑ i ∈ Ico 1 n, y (i : Int) ^ 2 := by
  unfold squares
  rw [Stencil.foldl_sum (fun i => y (i : Int) ^ 2), zero_add, ← List.sum_toFinset _ (List.nodup_range')]
  refine sum_congr ?_ fun _ _ => rfl
  ext i
  simp only [List.mem_toFinset, List.mem_range'_1, mem_Ico]
  omega

/-- Sum of squares of the order parameters of node `i`. -/
def order (n : Nat) (data : Int → List α) (i : Int) : α := ∑ h ∈ Ico 1 n, entry (data i) (h : Int) ^ 2

/-- The chemical potential of node `i`. -/
def mu (g : Shape) (n : Nat) (p : Params α) (dx : Nat → α) (data : Int → List α) (i : Int) : α :=
  potential p (order n data i) (entry (data i) 0) (lapl g dx (fun q => entry (data q) 0) i)

/-- The new value of field `h` of node `i`. -/
def next (g : Shape) (n : Nat) (p : Params α) (dx : Nat → α) (data : Int → List α) (i h : Int) : α :=
  if h = 0 then entry (data i) 0 + p.dt * p.D * lapl g dx (mu g n p dx data) i
  else entry (data i) h - p.dt * p.L * force p (order n data i) (entry (data i) 0) (entry (data i) h) (lapl g dx (fun q => entry (data q) h) i)

variable {g : Shape}

theorem potentialAt_eq (hg : g.Wf) (h0 : g.ghosts = 0) (hr : SparsePF.Reach .serial g) {n : Nat} (hn : 1 ≤ n) (p : Params α) (dx : Nat → α) {old : Int → List α} (hf : Full g n old)
    {i : Int} (hi0 : 0 ≤ i) (hi1 : i < g.nodes) : potentialAt g n p dx old i = .ok (mu g n p dx old i) := by
  obtain ⟨L, e, hl, hv⟩ := laplacianVec_entry hg h0 hr n dx hf hi0 hi1
  obtain ⟨l, l1, l2⟩ := Stencil.laplacianField_agrees .serial hg.1 n (fun h => h ^ 2) (fun h => sq h) dx old (g.position i) e (j := 0) (by omega)
  have h00 := hv 0 (by omega)
  rw [DensePF.entry_lt (by omega)] at l1
  unfold potentialAt checked
  rw [deref_node h0 old hi0 hi1, Outcome.ok_bind, if_pos (hf i hi0 hi1).ge, Outcome.ok_bind, l2, Outcome.ok_bind]
  congr 1
  unfold mu
  rw [← Option.some.inj l1, h00, squares_eq]
  rfl

theorem first_eq (hg : g.Wf) (h0 : g.ghosts = 0) (hr : SparsePF.Reach .serial g) {n : Nat} (hn : 1 ≤ n) (p : Params α) (dx : Nat → α) {old : Int → List α} (hf : Full g n old) (w : Int → α) :
    first g n p dx old w = .ok fun q => if 0 ≤ q ∧ q < g.nodes then mu g n p dx old q else w q := by
  have key : ∀ k : Nat, (k : Int) ≤ max g.nodes 0 → (List.range k).foldlM (fun w (i : Nat) => (potentialAt g n p dx old i).bind fun v => store g w (g.atVec .serial (g.position i)) v) w =
      .ok fun q => if 0 ≤ q ∧ q < k then mu g n p dx old q else w q := by
    intro k
    induction k with
    | zero =>
      intro _
      rw [List.range_zero, List.foldlM_nil]
      show Outcome.ok w = _
      congr 1; funext q; rw [if_neg (by omega)]
    | succ k ih =>
      intro hk
      have hk1 : (k : Int) < g.nodes := by omega
      have ha : g.atVec .serial (g.position k) = k := (Shape.atNode_eq_atVec hg .serial (fun _ => h0) (by omega) hk1).symm
      have hst : ∀ (d : Int → α) v, store g d k v = .ok (Function.update d k v) := by
        intro d v; unfold store; exact if_pos ⟨by omega, by rw [cells_eq h0]; exact hk1⟩
      rw [List.range_succ, List.foldlM_append, ih (by omega)]
      simp only [List.foldlM_cons, List.foldlM_nil, Outcome.bind_eq, Outcome.ok_bind, Outcome.pure_eq, ha]
      rw [potentialAt_eq hg h0 hr hn p dx hf (by omega) hk1, Outcome.ok_bind, hst, Outcome.ok_bind]
      congr 1; funext q
      by_cases hq : q = k
      · subst hq; rw [Function.update_self, if_pos (by push_cast; omega)]
      · rw [Function.update_of_ne hq]
        by_cases hc : 0 ≤ q ∧ q < (k : Int)
        · rw [if_pos hc, if_pos (by push_cast; omega)]
        · rw [if_neg hc, if_neg (by push_cast; omega)]
  unfold first
  rw [key _ (by omega)]
  congr 1; funext q
  by_cases hc : 0 ≤ q ∧ q < g.nodes
  · rw [if_pos hc, if_pos (by omega)]
  · rw [if_neg hc, if_neg (by omega)]

theorem lapl_congr (h0 : g.ghosts = 0) (hr : SparsePF.Reach .serial g) (dx : Nat → α) {u v : Int → α} (h : ∀ q, 0 ≤ q → q < g.nodes → u q = v q) {i : Int} (hi0 : 0 ≤ i) (hi1 : i < g.nodes) :
    lapl g dx u i = lapl g dx v i := by
  unfold lapl
  refine sum_congr rfl fun j hj => ?_
  obtain ⟨a, b⟩ := DensePF.nbr_mem h0 hr hi0 hi1 (mem_range.1 hj)
  rw [h _ a.1 a.2, h _ b.1 b.2, h _ hi0 hi1]

/-- One step computes `next` for every field of every node. -/
theorem step_eq (hg : g.Wf) (h0 : g.ghosts = 0) (hr : SparsePF.Reach .serial g) {n : Nat} (hn : 1 ≤ n) (p : Params α) (dx : Nat → α) (s : State α) (hf : Full g n s.old) (hf' : Full g n s.new) :
    ∃ t, step g n p dx s = .ok t ∧ Full g n t.old ∧ t.new = s.old ∧ ∀ i, 0 ≤ i → i < g.nodes → ∀ h : Nat, h < n → entry (t.old i) h = next g n p dx s.old i h := by
  let w : Int → α := fun q => if 0 ≤ q ∧ q < g.nodes then mu g n p dx s.old q else s.w q
  have hw : ∀ q, 0 ≤ q → q < g.nodes → w q = mu g n p dx s.old q := fun q a b => if_pos ⟨a, b⟩
  have hcell : ∀ i, 0 ≤ i → i < g.nodes → cell g n p dx w s.old i (s.new i) = .ok ((List.range n).map fun h : Nat => next g n p dx s.old i (h : Int)) := by
    intro i a b
    obtain ⟨L, e, hl, hv⟩ := laplacianVec_entry hg h0 hr n dx hf a b
    have hlap : Stencil.laplacian .serial g dx w (g.position i) = .ok (lapl g dx w i) := laplacianNode_eq hg h0 hr dx w a b
    unfold cell checked
    rw [hlap, Outcome.ok_bind, deref_node h0 s.old a b, Outcome.ok_bind, if_pos (hf i a b).ge, Outcome.ok_bind, e, Outcome.ok_bind, if_pos hl.ge, Outcome.ok_bind]
    unfold fill
    rw [if_pos (hf' i a b).ge, List.drop_eq_nil_of_le (hf' i a b).le, List.append_nil]
    congr 1
    refine List.map_congr_left fun h hh => ?_
    unfold next
    beta_reduce
    rw [squares_eq, hv h (List.mem_range.1 hh), lapl_congr h0 hr dx hw a b]
    rfl
  refine ⟨⟨fun q => if 0 ≤ q ∧ q < g.nodes then (List.range n).map fun h : Nat => next g n p dx s.old q (h : Int) else s.new q, s.old, w⟩, ?_, fun i a b => ?_, rfl, fun i a b h hh => ?_⟩
  · unfold step
    rw [first_eq hg h0 hr hn p dx hf, Outcome.ok_bind]
    show ((pass .serial g (cell g n p dx w s.old) s.new).bind fun out => Outcome.ok (State.mk out s.old w)) = _
    rw [pass_eq hg h0 (cell g n p dx w s.old) s.new (fun q => (List.range n).map fun h : Nat => next g n p dx s.old q (h : Int)) hcell, Outcome.ok_bind]
  · dsimp only
    rw [if_pos ⟨a, b⟩, List.length_map, List.length_range]
  · dsimp only
    rw [if_pos ⟨a, b⟩]
    unfold entry
    rw [if_pos (by omega), Int.toNat_natCast, List.getD_eq_getElem _ _ (by simpa using hh)]
    simp

/-- **C68.** On a closed grid the total concentration never changes, and no access leaves the arrays. -/
theorem ostwald_conserves (hs : Serial g) {n : Nat} (hn : 1 ≤ n) (p : Params α) (dx : Nat → α) (steps : Nat) (s : State α) (hf : Full g n s.old) (hf' : Full g n s.new) :
    ∃ t, update g n p dx steps s = .ok t ∧ Full g n t.old ∧ Full g n t.new ∧ total g (fun i => entry (t.old i) 0) = total g (fun i => entry (s.old i) 0) := by
  have hr := reach_of_serial hs
  induction steps with
  | zero => exact ⟨s, rfl, hf, hf', rfl⟩
  | succ k ih =>
    obtain ⟨t, e, f, f', h⟩ := ih
    obtain ⟨t', e', f1, f2, hv⟩ := step_eq hs.wf hs.ghosts hr hn p dx t f f'
    refine ⟨t', by rw [update, e, Outcome.ok_bind, e'], f1, by rw [f2]; exact f, ?_⟩
    rw [← h, total_congr (b := fun i => entry (t.old i) 0 + p.dt * p.D * lap g dx (mu g n p dx t.old) i) fun i a b => by
      have := hv i a b 0 (by omega)
      rw [Nat.cast_zero] at this
      rw [this]; unfold next; rw [if_pos rfl]; rfl]
    have := total_lap hs dx (mu g n p dx t.old)
    unfold total at this ⊢
    rw [sum_add_distrib, ← mul_sum, this, mul_zero, add_zero]

theorem lapl_const (g : Shape) (dx : Nat → α) (u : Int → α) (c : α) (hu : ∀ q, u q = c) (i : Int) : lapl g dx u i = 0 := by
  unfold lapl
  refine sum_eq_zero fun j _ => ?_
  rw [hu, hu, hu]; ring

/-- **C68.** A vanished order parameter does not stay zero: in a uniform grid every order parameter that is zero everywhere becomes `dt L gamma (C - Calpha)²` in one step. -/
theorem resurrected (hg : g.Wf) (h0 : g.ghosts = 0) (hr : SparsePF.Reach .serial g) {n : Nat} (hn : 1 ≤ n) (p : Params α) (dx : Nat → α) (c : List α) (hc : c.length = n)
    (w : Int → α) {h : Nat} (h1 : 1 ≤ h) (h2 : h < n) (hz : entry c h = 0) :
    ∃ t, update g n p dx 1 ⟨fun _ => c, fun _ => c, w⟩ = .ok t ∧ ∀ i, 0 ≤ i → i < g.nodes → entry (t.old i) h = p.dt * p.L * p.gamma * (entry c 0 - p.Calpha) ^ 2 := by
  obtain ⟨t, e, -, -, hv⟩ := step_eq hg h0 hr hn p dx ⟨fun _ => c, fun _ => c, w⟩ (fun _ _ _ => hc) (fun _ _ _ => hc)
  refine ⟨t, by rw [update, update, Outcome.ok_bind, e], fun i a b => ?_⟩
  rw [hv i a b h h2]
  unfold next
  rw [if_neg (by omega), lapl_const g dx _ 0 (fun _ => hz)]
  dsimp only
  rw [hz]
  unfold force
  ring

/-- **C68.** The non-local parts of both driving forces come from the gradient energy `kappa/2` times the sum of the squared difference quotients: in every direction `a` they
contribute its derivative. -/
theorem gradient_energy [CharZero α] (hs : Serial g) (n : Nat) (p : Params α) (dx : Nat → α) (data : Int → List α) (a : Int → α) :
    total g (fun i => a i * (mu g n p dx data i - potential p (order n data i) (entry (data i) 0) 0)) = p.kappa * bonds g dx a (fun q => entry (data q) 0) ∧
    ∀ h : Int, total g (fun i => a i * (force p (order n data i) (entry (data i) 0) (entry (data i) h) (lapl g dx (fun q => entry (data q) h) i) -
      force p (order n data i) (entry (data i) 0) (entry (data i) h) 0)) = p.kappa * bonds g dx a (fun q => entry (data q) h) := by
  have key : ∀ u : Int → α, total g (fun i => a i * (-p.kappa * lapl g dx u i)) = p.kappa * bonds g dx a u := by
    intro u
    have := sum_by_parts hs dx a u
    rw [← neg_eq_iff_eq_neg.2 this]
    unfold total
    rw [← sum_neg_distrib, mul_sum]
    exact sum_congr rfl fun i _ => by beta_reduce; rw [lapl_eq_lap]; ring
  refine ⟨?_, fun h => ?_⟩
  · rw [← key]
    unfold total
    exact sum_congr rfl fun i _ => by unfold mu potential; ring
  · rw [← key]
    unfold total
    exact sum_congr rfl fun i _ => by unfold force; ring

end

/-! ## The two driving forces do not belong to one energy -/

section
open MvPolynomial
variable {α : Type} [Field α]

theorem pderiv_comm {σ : Type} (i j : σ) (f : MvPolynomial σ α) : pderiv i (pderiv j f) = pderiv j (pderiv i f) := by
  classical
  let di : Derivation α (MvPolynomial σ α) (MvPolynomial σ α) := pderiv i
  let dj : Derivation α (MvPolynomial σ α) (MvPolynomial σ α) := pderiv j
  have h : ⁅di, dj⁆ = 0 := by
    apply derivation_ext
    intro k
    rw [Derivation.commutator_apply]
    simp [di, dj, pderiv_X, Pi.single_apply, apply_ite]
  have := congrArg (fun d : Derivation α (MvPolynomial σ α) (MvPolynomial σ α) => d f) h
  rw [Derivation.commutator_apply] at this
  exact sub_eq_zero.1 this

/-- Bulk driving forces with one order parameter, as the code computes them where the Laplacians vanish. -/
def bulkC (p : Params α) (C eta : α) : α := potential p (eta ^ 2) C 0
/-- See `bulkC`. -/
def bulkEta (p : Params α) (C eta : α) : α := force p (eta ^ 2) C eta 0

/-- Energy density `f` has the derivatives `a` (with respect to concentration) and `b` (with respect to the order parameter). -/
def Derives (f : MvPolynomial (Fin 2) α) (a b : α → α → α) : Prop := ∀ C eta : α, eval ![C, eta] (pderiv 0 f) = a C eta ∧ eval ![C, eta] (pderiv 1 f) = b C eta

/-- **C68.** No polynomial energy density has the two driving forces of the code as its derivatives (so the equations are not a gradient flow of any such energy). -/
theorem no_energy [CharZero α] (p : Params α) (hp : p.gamma ≠ 0) : ¬ ∃ f : MvPolynomial (Fin 2) α, Derives f (bulkC p) (bulkEta p) := by
  rintro ⟨f, hf⟩
  have hC : pderiv 0 f = C (-p.A) * (X 0 - C p.Cmatrix) + C p.B * (X 0 - C p.Cmatrix) ^ 3 + C p.Dalpha * (X 0 - C p.Calpha) ^ 3 + C p.Dbeta * (X 0 - C p.Cbeta) ^ 3
      - C p.gamma * (X 0 - C p.Calpha) * X 1 ^ 2 := by
    apply MvPolynomial.funext
    intro x
    have := (hf (x 0) (x 1)).1
    rw [show ![x 0, x 1] = x by funext k; fin_cases k <;> rfl] at this
    rw [this]
    simp [bulkC, potential]
  have hE : pderiv 1 f = -C p.gamma * (X 0 - C p.Calpha) ^ 2 + C p.delta * X 1 ^ 3 := by
    apply MvPolynomial.funext
    intro x
    have := (hf (x 0) (x 1)).2
    rw [show ![x 0, x 1] = x by funext k; fin_cases k <;> rfl] at this
    rw [this]
    simp [bulkEta, force]
  have h := pderiv_comm (1 : Fin 2) 0 f
  rw [hC, hE] at h
  have h' := congrArg (eval ![p.Calpha + 1, 0]) h
  simp [pderiv_X, Derivation.leibniz, Derivation.leibniz_pow] at h'
  exact hp h'

/-- The energy of which the code's concentration equation is the conserved gradient flow. -/
noncomputable def density (p : Params α) : MvPolynomial (Fin 2) α :=
  C (-p.A / 2) * (X 0 - C p.Cmatrix) ^ 2 + C (p.B / 4) * (X 0 - C p.Cmatrix) ^ 4 + C (p.Dalpha / 4) * (X 0 - C p.Calpha) ^ 4 + C (p.Dbeta / 4) * (X 0 - C p.Cbeta) ^ 4
    - C (p.gamma / 2) * (X 0 - C p.Calpha) ^ 2 * X 1 ^ 2 + C (p.delta / 4) * X 1 ^ 4

/-- **C68.** With a factor `eta` in the first term of the order-parameter equation the two forces do belong to one energy. -/
theorem repaired_energy [CharZero α] (p : Params α) : Derives (density p) (bulkC p) (fun C eta => bulkEta p C eta + p.gamma * (C - p.Calpha) ^ 2 - p.gamma * (C - p.Calpha) ^ 2 * eta) := by
  intro c e
  have h2 : (2 : α) ≠ 0 := two_ne_zero
  have h4 : (4 : α) ≠ 0 := by norm_num
  constructor
  · simp [density, bulkC, potential, pderiv_X, Derivation.leibniz, Derivation.leibniz_pow]
    field_simp
  · simp [density, bulkEta, force, pderiv_X, Derivation.leibniz, Derivation.leibniz_pow]
    field_simp
    ring

end

/-! ## Examples -/

example (steps : Nat) : ∃ t, update (Relax.square 3) 2 (example' : Params ℚ) (fun _ => 1) steps ⟨fun q => [q / 10, 1 - q / 10], fun _ => [0, 0], fun _ => 0⟩ = .ok t ∧
    Full (Relax.square 3) 2 t.old ∧ Full (Relax.square 3) 2 t.new ∧ total (Relax.square 3) (fun i => entry (t.old i) 0) = total (Relax.square 3) (fun i => entry ([(i : ℚ) / 10, 1 - i / 10]) 0) :=
  ostwald_conserves (Relax.square_serial (by decide)) (by decide) _ _ steps _ (fun _ _ _ => rfl) (fun _ _ _ => rfl)

example : (example' : Params ℚ).gamma ≠ 0 := by decide +kernel

/-- With the parameters of the example, order parameters that are zero in a matrix of concentration 1/2 grow in the first step. -/
theorem resurrected_example : ((update (Relax.square 3) 2 (example' : Params ℚ) (fun _ => 1) 1 ⟨fun _ => [1 / 2, 0], fun _ => [0, 0], fun _ => 0⟩).bind fun t => .ok (t.old 4)) = .ok [1 / 2, 1 / 2000] := by
  decide +kernel

end MMSP.Ostwald
