import Verif.DensePF
import Verif.SparsePFProps
import Verif.ConvertProps
import Mathlib.Data.List.GetD
import Mathlib.Tactic.Positivity
import Mathlib.Tactic.Linarith
/-!
# Properties C63, C64, C65: dense phase fields
-/

namespace MMSP.DensePF

open Finset
open Stencil (gridAt bump view InReach Touches gridAt_ok laplacianVec elem)
open SparsePF (pairs clamp)

/-! ## Loops over the nodes -/

theorem cells_eq {g : Shape} (h0 : g.ghosts = 0) : g.cells = g.nodes := Convert.cells_eq h0

/-- One pass stores the new cell of every node and nothing else. -/
theorem pass_eq {V : Type} {g : Shape} (hg : g.Wf) (h0 : g.ghosts = 0) (cell : Int → V → Outcome V) (new v : Int → V)
    (h : ∀ i, 0 ≤ i → i < g.nodes → cell i (new i) = .ok (v i)) :
    pass .serial g cell new = .ok fun p => if 0 ≤ p ∧ p < g.nodes then v p else new p := by
  have key : ∀ k : Nat, (k : Int) ≤ g.nodes →
      (List.range k).foldlM (fun out (i : Nat) =>
        (deref g out (g.atNode .serial i)).bind fun z => (cell i z).bind fun v => store g out (g.atNode .serial i) v) new =
        .ok (fun p => if 0 ≤ p ∧ p < k then v p else new p) := by
    intro k
    induction k with
    | zero =>
      intro _
      have : (fun p : Int => if 0 ≤ p ∧ p < ((0 : Nat) : Int) then v p else new p) = new := by
        funext p; exact if_neg (by omega)
      rw [this]; rfl
    | succ k ih =>
      intro hk
      rw [List.range_succ, List.foldlM_append, ih (by omega)]
      have hc : 0 ≤ (k : Int) ∧ (k : Int) < g.cells := by rw [cells_eq h0]; omega
      have hst : ∀ (d : Int → V) w, store g d (g.atNode .serial k) w = .ok (Function.update d k w) := by
        intro d w; unfold store; exact if_pos hc
      have hde : ∀ d : Int → V, deref g d (g.atNode .serial k) = .ok (d k) := by
        intro d; unfold deref; exact if_pos hc
      simp only [List.foldlM_cons, List.foldlM_nil, Outcome.bind_eq, Outcome.ok_bind, Outcome.pure_eq, hde, hst]
      rw [if_neg (by omega), h k (by omega) (by omega)]
      simp only [Outcome.ok_bind, Outcome.ok.injEq]
      funext p
      by_cases e : p = k
      · subst e; rw [Function.update_self, if_pos (by omega)]
      · rw [Function.update_of_ne e]
        by_cases hp : 0 ≤ p ∧ p < k
        · rw [if_pos hp, if_pos (by omega)]
        · rw [if_neg hp, if_neg (by omega)]
  have hn : ((g.nodes.toNat : Nat) : Int) = g.nodes := by
    have : 0 ≤ g.nodes := by rw [Shape.nodes_eq hg]; exact Finset.prod_nonneg fun j hj => by
                              have := hg.side j (Finset.mem_range.mp hj); omega
    omega
  unfold pass
  rw [key _ hn.le, hn]

/-- What every step preserves holds after any number of steps; `P` speaks about the cells of the nodes of `oldGrid` and `newGrid`. -/
theorem run_inv {V : Type} {g : Shape} (hg : g.Wf) (h0 : g.ghosts = 0) (cell : (Int → V) → Int → V → Outcome V) (P : (Int → V) → Prop) (Q : (Int → V) → Prop)
    (hPQ : ∀ d, P d → Q d)
    (step : ∀ old new, P old → Q new → ∃ v : Int → V, (∀ i, 0 ≤ i → i < g.nodes → cell old i (new i) = .ok (v i)) ∧
      P (fun p => if 0 ≤ p ∧ p < g.nodes then v p else new p))
    (steps : Nat) (old new : Int → V) (hP : P old) (hQ : Q new) :
    ∃ r, run g cell steps (old, new) = .ok r ∧ P r.1 ∧ Q r.2 := by
  induction steps with
  | zero => exact ⟨_, rfl, hP, hQ⟩
  | succ k ih =>
    obtain ⟨r, e, p, q⟩ := ih
    obtain ⟨v, hv, hp⟩ := step r.1 r.2 p q
    refine ⟨(fun p => if 0 ≤ p ∧ p < g.nodes then v p else r.2 p, r.1), ?_, hp, hPQ _ p⟩
    rw [run, e, Outcome.ok_bind, pass_eq hg h0 _ _ v hv, Outcome.ok_bind]

/-! ## Fields of a grid -/

section
variable {α : Type} [Field α]

/-- Node reached from node `i` by moving `k` along axis `j`. -/
def nbr (g : Shape) (i : Int) (j : Nat) (k : Int) : Int := g.atVec .serial (bump (g.position i) j k)

/-- Five-point (three-, seven-point) Laplacian of the node values `u` at node `i`. -/
def lapl (g : Shape) (dx : Nat → α) (u : Int → α) (i : Int) : α := ∑ j ∈ range g.dim, (u (nbr g i j 1) - 2 * u i + u (nbr g i j (-1))) / dx j ^ 2

end

/-- All cells of the grid have `n` entries. -/
def Full {α : Type} (g : Shape) (n : Nat) (data : Int → List α) : Prop := ∀ p, 0 ≤ p → p < g.nodes → (data p).length = n

section
variable {α : Type} [Field α] [LinearOrder α]

omit [LinearOrder α] in
theorem entry_lt {c : List α} {k : Nat} (h : k < c.length) : c[k]? = some (entry c k) := by
  unfold entry
  rw [if_pos (by omega), Int.toNat_natCast, List.getD_eq_getElem _ _ h, List.getElem?_eq_getElem h]

omit [LinearOrder α] in
theorem nbr_mem {g : Shape} (h0 : g.ghosts = 0) (hr : SparsePF.Reach .serial g) {i : Int} (hi0 : 0 ≤ i) (hi1 : i < g.nodes) {j : Nat} (hj : j < g.dim) :
    (0 ≤ nbr g i j 1 ∧ nbr g i j 1 < g.nodes) ∧ 0 ≤ nbr g i j (-1) ∧ nbr g i j (-1) < g.nodes := by
  have := hr i.toNat (by omega)
  rw [Int.toNat_of_nonneg hi0] at this
  have := this.2 j hj
  unfold Touches at this
  rw [cells_eq h0] at this
  exact this

omit [LinearOrder α] in
/-- The Laplacian of the grid of vectors, entry by entry. -/
theorem laplacianVec_entry {g : Shape} (hg : g.Wf) (h0 : g.ghosts = 0) (hr : SparsePF.Reach .serial g) (n : Nat) (dx : Nat → α) {data : Int → List α} (hf : Full g n data)
    {i : Int} (hi0 : 0 ≤ i) (hi1 : i < g.nodes) :
    ∃ L, laplacianVec .serial g n dx data (g.position i) = .ok L ∧ L.length = n ∧ ∀ h : Nat, h < n → entry L h = lapl g dx (fun p => entry (data p) h) i := by
  have hin := hr i.toNat (by omega)
  rw [Int.toNat_of_nonneg hi0] at hin
  obtain ⟨L, e, hl, hv⟩ := Stencil.laplacianVec_correct .serial n dx data (g.position i) hin (fun p a b => (hf p a (by rw [← cells_eq h0]; exact b)).ge)
  refine ⟨L, e, hl, fun h hh => ?_⟩
  obtain ⟨l, l1, l2⟩ := hv h hh
  have hd : (fun p => (data p).getD h 0) = fun p => entry (data p) (h : Int) := by
    funext p; unfold entry; rw [if_pos (by omega), Int.toNat_natCast]
  rw [hd, Stencil.laplacian_eq .serial dx _ _ hin] at l2
  have hv0 : view .serial g (fun p => entry (data p) (h : Int)) (g.position i) = entry (data i) h := by
    unfold view
    rw [← Shape.atNode_eq_atVec hg .serial (fun _ => h0) hi0 hi1]; rfl
  rw [hv0] at l2
  rw [entry_lt (by omega)] at l1
  rw [Option.some.inj l1, ← Outcome.ok.inj l2]
  rfl

theorem fill_eq {n : Nat} (v : Int → α) {z : List α} (hz : z.length = n) : fill n v z = .ok ((List.range n).map fun h : Nat => v (h : Int)) := by
  unfold fill
  rw [if_pos hz.ge, List.drop_eq_nil_of_le hz.le, List.append_nil]

theorem entry_map (n : Nat) (v : Int → α) {h : Nat} (hh : h < n) : entry ((List.range n).map fun h : Nat => v (h : Int)) h = v h := by
  unfold entry
  rw [if_pos (by omega), Int.toNat_natCast, List.getD_eq_getElem _ _ (by simpa using hh)]
  simp

omit [LinearOrder α] in
theorem deref_node {V : Type} {g : Shape} (h0 : g.ghosts = 0) (data : Int → V) {i : Int} (hi0 : 0 ≤ i) (hi1 : i < g.nodes) :
    deref g data (g.atNode .serial i) = .ok (data i) := by
  unfold deref; exact if_pos ⟨hi0, by rw [cells_eq h0]; exact hi1⟩

omit [LinearOrder α] in
theorem sumOf_eq (n : Nat) (v : Int → α) : sumOf n v = ∑ h ∈ range n, v (h : Int) := by
  unfold sumOf
  rw [Stencil.foldl_sum (fun h => v (h : Int)), zero_add, Stencil.sum_list_range]

omit [LinearOrder α] in
theorem squares_eq (n : Nat) (phi : Int → α) : squares n phi = ∑ h ∈ range n, phi (h : Int) ^ 2 := by
  unfold squares
  rw [Stencil.foldl_sum (fun h => phi (h : Int) * phi h), zero_add, Stencil.sum_list_range]
  exact sum_congr rfl fun _ _ => by ring

/-! ## Isotropic examples -/

/-- One pass of an isotropic example: the new value of field `h` at node `i` is `value` of the Laplacians and the old values there. -/
theorem isoCell_eq {g : Shape} (hg : g.Wf) (h0 : g.ghosts = 0) (hr : SparsePF.Reach .serial g) (n : Nat) (dx : Nat → α) (value : (Int → α) → (Int → α) → Int → α)
    {old : Int → List α} (hf : Full g n old) {i : Int} (hi0 : 0 ≤ i) (hi1 : i < g.nodes) {z : List α} (hz : z.length = n) :
    ∃ L : List α, (∀ h : Nat, h < n → entry L h = lapl g dx (fun p => entry (old p) h) i) ∧
      isoCell .serial g n dx value old i z = .ok ((List.range n).map fun h : Nat => value (entry L) (entry (old i)) h) := by
  obtain ⟨L, e, hl, hv⟩ := laplacianVec_entry hg h0 hr n dx hf hi0 hi1
  refine ⟨L, hv, ?_⟩
  unfold isoCell checked
  rw [deref_node h0 old hi0 hi1, Outcome.ok_bind, e, Outcome.ok_bind, if_pos (hf i hi0 hi1).ge, Outcome.ok_bind, if_pos hl.ge, Outcome.ok_bind, fill_eq _ hz]

/-- Bulk free energy of the isotropic examples. -/
def bulk (n : Nat) (phi : Int → α) : α :=
  -(∑ h ∈ range n, phi (h : Int) ^ 2) / 2 - (∑ h ∈ range n, phi (h : Int) ^ 4) / 4 + (∑ h ∈ range n, phi (h : Int) ^ 2) ^ 2 / 2

omit [LinearOrder α] in
/-- **C65.** The new value is the old one minus `dt` times the driving force, which is the partial derivative of the bulk energy minus twice the Laplacian: changing field `j` by
`t` changes the bulk energy by `t` times that derivative, up to terms of second order in `t`. -/
theorem isoValue_descends [CharZero α] (dt : α) (n : Nat) (lap phi : Int → α) {j : Nat} (hj : j < n) :
    ∃ slope : α, isoValue dt n lap phi j = phi j - dt * (slope - 2 * lap j) ∧
      ∃ a b c : α, ∀ t : α, bulk n (Function.update phi j (phi j + t)) = bulk n phi + t * slope + t ^ 2 * (a + b * t + c * t ^ 2) := by
  refine ⟨-phi j - phi j ^ 3 + 2 * (phi j * ∑ h ∈ range n, phi (h : Int) ^ 2), by unfold isoValue; rw [squares_eq]; ring,
    (∑ h ∈ range n, phi (h : Int) ^ 2) - 1 / 2 + phi j ^ 2 / 2, phi j, 1 / 4, fun t => ?_⟩
  have key : ∀ m : Nat, ∑ h ∈ range n, Function.update phi (j : Int) (phi j + t) (h : Int) ^ m = (∑ h ∈ range n, phi (h : Int) ^ m) + ((phi j + t) ^ m - phi j ^ m) := by
    intro m
    rw [← add_sum_erase _ _ (mem_range.2 hj), ← add_sum_erase _ (fun h : Nat => phi (h : Int) ^ m) (mem_range.2 hj), Function.update_self]
    rw [sum_congr rfl (g := fun h : Nat => phi (h : Int) ^ m) fun h hh => by rw [Function.update_of_ne (by exact_mod_cast (mem_erase.1 hh).1)]]
    ring
  unfold bulk
  rw [key, key]
  ring

/-- All fields of a grid are between 0 and 1. -/
def Bounded (g : Shape) (n : Nat) (data : Int → List α) : Prop := ∀ p, 0 ≤ p → p < g.nodes → ∀ h : Nat, h < n → 0 ≤ entry (data p) h ∧ entry (data p) h ≤ 1

variable [IsStrictOrderedRing α]

/-- Stability limit of the time step: `dt (2 n + Σ 4/dx²) ≤ 1`. -/
def Stable (g : Shape) (n : Nat) (dx : Nat → α) (dt : α) : Prop := 0 ≤ dt ∧ dt * (2 * n + ∑ j ∈ range g.dim, 4 / dx j ^ 2) ≤ 1

theorem lapl_bounds {g : Shape} (h0 : g.ghosts = 0) (hr : SparsePF.Reach .serial g) (dx : Nat → α) {u : Int → α} (hu : ∀ p, 0 ≤ p → p < g.nodes → 0 ≤ u p ∧ u p ≤ 1)
    {i : Int} (hi0 : 0 ≤ i) (hi1 : i < g.nodes) :
    -(u i * ∑ j ∈ range g.dim, 4 / dx j ^ 2) ≤ 2 * lapl g dx u i ∧ 2 * lapl g dx u i ≤ (1 - u i) * ∑ j ∈ range g.dim, 4 / dx j ^ 2 := by
  have hnn : ∀ j, 0 ≤ 1 / dx j ^ 2 := fun j => by positivity
  unfold lapl
  constructor
  · rw [mul_sum, mul_sum, ← sum_neg_distrib]
    refine sum_le_sum fun j hj => ?_
    obtain ⟨a, b⟩ := nbr_mem h0 hr hi0 hi1 (mem_range.1 hj)
    have h1 := (hu _ a.1 a.2).1
    have h2 := (hu _ b.1 b.2).1
    have := mul_nonneg (add_nonneg h1 h2) (hnn j)
    have e : 2 * ((u (nbr g i j 1) - 2 * u i + u (nbr g i j (-1))) / dx j ^ 2) = -(u i * (4 / dx j ^ 2)) + 2 * ((u (nbr g i j 1) + u (nbr g i j (-1))) * (1 / dx j ^ 2)) := by ring
    rw [e]; linarith
  · rw [mul_sum, mul_sum]
    refine sum_le_sum fun j hj => ?_
    obtain ⟨a, b⟩ := nbr_mem h0 hr hi0 hi1 (mem_range.1 hj)
    have h1 := (hu _ a.1 a.2).2
    have h2 := (hu _ b.1 b.2).2
    have := mul_nonneg (add_nonneg (sub_nonneg.2 h1) (sub_nonneg.2 h2)) (hnn j)
    have e : 2 * ((u (nbr g i j 1) - 2 * u i + u (nbr g i j (-1))) / dx j ^ 2) = (1 - u i) * (4 / dx j ^ 2) - 2 * ((1 - u (nbr g i j 1) + (1 - u (nbr g i j (-1)))) * (1 / dx j ^ 2)) := by ring
    rw [e]; linarith

theorem isoValue_bounds {g : Shape} (h0 : g.ghosts = 0) (hr : SparsePF.Reach .serial g) {n : Nat} {dx : Nat → α} {dt : α} (hst : Stable g n dx dt) {data : Int → List α}
    (hb : Bounded g n data) {i : Int} (hi0 : 0 ≤ i) (hi1 : i < g.nodes) {h : Nat} (hh : h < n) {lap : Int → α} (hl : lap h = lapl g dx (fun p => entry (data p) h) i) :
    0 ≤ isoValue dt n lap (entry (data i)) h ∧ isoValue dt n lap (entry (data i)) h ≤ 1 := by
  obtain ⟨l1, l2⟩ := lapl_bounds h0 hr dx (u := fun p => entry (data p) h) (fun p a b => hb p a b h hh) hi0 hi1
  obtain ⟨u0, u1⟩ := hb i hi0 hi1 h hh
  have hK : 0 ≤ ∑ j ∈ range g.dim, 4 / dx j ^ 2 := sum_nonneg fun j _ => by positivity
  have s1 : squares n (entry (data i)) ≤ n := by
    rw [squares_eq]
    calc _ ≤ ∑ _h ∈ range n, (1 : α) := sum_le_sum fun k hk => by
            obtain ⟨a, b⟩ := hb i hi0 hi1 k (mem_range.1 hk)
            exact pow_le_one₀ a b
      _ = n := by simp
  have s2 : entry (data i) h ^ 2 ≤ squares n (entry (data i)) := by
    rw [squares_eq]
    exact single_le_sum (f := fun k : Nat => entry (data i) (k : Int) ^ 2) (fun k _ => sq_nonneg _) (mem_range.2 hh)
  obtain ⟨d0, d1⟩ := hst
  have hn : (1 : α) ≤ n := by exact_mod_cast (by omega : 1 ≤ n)
  unfold isoValue
  rw [hl]
  beta_reduce at l1 l2
  generalize lapl g dx (fun p => entry (data p) h) i = l at *
  generalize entry (data i) (h : Int) = u at *
  generalize squares n (entry (data i)) = s at *
  generalize (∑ j ∈ range g.dim, 4 / dx j ^ 2) = K at *
  generalize (n : α) = N at *
  have e1 := mul_le_mul_of_nonneg_left l1 d0
  have e2 := mul_le_mul_of_nonneg_left l2 d0
  have e3 : dt * (u * s) ≤ dt * (u * N) := mul_le_mul_of_nonneg_left (mul_le_mul_of_nonneg_left s1 u0) d0
  have e4 : dt * (u * u ^ 2) ≤ dt * (u * s) := mul_le_mul_of_nonneg_left (mul_le_mul_of_nonneg_left s2 u0) d0
  have e5 : u * (dt * (2 * N + K)) ≤ u * 1 := mul_le_mul_of_nonneg_left d1 u0
  have e6 : 0 ≤ dt * u := mul_nonneg d0 u0
  have e7 : 0 ≤ dt * u ^ 3 := mul_nonneg d0 (pow_nonneg u0 3)
  constructor
  · nlinarith
  · have h1u : 0 ≤ 1 - u := by linarith
    have f1 : dt * (2 + K) ≤ 1 := by
      have : dt * (2 * 1) ≤ dt * (2 * N) := mul_le_mul_of_nonneg_left (by linarith) d0
      nlinarith
    have f2 := mul_le_mul_of_nonneg_left f1 h1u
    have f3 : 0 ≤ dt * ((1 - u) * (2 - u * (1 + u))) := mul_nonneg d0 (mul_nonneg h1u (by nlinarith))
    nlinarith

theorem fullStep {g : Shape} {n : Nat} (v : Int → Int → α) (new : Int → List α) :
    Full g n (fun p => if 0 ≤ p ∧ p < g.nodes then (List.range n).map (fun h : Nat => v p (h : Int)) else new p) := by
  intro p a b
  beta_reduce
  rw [if_pos ⟨a, b⟩]; simp

/-- **C65.** Isotropic grain growth and Zener pinning: if all fields start between 0 and 1 and the time step obeys the stability limit, then the run never leaves the arrays and
all fields stay between 0 and 1, whatever the number of steps. -/
theorem iso_bounded {g : Shape} (hg : g.Wf) (h0 : g.ghosts = 0) (hr : SparsePF.Reach .serial g) {n : Nat} {dx : Nat → α} {dt : α} (hst : Stable g n dx dt)
    {value : (Int → α) → (Int → α) → Int → α} (hv : value = isoValue dt n ∨ value = zenerValue dt n) (steps : Nat)
    {old new : Int → List α} (hf : Full g n old) (hf' : Full g n new) (hb : Bounded g n old) :
    ∃ r, isoRun g n dx value steps old new = .ok r ∧ Full g n r.1 ∧ Bounded g n r.1 := by
  suffices hstep : _ by
    obtain ⟨r, e, p, -⟩ := run_inv hg h0 (isoCell .serial g n dx value) (fun d => Full g n d ∧ Bounded g n d) (Full g n) (fun _ h => h.1) hstep steps old new ⟨hf, hb⟩ hf'
    exact ⟨r, e, p⟩
  · intro old new ⟨hf, hb⟩ hn
    have hc : ∀ i, ∃ L : List α, 0 ≤ i → i < g.nodes → (∀ h : Nat, h < n → entry L h = lapl g dx (fun p => entry (old p) h) i) ∧
        isoCell .serial g n dx value old i (new i) = .ok ((List.range n).map fun h : Nat => value (entry L) (entry (old i)) h) := by
      intro i
      by_cases hi : 0 ≤ i ∧ i < g.nodes
      · obtain ⟨L, a, b⟩ := isoCell_eq hg h0 hr n dx value hf hi.1 hi.2 (hn i hi.1 hi.2)
        exact ⟨L, fun _ _ => ⟨a, b⟩⟩
      · exact ⟨[], fun a b => absurd ⟨a, b⟩ hi⟩
    choose L hL using hc
    refine ⟨fun i => (List.range n).map fun h : Nat => value (entry (L i)) (entry (old i)) h, fun i a b => (hL i a b).2, fullStep _ _, fun p a b h hh => ?_⟩
    beta_reduce
    rw [if_pos ⟨a, b⟩, entry_map n _ hh]
    have hi := isoValue_bounds h0 hr hst hb a b hh ((hL p a b).1 h hh)
    rcases hv with rfl | rfl
    · exact hi
    · unfold zenerValue
      split_ifs
      · exact hb p a b h hh
      · exact hi

omit [IsStrictOrderedRing α] in
/-- **C65.** Inside a grain nothing happens: where a node and all its neighbours hold the field `k` with value 1 and no other, the next step leaves the node as it is. -/
theorem iso_grain {g : Shape} (hg : g.Wf) (h0 : g.ghosts = 0) (hr : SparsePF.Reach .serial g) {n k : Nat} (hk : k < n) (dx : Nat → α) (dt : α)
    {old : Int → List α} (hf : Full g n old) {i : Int} (hi0 : 0 ≤ i) (hi1 : i < g.nodes) {z : List α} (hz : z.length = n)
    (hi : ∀ h : Nat, h < n → entry (old i) h = if h = k then 1 else 0)
    (hnb : ∀ j < g.dim, ∀ h : Nat, h < n → entry (old (nbr g i j 1)) h = entry (old i) h ∧ entry (old (nbr g i j (-1))) h = entry (old i) h) :
    ∃ c, isoCell .serial g n dx (isoValue dt n) old i z = .ok c ∧ ∀ h : Nat, h < n → entry c h = entry (old i) h := by
  obtain ⟨L, l1, l2⟩ := isoCell_eq hg h0 hr n dx (isoValue dt n) hf hi0 hi1 hz
  refine ⟨_, l2, fun h hh => ?_⟩
  have hlap : entry L h = 0 := by
    rw [l1 h hh]
    unfold lapl
    refine sum_eq_zero fun j hj => ?_
    obtain ⟨a, b⟩ := hnb j (mem_range.1 hj) h hh
    beta_reduce
    rw [a, b]; ring
  have hsq : squares n (entry (old i)) = 1 := by
    rw [squares_eq, sum_congr rfl (g := fun h : Nat => if h = k then (1 : α) else 0) fun h hh => by rw [hi h (mem_range.1 hh)]; split_ifs <;> simp]
    simp [hk]
  rw [entry_map n _ hh, isoValue, hlap, hsq, hi h hh]
  split_ifs <;> ring

/-- **C64.** Isotropic Zener pinning: the particle field (field 0) keeps its initial value at every node for any number of steps. -/
theorem iso_pinned {g : Shape} (hg : g.Wf) (h0 : g.ghosts = 0) (hr : SparsePF.Reach .serial g) {n : Nat} (hn0 : 0 < n) (dx : Nat → α) (dt : α) (steps : Nat)
    {old new : Int → List α} (hf : Full g n old) (hf' : Full g n new) :
    ∃ r, isoRun g n dx (zenerValue dt n) steps old new = .ok r ∧ ∀ p, 0 ≤ p → p < g.nodes → entry (r.1 p) 0 = entry (old p) 0 := by
  suffices hstep : _ by
    obtain ⟨r, e, p, -⟩ := run_inv hg h0 (isoCell .serial g n dx (zenerValue dt n)) (fun d => Full g n d ∧ ∀ p, 0 ≤ p → p < g.nodes → entry (d p) 0 = entry (old p) 0)
      (Full g n) (fun _ h => h.1) hstep steps old new ⟨hf, fun _ _ _ => rfl⟩ hf'
    exact ⟨r, e, p.2⟩
  · intro d z ⟨hd, hb⟩ hz
    have hc : ∀ i, ∃ L : List α, 0 ≤ i → i < g.nodes →
        isoCell .serial g n dx (zenerValue dt n) d i (z i) = .ok ((List.range n).map fun h : Nat => zenerValue dt n (entry L) (entry (d i)) h) := by
      intro i
      by_cases hi : 0 ≤ i ∧ i < g.nodes
      · obtain ⟨L, -, b⟩ := isoCell_eq hg h0 hr n dx (zenerValue dt n) hd hi.1 hi.2 (hz i hi.1 hi.2)
        exact ⟨L, fun _ _ => b⟩
      · exact ⟨[], fun a b => absurd ⟨a, b⟩ hi⟩
    choose L hL using hc
    refine ⟨fun i => (List.range n).map fun h : Nat => zenerValue dt n (entry (L i)) (entry (d i)) h, hL, fullStep _ _, fun p a b => ?_⟩
    beta_reduce
    rw [if_pos ⟨a, b⟩]
    have := entry_map n (zenerValue dt n (entry (L p)) (entry (d p))) hn0
    rw [Int.natCast_zero] at this
    rw [this, zenerValue, if_pos rfl, hb p a b]

end

/-! ## Anisotropic examples -/

section
variable {α : Type} [Field α]

/-- The cell as a sparse one. -/
def toSparse (c : List α) : Sparse.Cell α := (List.range c.length).map fun k : Nat => ((k : Int), entry c k)

theorem get_toSparse (c : List α) : Sparse.get (toSparse c) = entry c := by
  have hkeys : Sparse.keys (toSparse c) = (List.range c.length).map fun k : Nat => (k : Int) := by
    unfold Sparse.keys toSparse; rw [List.map_map]; rfl
  have hok : Sparse.Ok (toSparse c) := by
    unfold Sparse.Ok
    rw [hkeys]
    exact (List.nodup_range).map fun a b h => by exact_mod_cast h
  funext k
  by_cases hk : 0 ≤ k ∧ k < c.length
  · have : (k, entry c k) ∈ toSparse c := by
      unfold toSparse
      rw [List.mem_map]
      exact ⟨k.toNat, List.mem_range.2 (by omega), by rw [Int.toNat_of_nonneg hk.1]⟩
    exact Sparse.get_of_mem hok this
  · rw [Sparse.get_of_not_mem (by rw [hkeys, List.mem_map]; rintro ⟨a, ha, rfl⟩; rw [List.mem_range] at ha; omega)]
    unfold entry
    split_ifs with h
    · rw [List.getD_eq_default _ _ (by omega)]
    · rfl

theorem force2_get (e w : Int → Int → α) (lap y d : Sparse.Cell α) (h j : Int) :
    force2 e w (Sparse.get lap) (Sparse.get y) (Sparse.get d) h j = Sparse.get (SparsePF.force2 e w lap y d h j) := by
  funext k
  unfold force2 SparsePF.force2
  simp only [Sparse.get_update, Function.update_apply]

theorem force3_get (y d : Sparse.Cell α) (h j k : Int) : force3 (Sparse.get y) (Sparse.get d) h j k = Sparse.get (SparsePF.force3 y d h j k) := by
  funext m
  unfold force3 SparsePF.force3
  simp only [Sparse.get_update, Function.update_apply]

theorem foldl_get {f : (Int → α) → Int → Int → α} {f' : Sparse.Cell α → Int → Sparse.Cell α} (h : ∀ d k, f (Sparse.get d) k = Sparse.get (f' d k)) (l : List Int)
    (d : Sparse.Cell α) : l.foldl f (Sparse.get d) = Sparse.get (l.foldl f' d) := by
  induction l generalizing d with
  | nil => rfl
  | cons a l ih => rw [List.foldl_cons, List.foldl_cons, h, ih]

theorem forcesFrom_get (e w : Int → Int → α) (lap y : Sparse.Cell α) (h : Int) (l : List Int) (d : Sparse.Cell α) :
    forcesFrom e w (Sparse.get lap) (Sparse.get y) h l (Sparse.get d) = Sparse.get (SparsePF.forcesFrom e w lap y h l d) := by
  induction l generalizing d with
  | nil => rfl
  | cons j t ih =>
    rw [forcesFrom, SparsePF.forcesFrom, force2_get, foldl_get (fun d k => force3_get y d h j k), ih]

theorem forces3_get (e w : Int → Int → α) (lap y : Sparse.Cell α) (l : List Int) (d : Sparse.Cell α) :
    forces3 e w (Sparse.get lap) (Sparse.get y) l (Sparse.get d) = Sparse.get (SparsePF.forces3 e w lap y l d) := by
  induction l generalizing d with
  | nil => rfl
  | cons h t ih => rw [forces3, SparsePF.forces3, forcesFrom_get, ih]

theorem get_nil : Sparse.get ([] : Sparse.Cell α) = fun _ => 0 := by funext k; exact Sparse.get_nil k

/-- Sum of the products of all pairs of different fields in `S`. -/
def products (y : Int → α) (S : Finset Int) : α := ∑ i ∈ S, ∑ j ∈ S.erase i, y i * y j / 2

/-- **C63.** The variational derivative of a marked field `k`: two-field contributions of all other marked fields and three times the products of all pairs of other marked fields. -/
theorem forces3_spec [CharZero α] {e w : Int → Int → α} (he : ∀ h j, e h j = e j h) (hw : ∀ h j, w h j = w j h) (lap y : List α) {l : List Int} (hl : l.Nodup) {k : Int} (hk : k ∈ l) :
    forces3 e w (entry lap) (entry y) l (fun _ => 0) k =
      (∑ j ∈ l.toFinset.erase k, (e k j * entry lap j + w k j * entry y j)) + 3 * products (entry y) (l.toFinset.erase k) := by
  have := SparsePF.forces3_spec he hw (toSparse lap) (toSparse y) hl hk
  rw [← forces3_get, get_toSparse, get_toSparse, get_nil] at this
  rw [this]
  unfold SparsePF.pairProducts products
  rw [get_toSparse]

theorem pairs_other {f : (Int → α) → Int → Int → Int → α} {k : Int} (hf : ∀ b h j, k ≠ h → k ≠ j → f b h j k = b k) {l : List Int} (hk : k ∉ l) (b : Int → α) :
    pairs f l b k = b k := by
  induction l generalizing b with
  | nil => rfl
  | cons h t ih =>
    rw [pairs, ih fun h' => hk (by simp [h'])]
    have hkh : k ≠ h := fun e => hk (by simp [e])
    have : ∀ (t : List Int), k ∉ t → ∀ b : Int → α, t.foldl (fun b j => f b h j) b k = b k := by
      intro t
      induction t with
      | nil => intro _ b; rfl
      | cons j t ih =>
        intro ht b
        rw [List.foldl_cons, ih (fun h' => ht (by simp [h'])), hf _ _ _ hkh fun e => ht (by simp [e])]
    exact this t (fun h' => hk (by simp [h'])) b

/-- **C63.** Fields that are not marked have rate 0. -/
theorem rates_unmarked (mu : Int → Int → α) (dF : Int → α) {l : List Int} {k : Int} (hk : k ∉ l) : rates mu dF l k = 0 := by
  unfold rates
  rw [pairs_other (k := k) _ hk]
  intro b h j h1 h2
  show Function.update _ _ _ _ = _
  rw [Function.update_of_ne h2, Function.update_of_ne h1]

theorem inner_sum {f : (Int → α) → Int → Int → Int → α} {a : Int → Int → α}
    (hf : ∀ b h j k, h ≠ j → f b h j k = b k + if k = h then a h j else if k = j then a j h else 0) {h : Int} {t : List Int} (ht : t.Nodup) (hh : h ∉ t) (b : Int → α) (k : Int) :
    t.foldl (fun b j => f b h j) b k = b k + if k = h then ∑ j ∈ t.toFinset, a h j else if k ∈ t then a k h else 0 := by
  induction t generalizing b with
  | nil => simp
  | cons j t ih =>
    have hn := List.nodup_cons.1 ht
    have hj : h ≠ j := fun e => hh (by simp [e])
    rw [List.foldl_cons, ih hn.2 (fun h' => hh (by simp [h'])), hf _ _ _ _ hj]
    by_cases h1 : k = h
    · subst h1
      simp only [if_true]
      rw [List.toFinset_cons, sum_insert (by simpa using hn.1)]; ring
    · by_cases h2 : k = j
      · subst h2
        simp only [if_neg h1, if_true, if_neg hn.1, List.mem_cons, true_or]; ring
      · simp only [if_neg h1, List.mem_cons, h2, false_or, if_false]; ring

theorem pairs_sum {f : (Int → α) → Int → Int → Int → α} {a : Int → Int → α}
    (hf : ∀ b h j k, h ≠ j → f b h j k = b k + if k = h then a h j else if k = j then a j h else 0) {l : List Int} (hl : l.Nodup) (b : Int → α) (k : Int) :
    pairs f l b k = b k + if k ∈ l then ∑ j ∈ l.toFinset.erase k, a k j else 0 := by
  induction l generalizing b with
  | nil => simp [pairs]
  | cons h t ih =>
    have hn := List.nodup_cons.1 hl
    rw [pairs, ih hn.2, inner_sum hf hn.2 hn.1]
    by_cases h1 : k = h
    · subst h1
      rw [if_pos rfl, if_neg hn.1, if_pos (by simp), List.toFinset_cons, erase_insert (by simpa using hn.1)]; ring
    · rw [if_neg h1]
      by_cases h2 : k ∈ t
      · rw [if_pos h2, if_pos h2, if_pos (by simp [h2]), List.toFinset_cons, erase_insert_of_ne (Ne.symm h1), sum_insert (by simp [hn.1])]; ring
      · rw [if_neg h2, if_neg h2, if_neg (by simp [h1, h2])]; ring

/-- **C63.** The rate of a marked field `k`. -/
theorem rates_spec {mu : Int → Int → α} (hm : ∀ h j, mu h j = mu j h) (dF : Int → α) {l : List Int} (hl : l.Nodup) {k : Int} (hk : k ∈ l) :
    rates mu dF l k = ∑ j ∈ l.toFinset.erase k, mu k j * (dF j - dF k) := by
  unfold rates
  rw [pairs_sum (a := fun h j => mu h j * (dF j - dF h)) _ hl, zero_add, if_pos hk]
  intro b h j k hj
  unfold rate2
  simp only [Function.update_apply]
  by_cases h1 : k = h
  · subst h1; rw [if_neg hj, if_pos rfl, if_pos rfl]; ring
  · rw [if_neg h1]
    by_cases h2 : k = j
    · subst h2; rw [if_pos rfl, if_pos rfl, if_neg h1, if_neg h1, hm]; ring
    · rw [if_neg h2, if_neg h2, if_neg h1, add_zero]

/-- **C63.** What one field gains the others lose. -/
theorem rates_total [CharZero α] {mu : Int → Int → α} (hm : ∀ h j, mu h j = mu j h) (dF : Int → α) {l : List Int} (hl : l.Nodup) :
    ∑ k ∈ l.toFinset, rates mu dF l k = 0 := by
  have e1 : ∑ k ∈ l.toFinset, rates mu dF l k = ∑ k ∈ l.toFinset, ∑ j ∈ l.toFinset, mu k j * (dF j - dF k) := by
    refine sum_congr rfl fun k hk => ?_
    rw [rates_spec hm dF hl (List.mem_toFinset.1 hk), ← add_sum_erase _ _ hk]; ring
  have e2 : ∑ k ∈ l.toFinset, ∑ j ∈ l.toFinset, mu k j * (dF j - dF k) = -∑ k ∈ l.toFinset, ∑ j ∈ l.toFinset, mu k j * (dF j - dF k) := by
    conv_lhs => rw [sum_comm]
    rw [← sum_neg_distrib]
    refine sum_congr rfl fun j _ => ?_
    rw [← sum_neg_distrib]
    exact sum_congr rfl fun k _ => by rw [hm k j]; ring
  rw [e1]
  have h2 : (2 : α) * (∑ k ∈ l.toFinset, ∑ j ∈ l.toFinset, mu k j * (dF j - dF k)) = 0 := by linear_combination e2
  exact (mul_eq_zero.1 h2).resolve_left two_ne_zero

end

section
variable {α : Type} [Field α] [LinearOrder α]

/-! ### Marked fields -/

/-- Field `h` is positive at node `i` or at a neighbour along an axis. -/
def Near (g : Shape) (data : Int → List α) (i : Int) (h : Nat) : Prop :=
  0 < entry (data i) h ∨ ∃ j < g.dim, 0 < entry (data (nbr g i j 1)) h ∨ 0 < entry (data (nbr g i j (-1))) h

theorem near_eq {g : Shape} (hg : g.Wf) (h0 : g.ghosts = 0) (hr : SparsePF.Reach .serial g) {n : Nat} {data : Int → List α} (hf : Full g n data) {i : Int} (hi0 : 0 ≤ i) (hi1 : i < g.nodes)
    {h : Nat} (hh : h < n) : ∃ b, near .serial g data (g.position i) h = .ok b ∧ (b = true ↔ Near g data i h) := by
  have hin := hr i.toNat (by omega)
  rw [Int.toNat_of_nonneg hi0] at hin
  have hread : ∀ x, Touches .serial g x → (gridAt .serial g data x).bind (fun c => (elem c h).bind fun v => Outcome.ok (decide (v > 0))) =
      .ok (decide (0 < entry (data (g.atVec .serial x)) h)) := by
    intro x hx
    rw [gridAt_ok hx, Outcome.ok_bind]
    have : elem (view .serial g data x) h = .ok (entry (data (g.atVec .serial x)) h) :=
      Stencil.elem_ok.2 (entry_lt (c := view .serial g data x) (by have := hf _ hx.1 (by rw [← cells_eq h0]; exact hx.2); unfold view; omega))
    rw [this, Outcome.ok_bind]
  have hself : g.atVec .serial (g.position i) = i := by
    rw [← Shape.atNode_eq_atVec hg .serial (fun _ => h0) hi0 hi1]; rfl
  have inner : ∀ j < g.dim, ∀ s : Bool, [-1, 0, 1].foldlM (fun s (k : Int) =>
      if s then .ok true else (gridAt .serial g data (bump (g.position i) j k)).bind fun c => (elem c h).bind fun v => .ok (decide (v > 0))) s =
      Outcome.ok (s || decide (0 < entry (data (nbr g i j (-1))) h) || decide (0 < entry (data i) h) || decide (0 < entry (data (nbr g i j 1)) h)) := by
    intro j hj s
    have t1 := hread _ (hin.2 j hj).1
    have t2 := hread _ (hin.2 j hj).2
    have t0 := hread _ hin.1
    rw [hself] at t0
    simp only [List.foldlM_cons, List.foldlM_nil, Outcome.bind_eq, Outcome.pure_eq, SparsePF.bump_zero, t0, t1, t2]
    unfold nbr
    cases s <;> by_cases a : 0 < entry (data (g.atVec .serial (bump (g.position i) j (-1)))) h <;> by_cases b : 0 < entry (data i) h <;> simp [a, b, Outcome.ok_bind]
  have outer : ∀ m ≤ g.dim, ∃ b, (List.range m).foldlM (fun s (j : Nat) => [-1, 0, 1].foldlM (fun s (k : Int) =>
      if s then .ok true else (gridAt .serial g data (bump (g.position i) j k)).bind fun c => (elem c h).bind fun v => .ok (decide (v > 0))) s) false = Outcome.ok b ∧
      (b = true ↔ ∃ j < m, 0 < entry (data i) h ∨ 0 < entry (data (nbr g i j 1)) h ∨ 0 < entry (data (nbr g i j (-1))) h) := by
    intro m
    induction m with
    | zero => exact fun _ => ⟨false, rfl, by simp⟩
    | succ m ih =>
      intro hm
      obtain ⟨b, e, hb⟩ := ih (by omega)
      rw [List.range_succ, List.foldlM_append, e]
      simp only [Outcome.bind_eq, Outcome.ok_bind, List.foldlM_cons (a := m), List.foldlM_nil (α := Nat), inner m (by omega)]
      refine ⟨_, rfl, ?_⟩
      simp only [Bool.or_eq_true, decide_eq_true_eq, hb, Nat.lt_succ_iff_lt_or_eq]
      constructor
      · rintro (((⟨j, hj, h'⟩ | h') | h') | h')
        · exact ⟨j, .inl hj, h'⟩
        · exact ⟨m, .inr rfl, .inr (.inr h')⟩
        · exact ⟨m, .inr rfl, .inl h'⟩
        · exact ⟨m, .inr rfl, .inr (.inl h')⟩
      · rintro ⟨j, hj | rfl, h'⟩
        · exact .inl (.inl (.inl ⟨j, hj, h'⟩))
        · rcases h' with h' | h' | h'
          · exact .inl (.inr h')
          · exact .inr h'
          · exact .inl (.inl (.inr h'))
  obtain ⟨b, e, hb⟩ := outer g.dim le_rfl
  refine ⟨b, e, hb.trans ?_⟩
  unfold Near
  constructor
  · rintro ⟨j, hj, h' | h'⟩
    · exact .inl h'
    · exact .inr ⟨j, hj, h'⟩
  · rintro (h' | ⟨j, hj, h'⟩)
    · exact ⟨0, hg.dim_pos, .inl h'⟩
    · exact ⟨j, hj, .inr h'⟩

/-- **C63.** The marked fields are those positive at the node or at a neighbour along an axis, each once. -/
theorem marked_spec {g : Shape} (hg : g.Wf) (h0 : g.ghosts = 0) (hr : SparsePF.Reach .serial g) {n : Nat} {data : Int → List α} (hf : Full g n data) {i : Int} (hi0 : 0 ≤ i) (hi1 : i < g.nodes) :
    ∃ s, marked .serial g n data (g.position i) = .ok s ∧ s.Nodup ∧ ∀ k, k ∈ s ↔ ∃ h : Nat, k = h ∧ h < n ∧ Near g data i h := by
  have key : ∀ m ≤ n, ∃ s, (List.range m).foldlM (fun s (h : Nat) => (near .serial g data (g.position i) h).bind fun b => .ok (if b then s ++ [(h : Int)] else s)) [] = Outcome.ok s ∧
      s.Nodup ∧ ∀ k, k ∈ s ↔ ∃ h : Nat, k = h ∧ h < m ∧ Near g data i h := by
    intro m
    induction m with
    | zero => exact fun _ => ⟨[], rfl, List.nodup_nil, by simp⟩
    | succ m ih =>
      intro hm
      obtain ⟨s, e, hn, hs⟩ := ih (by omega)
      obtain ⟨b, eb, hb⟩ := near_eq hg h0 hr hf hi0 hi1 (h := m) (by omega)
      rw [List.range_succ, List.foldlM_append, e]
      simp only [Outcome.bind_eq, Outcome.ok_bind, List.foldlM_cons, List.foldlM_nil, eb, Outcome.pure_eq]
      refine ⟨_, rfl, ?_, fun k => ?_⟩
      · cases b
        · simpa using hn
        · rw [if_pos rfl, List.nodup_append]
          refine ⟨hn, List.nodup_singleton _, fun a ha c hc => ?_⟩
          obtain ⟨h, rfl, hh, -⟩ := (hs a).1 ha
          rw [List.mem_singleton] at hc
          omega
      · cases b
        · rw [if_neg (by simp), hs]
          constructor
          · rintro ⟨h, e, hh, q⟩; exact ⟨h, e, by omega, q⟩
          · rintro ⟨h, e, hh, q⟩
            refine ⟨h, e, ?_, q⟩
            rcases Nat.lt_succ_iff_lt_or_eq.1 hh with a | rfl
            · exact a
            · exact absurd (hb.2 q) (by simp)
        · rw [if_pos rfl, List.mem_append, hs, List.mem_singleton]
          constructor
          · rintro (⟨h, e, hh, q⟩ | rfl)
            · exact ⟨h, e, by omega, q⟩
            · exact ⟨m, rfl, by omega, hb.1 rfl⟩
          · rintro ⟨h, ek, hh, q⟩
            rcases Nat.lt_succ_iff_lt_or_eq.1 hh with a | rfl
            · exact .inl ⟨h, ek, a, q⟩
            · exact .inr ek
  exact key n le_rfl

variable [IsStrictOrderedRing α]

/-! ### Values -/

/-- A cell on the Gibbs simplex: `n` values that are not negative and add up to 1. -/
structure Simplex (n : Nat) (c : List α) : Prop where
  length : c.length = n
  nonneg : ∀ h : Nat, h < n → 0 ≤ entry c h
  total : ∑ h ∈ range n, entry c (h : Int) = 1

theorem project_eq (n : Nat) (v : Int → α) (h : Int) : project n v h = v h * (sumOf n v)⁻¹ := by
  unfold project
  split_ifs with hs
  · rw [one_div]
  · have : sumOf n v = 0 := by
      by_contra hne
      exact hs (abs_pos.2 hne)
    rw [this, inv_zero]

omit [LinearOrder α] [IsStrictOrderedRing α] in
theorem sum_marked {n : Nat} {s : List Int} (hs : ∀ k ∈ s, ∃ h : Nat, k = h ∧ h < n) {f : Int → α} (hf : ∀ k, k ∉ s → f k = 0) :
    ∑ h ∈ range n, f (h : Int) = ∑ k ∈ s.toFinset, f k := by
  have e : ∑ h ∈ range n, f (h : Int) = ∑ k ∈ (range n).image (fun h : Nat => (h : Int)), f k :=
    (sum_image fun a _ b _ h => by exact_mod_cast h).symm
  rw [e]
  refine (sum_subset (fun k hk => ?_) fun k _ hk => hf k fun h => hk (List.mem_toFinset.2 h)).symm
  obtain ⟨h, rfl, hh⟩ := hs k (List.mem_toFinset.1 hk)
  exact mem_image.2 ⟨h, mem_range.2 hh, rfl⟩

/-- The values before clamping add up to what the old values add up to. -/
theorem free_total {n : Nat} {s : List Int} (hn : s.Nodup) (hs : ∀ k ∈ s, ∃ h : Nat, k = h ∧ h < n) {mu : Int → Int → α} (hm : ∀ h j, mu h j = mu j h) (dF y : Int → α) (c : α) :
    ∑ h ∈ range n, (y (h : Int) + c * rates mu dF s h) = ∑ h ∈ range n, y (h : Int) := by
  rw [sum_add_distrib, ← mul_sum, sum_marked hs (fun k hk => rates_unmarked mu dF hk), rates_total hm dF hn, mul_zero, add_zero]

/-- **C63.** The update of a node on the simplex with two or more marked fields gives a node on the simplex. -/
theorem pairValues_simplex {n : Nat} {s : List Int} (hn : s.Nodup) (hs : ∀ k ∈ s, ∃ h : Nat, k = h ∧ h < n) (dt : α) (energy : Int → Int → α) {mu : Int → Int → α}
    (hm : ∀ h j, mu h j = mu j h) (eps w : α → α) (lap : Int → α) {y : Int → α} (hy : ∑ h ∈ range n, y (h : Int) = 1) :
    Simplex n ((List.range n).map fun h : Nat => pairValues dt n energy mu eps w s lap y h) := by
  unfold pairValues
  generalize (forces3 (fun h j => 1 / 2 * eps (energy h j) * eps (energy h j)) (fun h j => w (energy h j)) lap y s fun _ => 0) = dF
  generalize hv : newValue dt (s.length : α) y (rates mu dF s) = v
  have hv0 : ∀ k, 0 ≤ v k := fun k => by rw [← hv]; exact (SparsePF.clamp_range _).1
  have hpos : 0 < sumOf n v := by
    rw [sumOf_eq]
    have ht := free_total hn hs hm dF y (dt * (2 / (s.length : α)))
    rw [hy] at ht
    have : ∃ h ∈ range n, 0 < y (h : Int) + dt * (2 / (s.length : α)) * rates mu dF s h := by
      by_contra hc
      push Not at hc
      have := sum_nonpos hc
      rw [ht] at this
      exact absurd this (not_le.2 zero_lt_one)
    obtain ⟨h, hh, hp⟩ := this
    refine sum_pos' (fun k _ => hv0 k) ⟨h, hh, ?_⟩
    rw [← hv]
    exact SparsePF.clamp_gt hp zero_lt_one
  refine ⟨by simp, fun h hh => ?_, ?_⟩
  · rw [entry_map n (project n v) hh, project_eq]
    exact mul_nonneg (hv0 _) (inv_nonneg.2 hpos.le)
  · rw [sum_congr rfl (g := fun h : Nat => v h * (sumOf n v)⁻¹) fun h hh => by rw [entry_map n (project n v) (mem_range.1 hh), project_eq], ← sum_mul, ← sumOf_eq]
    exact mul_inv_cancel₀ hpos.ne'

omit [IsStrictOrderedRing α] in
/-- One pass of an anisotropic example at one node. -/
theorem anisoCell_eq {g : Shape} (hg : g.Wf) (h0 : g.ghosts = 0) (hr : SparsePF.Reach .serial g) (n : Nat) (dx : Nat → α) (value : List Int → (Int → α) → (Int → α) → Int → α)
    {old : Int → List α} (hf : Full g n old) {i : Int} (hi0 : 0 ≤ i) (hi1 : i < g.nodes) {z : List α} (hz : z.length = n) :
    ∃ (s : List Int) (L : List α), s.Nodup ∧ (∀ k, k ∈ s ↔ ∃ h : Nat, k = h ∧ h < n ∧ Near g old i h) ∧
      (∀ h : Nat, h < n → entry L h = lapl g dx (fun p => entry (old p) h) i) ∧
      anisoCell .serial g n dx value old i z = .ok (if s.length < 2 then old i else (List.range n).map fun h : Nat => value s (entry L) (entry (old i)) h) := by
  obtain ⟨L, e, hl, hv⟩ := laplacianVec_entry hg h0 hr n dx hf hi0 hi1
  obtain ⟨s, es, hn, hs⟩ := marked_spec hg h0 hr hf hi0 hi1
  refine ⟨s, L, hn, hs, hv, ?_⟩
  unfold anisoCell checked
  rw [es, Outcome.ok_bind, deref_node h0 old hi0 hi1, Outcome.ok_bind]
  by_cases h2 : s.length < 2
  · rw [if_pos h2, if_pos h2]
  · rw [if_neg h2, if_neg h2, e, Outcome.ok_bind, if_pos hl.ge, Outcome.ok_bind, if_pos (hf i hi0 hi1).ge, Outcome.ok_bind, fill_eq _ hz]

/-- **C63.** If all nodes start on the simplex, they are on the simplex after any number of steps, and the run never leaves the arrays: whatever the time step, the spacing, the
energies and (symmetric) mobilities. -/
theorem aniso_simplex {g : Shape} (hg : g.Wf) (h0 : g.ghosts = 0) (hr : SparsePF.Reach .serial g) {n : Nat} (dx : Nat → α) (dt : α) (energy : Int → Int → α) {mu : Int → Int → α}
    (hm : ∀ h j, mu h j = mu j h) (eps w : α → α) (steps : Nat) {old new : Int → List α} (hf' : Full g n new) (hb : ∀ p, 0 ≤ p → p < g.nodes → Simplex n (old p)) :
    ∃ r, anisoRun g n dx dt energy mu eps w steps old new = .ok r ∧ ∀ p, 0 ≤ p → p < g.nodes → Simplex n (r.1 p) := by
  suffices hstep : _ by
    obtain ⟨r, e, p, -⟩ := run_inv hg h0 (anisoCell .serial g n dx (pairValues dt n energy mu eps w)) (fun d => ∀ p, 0 ≤ p → p < g.nodes → Simplex n (d p)) (Full g n)
      (fun _ h p a b => (h p a b).length) hstep steps old new hb hf'
    exact ⟨r, e, p⟩
  · intro old new hb hn
    have hf : Full g n old := fun p a b => (hb p a b).length
    have hc : ∀ i, ∃ c : List α, 0 ≤ i → i < g.nodes → anisoCell .serial g n dx (pairValues dt n energy mu eps w) old i (new i) = .ok c ∧ Simplex n c := by
      intro i
      by_cases hi : 0 ≤ i ∧ i < g.nodes
      · obtain ⟨s, L, a, b, c, e⟩ := anisoCell_eq hg h0 hr n dx (pairValues dt n energy mu eps w) hf hi.1 hi.2 (hn i hi.1 hi.2)
        refine ⟨_, fun _ _ => ⟨e, ?_⟩⟩
        split_ifs
        · exact hb i hi.1 hi.2
        · exact pairValues_simplex a (fun k hk => by obtain ⟨h, e, q, -⟩ := (b k).1 hk; exact ⟨h, e, q⟩) dt energy hm eps w _ (hb i hi.1 hi.2).total
      · exact ⟨[], fun a b => absurd ⟨a, b⟩ hi⟩
    choose c hc using hc
    refine ⟨c, fun i a b => (hc i a b).1, fun p a b => ?_⟩
    beta_reduce
    rw [if_pos ⟨a, b⟩]
    exact (hc p a b).2

/-- **C63.** A field spreads by at most one node per step: where it is zero at a node and not positive at its neighbours along the axes, it is zero at the node after the step. -/
theorem aniso_local {g : Shape} (hg : g.Wf) (h0 : g.ghosts = 0) (hr : SparsePF.Reach .serial g) {n : Nat} (dx : Nat → α) (dt : α) (energy mu : Int → Int → α) (eps w : α → α)
    {old : Int → List α} (hf : Full g n old) {i : Int} (hi0 : 0 ≤ i) (hi1 : i < g.nodes) {z : List α} (hz : z.length = n) {h : Nat} (hh : h < n) (hzero : entry (old i) h = 0)
    (hnear : ¬ Near g old i h) :
    ∃ c, anisoCell .serial g n dx (pairValues dt n energy mu eps w) old i z = .ok c ∧ entry c h = 0 := by
  obtain ⟨s, L, -, b, -, e⟩ := anisoCell_eq hg h0 hr n dx (pairValues dt n energy mu eps w) hf hi0 hi1 hz
  refine ⟨_, e, ?_⟩
  split_ifs
  · exact hzero
  · have hs : (h : Int) ∉ s := fun hk => by
      obtain ⟨h', e, -, q⟩ := (b _).1 hk
      have : h = h' := by exact_mod_cast e
      subst this
      exact hnear q
    rw [entry_map n (pairValues dt n energy mu eps w s (entry L) (entry (old i))) hh]
    unfold pairValues
    rw [project_eq]
    unfold newValue
    rw [rates_unmarked mu _ hs, hzero, mul_zero, add_zero, SparsePF.clamp_mem le_rfl zero_le_one, zero_mul]

omit [IsStrictOrderedRing α] in
/-- **C63.** Inside a grain nothing happens: where at most one field is positive at a node and its neighbours, the node is copied. -/
theorem aniso_bulk {g : Shape} (hg : g.Wf) (h0 : g.ghosts = 0) (hr : SparsePF.Reach .serial g) {n : Nat} (dx : Nat → α) (value : List Int → (Int → α) → (Int → α) → Int → α)
    {old : Int → List α} (hf : Full g n old) {i : Int} (hi0 : 0 ≤ i) (hi1 : i < g.nodes) {z : List α} (hz : z.length = n)
    (hone : ∀ h h' : Nat, h < n → h' < n → Near g old i h → Near g old i h' → h = h') : anisoCell .serial g n dx value old i z = .ok (old i) := by
  obtain ⟨s, L, a, b, -, e⟩ := anisoCell_eq hg h0 hr n dx value hf hi0 hi1 hz
  rw [e, if_pos]
  match s, a, b with
  | [], _, _ => decide
  | [_], _, _ => simp
  | k :: k' :: t, a, b =>
    exfalso
    obtain ⟨h, rfl, q1, q2⟩ := (b k).1 (by simp)
    obtain ⟨h', rfl, q1', q2'⟩ := (b k').1 (by simp)
    have := hone h h' q1 q1' q2 q2'
    simp [this] at a

/-! ### Particles -/

omit [LinearOrder α] [IsStrictOrderedRing α] in
theorem pinned_symm {mobility : Int → Int → α} (hm : ∀ h j, mobility h j = mobility j h) (h j : Int) : pinned mobility h j = pinned mobility j h := by
  unfold pinned
  rw [hm, if_congr or_comm rfl rfl]

omit [LinearOrder α] [IsStrictOrderedRing α] in
/-- **C64.** Anisotropic Zener pinning: the rate of the particle field is 0. -/
theorem pinned_rate {mobility : Int → Int → α} (hm : ∀ h j, mobility h j = mobility j h) (dF : Int → α) {s : List Int} (hn : s.Nodup) : rates (pinned mobility) dF s 0 = 0 := by
  by_cases h : (0 : Int) ∈ s
  · rw [rates_spec (pinned_symm hm) dF hn h]
    exact sum_eq_zero fun j _ => by unfold pinned; rw [if_pos (.inl rfl), zero_mul]
  · exact rates_unmarked _ _ h

/-- **C64.** Full property: a step leaves the particle field as it is. It does so at a node on the simplex where no value had to be clamped; missing are the nodes where one had to
(see `pinned_dissolves`). -/
theorem aniso_pinned_partial {n : Nat} (hn0 : 0 < n) {s : List Int} (hn : s.Nodup) (hs : ∀ k ∈ s, ∃ h : Nat, k = h ∧ h < n) (dt : α) (energy : Int → Int → α)
    {mobility : Int → Int → α} (hm : ∀ h j, mobility h j = mobility j h) (eps w : α → α) (lap : Int → α) {y : Int → α} (hy : ∑ h ∈ range n, y (h : Int) = 1)
    (hclamp : ∀ h : Nat, h < n → ∀ v, v = y h + dt * (2 / (s.length : α)) *
      rates (pinned mobility) (forces3 (fun h j => 1 / 2 * eps (energy h j) * eps (energy h j)) (fun h j => w (energy h j)) lap y s fun _ => 0) s h → 0 ≤ v ∧ v ≤ 1) :
    pairValues dt n energy (pinned mobility) eps w s lap y 0 = y 0 := by
  unfold pairValues
  generalize hF : (forces3 (fun h j => 1 / 2 * eps (energy h j) * eps (energy h j)) (fun h j => w (energy h j)) lap y s fun _ => 0) = dF at hclamp ⊢
  have hval : ∀ h : Nat, h < n → newValue dt (s.length : α) y (rates (pinned mobility) dF s) h = y h + dt * (2 / (s.length : α)) * rates (pinned mobility) dF s h := by
    intro h hh
    obtain ⟨a, b⟩ := hclamp h hh _ rfl
    exact SparsePF.clamp_mem a b
  have hsum : sumOf n (newValue dt (s.length : α) y (rates (pinned mobility) dF s)) = 1 := by
    rw [sumOf_eq, sum_congr rfl fun h hh => hval h (mem_range.1 hh), free_total hn hs (pinned_symm hm), hy]
  have h0 := hval 0 hn0
  rw [Int.natCast_zero] at h0
  rw [project_eq, hsum, h0, pinned_rate hm dF hn]
  ring

end

/-! ## Witnesses -/

/-- Particle, grain, grain: fields 0, 1, 2 at the nodes 1, 0 and 3, and a boundary between the grains at node 2. -/
def pin (p : Int) : List ℚ := if p = 1 then [1, 0, 0] else if p = 2 then [0, 1 / 2, 1 / 2] else if p = 3 then [0, 0, 1] else [0, 1, 0]

/-- **C64.** The comment "set mobility of particles to zero" does not keep the particles: one step of the anisotropic Zener example (all energies and mobilities 1, time step and
spacing of the example, `eps²/2 = 32/5`, `w = 1/2`) shrinks the particle at node 1 although every node starts on the simplex. -/
theorem pinned_dissolves :
    (∀ p, 0 ≤ p → p < 4 → Simplex 3 (pin p)) ∧
    ((anisoRun (SparsePF.line 4) 3 (fun _ => 1) (1 / 100) (fun _ _ => 1) (pinned fun _ _ => 1) (fun _ => 18 / 5) (fun _ => 1 / 2) 1 pin fun _ => [0, 0, 0]).bind fun r =>
      .ok (decide (entry (r.1 1) 0 < 1))) = .ok true := by
  refine ⟨fun p a b => ?_, by decide +kernel⟩
  have hp : p = 0 ∨ p = 1 ∨ p = 2 ∨ p = 3 := by omega
  rcases hp with rfl | rfl | rfl | rfl <;> exact ⟨rfl, by decide +kernel, by decide +kernel⟩

/-- The isotropic example started from the same grid keeps the particle. -/
example : ∃ r, isoRun (SparsePF.line 4) 3 (fun _ => 1) (zenerValue (1 / 100) 3) 1000 pin (fun _ => [0, 0, 0]) = .ok r ∧ ∀ p, 0 ≤ p → p < 4 → entry (r.1 p) 0 = entry (pin p) 0 :=
  iso_pinned (SparsePF.line_wf (by decide)) rfl (SparsePF.line_reach (by decide)) (by decide) _ _ _
    (fun p a b => by unfold pin; split_ifs <;> rfl) fun _ _ _ => rfl

/-- The stability limit of the example: spacing 1, `dt = 0.01`, up to 48 fields on a line. -/
example : Stable (SparsePF.line 4) 48 (fun _ => (1 : ℚ)) (1 / 100) := ⟨by decide +kernel, by decide +kernel⟩

example : Bounded (SparsePF.line 4) 3 pin := by
  intro p a b h hh
  have hp : p = 0 ∨ p = 1 ∨ p = 2 ∨ p = 3 := by
    have : p < 4 := b
    omega
  have hq : h = 0 ∨ h = 1 ∨ h = 2 := by omega
  rcases hp with rfl | rfl | rfl | rfl <;> rcases hq with rfl | rfl | rfl <;> decide +kernel

/-- Beyond the limit the bounds fail: with `dt = 1` a node leaves the interval in one step. -/
theorem iso_unstable :
    ((isoRun (SparsePF.line 4) 3 (fun _ => 1) (isoValue 1 3) 1 pin fun _ => [0, 0, 0]).bind fun r => .ok (decide (entry (r.1 1) 0 < 0))) = .ok true := by decide +kernel

example : ∃ r, anisoRun (SparsePF.line 4) 3 (fun _ => 1) (1 / 100) (fun _ _ => 1) (fun _ _ => 1) (fun _ => 18 / 5) (fun _ => 1 / 2) 7 pin (fun _ => [0, 0, 0]) = .ok r ∧
    ∀ p, 0 ≤ p → p < 4 → Simplex 3 (r.1 p) :=
  aniso_simplex (SparsePF.line_wf (by decide)) rfl (SparsePF.line_reach (by decide)) _ _ _ (fun _ _ => rfl) _ _ _ (fun _ _ _ => rfl) pinned_dissolves.1

/-- A boundary node where no value is clamped: the particle field keeps its value 1/4. -/
example : pairValues (1 / 100 : ℚ) 3 (fun _ _ => 1) (pinned fun _ _ => 1) (fun _ => 18 / 5) (fun _ => 1 / 2) [0, 1, 2] (entry [0, 1 / 4, -1 / 4]) (entry [1 / 4, 1 / 4, 1 / 2]) 0 = 1 / 4 := by
  refine aniso_pinned_partial (by decide) (by decide) (fun k hk => ⟨k.toNat, ?_⟩) _ _ (fun _ _ => rfl) _ _ _ (by decide +kernel) fun h hh v hv => ?_
  · simp only [List.mem_cons, List.not_mem_nil, or_false] at hk
    omega
  · subst hv
    have : h = 0 ∨ h = 1 ∨ h = 2 := by omega
    rcases this with rfl | rfl | rfl <;> decide +kernel

/-- Inside a grain: nodes 1, 2, 3 of a line hold field 0 only. -/
example : ∀ h h' : Nat, h < 2 → h' < 2 → Near (SparsePF.line 5) (fun p => if p = 0 then [0, (1 : ℚ)] else [1, 0]) 2 h →
    Near (SparsePF.line 5) (fun p => if p = 0 then [0, (1 : ℚ)] else [1, 0]) 2 h' → h = h' := by
  have key : ∀ h : Nat, h < 2 → Near (SparsePF.line 5) (fun p => if p = 0 then [0, (1 : ℚ)] else [1, 0]) 2 h → h = 0 := by
    intro h hh hn
    by_contra hne
    have : h = 1 := by omega
    subst this
    rcases hn with h | ⟨j, hj, h⟩
    · exact absurd h (by decide +kernel)
    · have : j = 0 := Nat.lt_one_iff.1 hj
      subst this
      exact absurd h (by decide +kernel)
  intro h h' a b c d
  rw [key h a c, key h' b d]

/-- Field 1 sits at node 2 only, so it cannot appear at node 0 in one step. -/
example : ¬ Near (SparsePF.line 5) (fun p => if p = 2 then [0, (1 : ℚ)] else [1, 0]) 0 1 := by
  rintro (h | ⟨j, hj, h⟩)
  · exact absurd h (by decide +kernel)
  · have : j = 0 := Nat.lt_one_iff.1 hj
    subst this
    exact absurd h (by decide +kernel)

end MMSP.DensePF
