import Mathlib.Analysis.SpecialFunctions.Trigonometric.Basic
import Verif.Generate
import Verif.DensePFProps
import Verif.RelaxProps
import Verif.SparseProps
/-!
# Property C71: initial conditions
-/

namespace MMSP.Generate

open Finset
open DensePF (pass pass_eq deref_node)

/-- A serial periodic grid. -/
structure Torus (g : Shape) : Prop where
  wf : g.Wf
  ghosts : g.ghosts = 0
  periodic : ∀ j, j < g.dim → g.b0 j = .periodic ∧ g.b1 j = .periodic

theorem Torus.serial {g : Shape} (h : Torus g) : Conserve.Serial g := ⟨h.wf, h.ghosts, fun j hj => Or.inl (h.periodic j hj)⟩

theorem box_torus {sides : List Int} (h : sides ≠ []) (hp : ∀ s ∈ sides, 0 < s) : Torus (box sides) := by
  refine ⟨⟨List.length_pos_iff.2 h, fun j hj => ?_, le_rfl⟩, rfl, fun _ _ => ⟨rfl, rfl⟩⟩
  change (0 : Int) < sides.getD j 1
  have hj : j < sides.length := hj
  rw [List.getD_eq_getElem _ _ hj]
  exact hp _ (List.getElem_mem hj)

/-! ## Specification -/

/-- Node `q` lies in the cube of side 3 around node `i`, counted periodically. -/
def Around (g : Shape) (i q : Int) : Prop := ∀ k, k < g.dim → ∃ o ∈ [(-1 : Int), 0, 1], (g.x1 k - g.x0 k) ∣ g.position q k - (g.position i k + o)

/-- Node `q` is covered by one of the first `n` particles. -/
def Covered (g : Shape) (rand : Nat → Int) (n : Nat) (q : Int) : Prop := ∃ j < n, Around g (rand j % g.nodes) q

/-! ## The cube -/

theorem mem_cube (x : Nat → Int) (n : Nat) (p : Nat → Int) : p ∈ cube x n ↔ (∀ k, k < n → ∃ o ∈ [(-1 : Int), 0, 1], p k = x k + o) ∧ ∀ k, n ≤ k → p k = x k := by
  induction n generalizing p with
  | zero =>
    rw [cube, List.mem_singleton]
    exact ⟨fun h => ⟨fun k hk => absurd hk (Nat.not_lt_zero k), fun k _ => by rw [h]⟩, fun h => funext fun k => h.2 k (Nat.zero_le k)⟩
  | succ n ih =>
    rw [cube, List.mem_flatMap]
    constructor
    · rintro ⟨q, hq, hp⟩
      obtain ⟨h1, h2⟩ := (ih q).1 hq
      have hv : ∃ o ∈ [(-1 : Int), 0, 1], p = Function.update q n (x n + o) := by
        simp only [List.mem_cons, List.not_mem_nil, or_false] at hp
        rcases hp with rfl | rfl | rfl
        · exact ⟨-1, by simp, rfl⟩
        · exact ⟨0, by simp, by rw [add_zero]⟩
        · exact ⟨1, by simp, rfl⟩
      obtain ⟨o, ho, rfl⟩ := hv
      refine ⟨fun k hk => ?_, fun k hk => ?_⟩
      · by_cases e : k = n
        · subst e; exact ⟨o, ho, by rw [Function.update_self]⟩
        · rw [Function.update_of_ne e]; exact h1 k (by omega)
      · rw [Function.update_of_ne (by omega)]; exact h2 k (by omega)
    · rintro ⟨h1, h2⟩
      refine ⟨Function.update p n (x n), (ih _).2 ⟨fun k hk => ?_, fun k hk => ?_⟩, ?_⟩
      · rw [Function.update_of_ne (by omega)]; exact h1 k (by omega)
      · by_cases e : k = n
        · subst e; rw [Function.update_self]
        · rw [Function.update_of_ne e]; exact h2 k (by omega)
      · obtain ⟨o, ho, e⟩ := h1 n (by omega)
        have hu : ∀ v, Function.update (Function.update p n (x n)) n v = Function.update p n v := fun v => Function.update_idem ..
        rw [hu, hu, hu]
        simp only [List.mem_cons, List.not_mem_nil, or_false] at ho ⊢
        rcases ho with rfl | rfl | rfl
        · left; rw [show x n - 1 = p n by omega, Function.update_eq_self]
        · right; left; rw [show x n = p n by omega, Function.update_eq_self]
        · right; right; rw [← e, Function.update_eq_self]

theorem cube_length (x : Nat → Int) (n : Nat) : (cube x n).length = 3 ^ n := by
  induction n with
  | zero => rfl
  | succ n ih =>
    rw [cube, List.length_flatMap]
    simp only [List.length_cons, List.length_nil]
    rw [List.map_const', List.sum_replicate, ih, pow_succ]
    rfl

variable {g : Shape}

/-- A point near a node is a node, at a congruent position. -/
theorem near_node (h : Torus g) {p : Nat → Int} {i : Int} (i0 : 0 ≤ i) (i1 : i < g.nodes) (hp : ∀ k, k < g.dim → ∃ o ∈ [(-1 : Int), 0, 1], p k = g.position i k + o) :
    ∃ q, g.atVec .serial p = q ∧ 0 ≤ q ∧ q < g.nodes ∧ ∀ k, k < g.dim → (g.x1 k - g.x0 k) ∣ g.position q k - p k := by
  have hn := Shape.position_isNode h.wf i0 i1
  let y : Nat → Int := fun k => checkBoundary .serial (p k) (g.x0 k) (g.x1 k) (g.b0 k) (g.b1 k)
  have hy : ∀ k, k < g.dim → (g.x0 k ≤ y k ∧ y k < g.x1 k) ∧ (g.x1 k - g.x0 k) ∣ y k - p k := by
    intro k hk
    obtain ⟨o, ho, e⟩ := hp k hk
    obtain ⟨b0, b1⟩ := h.periodic k hk
    have hs := h.wf.side k hk
    have hx := hn k hk
    have hr : p k = g.position i k - 1 ∨ p k = g.position i k ∨ p k = g.position i k + 1 := by
      simp only [List.mem_cons, List.not_mem_nil, or_false] at ho
      omega
    have ey : y k = checkBoundary .serial (p k) (g.x0 k) (g.x1 k) (g.b0 k) (g.b1 k) := rfl
    rw [ey]
    unfold checkBoundary
    rw [b0, b1]
    simp only [reduceCtorEq, or_self, if_false, and_self, if_true]
    split_ifs with c1 c2
    · exact ⟨⟨by omega, by omega⟩, ⟨1, by omega⟩⟩
    · exact ⟨⟨by omega, by omega⟩, ⟨-1, by omega⟩⟩
    · exact ⟨⟨by omega, by omega⟩, ⟨0, by omega⟩⟩
  obtain ⟨q, ⟨q0, q1, q2⟩, -⟩ := Shape.position_surj h.wf (x := y) fun k hk => (hy k hk).1
  refine ⟨q, ?_, q0, q1, fun k hk => by rw [q2 k hk]; exact (hy k hk).2⟩
  rw [Shape.atVec_eq_raw .serial (y := y) fun _ _ => rfl]
  have := Shape.atNode_eq_atVec h.wf .serial (fun _ => h.ghosts) q0 q1
  rw [Shape.atVec_eq_raw .serial (y := y) fun k hk => ?_] at this
  · exact this.symm
  · rw [q2 k hk]; exact checkBoundary_inside _ _ _ _ _ _ (hy k hk).1

theorem node_congr (h : Torus g) {q r : Int} (q0 : 0 ≤ q) (q1 : q < g.nodes) (r0 : 0 ≤ r) (r1 : r < g.nodes)
    (hd : ∀ k, k < g.dim → (g.x1 k - g.x0 k) ∣ g.position q k - g.position r k) : q = r := by
  refine Shape.position_inj h.wf q0 q1 r0 r1 fun k hk => ?_
  have a := Shape.position_isNode h.wf q0 q1 k hk
  have b := Shape.position_isNode h.wf r0 r1 k hk
  have := Int.eq_zero_of_abs_lt_dvd (hd k hk) (by rw [abs_lt]; omega)
  omega

/-- The cells visited for a particle are the nodes around its centre. -/
theorem cube_addresses (h : Torus g) {i : Int} (i0 : 0 ≤ i) (i1 : i < g.nodes) (q : Int) :
    q ∈ (cube (g.position i) g.dim).map (g.atVec .serial) ↔ (0 ≤ q ∧ q < g.nodes) ∧ Around g i q := by
  rw [List.mem_map]
  constructor
  · rintro ⟨p, hp, rfl⟩
    obtain ⟨h1, -⟩ := (mem_cube _ _ _).1 hp
    obtain ⟨q, e, q0, q1, hd⟩ := near_node h i0 i1 h1
    rw [e]
    refine ⟨⟨q0, q1⟩, fun k hk => ?_⟩
    obtain ⟨o, ho, e⟩ := h1 k hk
    exact ⟨o, ho, by rw [← e]; exact hd k hk⟩
  · rintro ⟨⟨q0, q1⟩, ha⟩
    have : ∀ k, ∃ o, k < g.dim → o ∈ [(-1 : Int), 0, 1] ∧ (g.x1 k - g.x0 k) ∣ g.position q k - (g.position i k + o) := by
      intro k
      by_cases hk : k < g.dim
      · obtain ⟨o, ho⟩ := ha k hk
        exact ⟨o, fun _ => ho⟩
      · exact ⟨0, fun h => absurd h hk⟩
    choose o ho using this
    let p : Nat → Int := fun k => if k < g.dim then g.position i k + o k else g.position i k
    have hp : ∀ k, k < g.dim → ∃ o ∈ [(-1 : Int), 0, 1], p k = g.position i k + o := fun k hk => ⟨o k, (ho k hk).1, if_pos hk⟩
    refine ⟨p, (mem_cube _ _ _).2 ⟨hp, fun k hk => if_neg (by omega)⟩, ?_⟩
    obtain ⟨r, e, r0, r1, hd⟩ := near_node h i0 i1 hp
    rw [e]
    refine node_congr h r0 r1 q0 q1 fun k hk => ?_
    have e1 : p k = g.position i k + o k := if_pos hk
    have a := hd k hk
    rw [e1] at a
    have := Int.dvd_sub a (ho k hk).2
    rwa [sub_sub_sub_cancel_right] at this

/-! ## Marking -/

section
variable {V : Type}

/-- Marking a list of cells. -/
theorem mark_list (mark : V → Outcome V) (Q R : V → Prop) (hm : ∀ c, Q c → ∃ w, mark c = .ok w ∧ Q w ∧ R w) (h0 : g.ghosts = 0) {X : Type} (f : X → Int) :
    ∀ (ps : List X) (data : Int → V), (∀ p ∈ ps, 0 ≤ f p ∧ f p < g.nodes) → (∀ q, 0 ≤ q → q < g.nodes → Q (data q)) →
    ∃ out, ps.foldlM (fun data p => (deref g data (f p)).bind fun c => (mark c).bind fun c => store g data (f p) c) data = Outcome.ok out ∧
      (∀ q, 0 ≤ q → q < g.nodes → Q (out q)) ∧ (∀ q ∈ ps.map f, R (out q)) ∧ ∀ q ∉ ps.map f, out q = data q := by
  intro ps
  induction ps with
  | nil => intro data _ hQ; exact ⟨data, rfl, hQ, fun q hq => (by cases hq), fun _ _ => rfl⟩
  | cons p ps ih =>
    intro data hp hQ
    obtain ⟨p0, p1⟩ := hp p (List.mem_cons_self ..)
    obtain ⟨w, e, hw, hr⟩ := hm _ (hQ _ p0 p1)
    have hc : g.cells = g.nodes := DensePF.cells_eq h0
    obtain ⟨out, eo, h1, h2, h3⟩ := ih (Function.update data (f p) w) (fun p hp' => hp p (List.mem_cons_of_mem _ hp')) (fun q q0 q1 => by
      by_cases e : q = f p
      · rw [e, Function.update_self]; exact hw
      · rw [Function.update_of_ne e]; exact hQ q q0 q1)
    refine ⟨out, ?_, h1, fun q hq => ?_, fun q hq => ?_⟩
    · rw [List.foldlM_cons]
      have e1 : deref g data (f p) = .ok (data (f p)) := if_pos ⟨p0, by rw [hc]; exact p1⟩
      have e2 : store g data (f p) w = .ok (Function.update data (f p) w) := if_pos ⟨p0, by rw [hc]; exact p1⟩
      rw [e1, Outcome.ok_bind, e, Outcome.ok_bind, e2]
      exact eo
    · by_cases hin : q ∈ ps.map f
      · exact h2 q hin
      · rw [h3 q hin]
        rw [List.map_cons, List.mem_cons] at hq
        rcases hq with rfl | hq
        · rw [Function.update_self]; exact hr
        · exact absurd hq hin
    · rw [List.map_cons, List.mem_cons, not_or] at hq
      rw [h3 q hq.2, Function.update_of_ne hq.1]

/-- **C71.** Particles mark exactly the covered nodes, and no access leaves the grid. -/
theorem particles_spec (h : Torus g) (mark : V → Outcome V) (Q R : V → Prop) (hm : ∀ c, Q c → ∃ w, mark c = .ok w ∧ Q w ∧ R w) {rand : Nat → Int} (hr : ∀ j, 0 ≤ rand j) (n : Nat)
    (data : Int → V) (hQ : ∀ q, 0 ≤ q → q < g.nodes → Q (data q)) :
    ∃ out, particles g mark rand n data = .ok out ∧ (∀ q, 0 ≤ q → q < g.nodes → Q (out q) ∧ (Covered g rand n q → R (out q)) ∧ (¬ Covered g rand n q → out q = data q)) := by
  have hpos : 0 < g.nodes := by
    rw [Shape.nodes_eq h.wf]
    exact Finset.prod_pos fun j hj => by have := h.wf.side j (Finset.mem_range.1 hj); omega
  induction n with
  | zero => exact ⟨data, rfl, fun q q0 q1 => ⟨hQ q q0 q1, fun ⟨j, hj, _⟩ => absurd hj (Nat.not_lt_zero j), fun _ => rfl⟩⟩
  | succ n ih =>
    obtain ⟨mid, em, hmid⟩ := ih
    have et : Int.tmod (rand n) g.nodes = rand n % g.nodes := Int.tmod_eq_emod_of_nonneg (hr n)
    have i0 : 0 ≤ rand n % g.nodes := Int.emod_nonneg _ hpos.ne'
    have i1 : rand n % g.nodes < g.nodes := Int.emod_lt_of_pos _ hpos
    have ha := cube_addresses h i0 i1
    obtain ⟨out, eo, h1, h2, h3⟩ := mark_list mark Q R hm h.ghosts (g.atVec .serial) (cube (g.position (rand n % g.nodes)) g.dim) mid
      (fun p hp => ((ha _).1 (List.mem_map.2 ⟨p, hp, rfl⟩)).1) fun q q0 q1 => (hmid q q0 q1).1
    refine ⟨out, ?_, fun q q0 q1 => ⟨h1 q q0 q1, ?_, ?_⟩⟩
    · unfold particles at em ⊢
      rw [List.range_succ, List.foldlM_append, em]
      simp only [Outcome.bind_eq, Outcome.ok_bind, List.foldlM_cons, List.foldlM_nil, Outcome.pure_eq]
      unfold particle
      rw [et, eo]
      rfl
    · rintro ⟨j, hj, hc⟩
      by_cases hin : q ∈ (cube (g.position (rand n % g.nodes)) g.dim).map (g.atVec .serial)
      · exact h2 q hin
      · rw [h3 q hin]
        have : j ≠ n := by
          rintro rfl
          exact hin ((ha q).2 ⟨⟨q0, q1⟩, hc⟩)
        exact (hmid q q0 q1).2.1 ⟨j, by omega, hc⟩
    · intro hc
      have hin : q ∉ (cube (g.position (rand n % g.nodes)) g.dim).map (g.atVec .serial) := fun hin => hc ⟨n, by omega, ((ha q).1 hin).2⟩
      rw [h3 q hin]
      exact (hmid q q0 q1).2.2 fun ⟨j, hj, hj'⟩ => hc ⟨j, by omega, hj'⟩

end

/-! ## Grain growth -/

section
variable {α : Type}

/-- Vector with a single 1. -/
def unit [Zero α] [One α] (n k : Nat) : List α := (List.range n).map fun h => if h = k then 1 else 0

/-- All nodes hold `v`, with every entry written. -/
def Holds {β : Type} (g : Shape) (out v : Int → β) : Prop := ∀ q, 0 ≤ q → q < g.nodes → out q = v q

/-- **C71.** The isotropic phase-field example: every entry is written, every node is in grain 1 or 0. -/
theorem isoDense_spec [Zero α] [One α] (h : Torus g) :
    ∃ out : Int → List (Option α), isoDense g = .ok out ∧ Holds g out fun q => (unit 2 (if inside g.dim (g.position q) then 1 else 0)).map some := by
  unfold isoDense
  rw [pass_eq h.wf h.ghosts _ _ (fun q => (unit 2 (if inside g.dim (g.position q) then 1 else 0)).map some) fun i _ _ => ?_]
  · exact ⟨_, rfl, fun q a b => if_pos ⟨a, b⟩⟩
  · unfold isoNode
    cases inside g.dim (g.position i) <;> rfl

/-- **C71.** The anisotropic phase-field example: every entry is written, every node belongs to one of four grains. -/
theorem anisoDense_spec [Zero α] [One α] (h : Torus g) :
    ∃ out : Int → List (Option α), anisoDense g = .ok out ∧ Holds g out fun q => (unit 4 (quarter g.dim (g.position q))).map some := by
  unfold anisoDense
  rw [pass_eq h.wf h.ghosts _ _ (fun q => (unit 4 (quarter g.dim (g.position q))).map some) fun i _ _ => ?_]
  · exact ⟨_, rfl, fun q a b => if_pos ⟨a, b⟩⟩
  · have hq : quarter g.dim (g.position i) < 4 := by
      unfold quarter
      dsimp only
      split_ifs <;> omega
    unfold anisoNode
    generalize quarter g.dim (g.position i) = k at hq
    obtain rfl | rfl | rfl | rfl : k = 0 ∨ k = 1 ∨ k = 2 ∨ k = 3 := by omega
    all_goals rfl

/-! ## Zener pinning -/

/-- **C71.** The dense Zener examples: what every node holds, for all random numbers. Outside the grains and the particles, field 2 is never written. -/
theorem zenerDense_spec [Zero α] [One α] (h : Torus g) {rand : Nat → Int} (hr : ∀ j, 0 ≤ rand j) :
    ∃ out : Int → List (Option α), zenerDense g rand = .ok out ∧ ∀ q, 0 ≤ q → q < g.nodes →
      (Covered g rand (nParticles g.nodes) q → out q = [some 1, some 0, some 0]) ∧
      (¬ Covered g rand (nParticles g.nodes) q → out q = if inside g.dim (g.position q) then [some 0, some 0, some 1] else [some 0, some 1, none]) := by
  unfold zenerDense
  rw [pass_eq h.wf h.ghosts _ _ (fun q => if inside g.dim (g.position q) then [some 0, some 0, some 1] else [some 0, some 1, none]) fun i _ _ => ?_, Outcome.ok_bind]
  · obtain ⟨out, e, ho⟩ := particles_spec h markDense (fun c : List (Option α) => c.length = 3) (fun c => c = [some 1, some 0, some 0])
      (fun c hc => by
        match c, hc with
        | [a, b, c], _ => exact ⟨_, rfl, rfl, rfl⟩) hr (nParticles g.nodes)
      (fun p => if 0 ≤ p ∧ p < g.nodes then (if inside g.dim (g.position p) then [some 0, some 0, some 1] else [some 0, some 1, none]) else List.replicate 3 none)
      fun q a b => by rw [if_pos ⟨a, b⟩]; split_ifs <;> rfl
    refine ⟨out, e, fun q a b => ⟨(ho q a b).2.1, fun hc => ?_⟩⟩
    rw [(ho q a b).2.2 hc, if_pos ⟨a, b⟩]
  · unfold zenerNode
    cases inside g.dim (g.position i) <;> rfl

/-- **C71.** The sparse Zener examples: exactly one field of every node is 1, all others 0. -/
theorem zenerSparse_spec [Zero α] [One α] (h : Torus g) {rand : Nat → Int} (hr : ∀ j, 0 ≤ rand j) :
    ∃ out : Int → Sparse.Cell α, zenerSparse g rand = .ok out ∧ ∀ q, 0 ≤ q → q < g.nodes → Sparse.Ok (out q) ∧
      (Covered g rand (nParticles g.nodes) q → ∀ k, Sparse.get (out q) k = if k = 0 then 1 else 0) ∧
      (¬ Covered g rand (nParticles g.nodes) q → ∀ k, Sparse.get (out q) k = if k = (if inside g.dim (g.position q) then 2 else 1) then 1 else 0) := by
  unfold zenerSparse
  rw [pass_eq h.wf h.ghosts (fun i c => .ok (Sparse.update c (if inside g.dim (g.position i) then 2 else 1) fun _ => 1)) _ (fun q => [((if inside g.dim (g.position q) then 2 else 1 : Int), (1 : α))]) fun i _ _ => rfl, Outcome.ok_bind]
  obtain ⟨out, e, ho⟩ := particles_spec h markSparse (fun c : Sparse.Cell α => Sparse.Ok c ∧ ∀ k, k ≠ 0 → k ≠ 1 → k ≠ 2 → Sparse.get c k = 0)
    (fun c => ∀ k, Sparse.get c k = if k = 0 then 1 else 0)
    (fun c hc => by
      have hg : ∀ k, Sparse.get (Sparse.update (Sparse.update (Sparse.update c 0 fun _ => 1) 1 fun _ => 0) 2 fun _ => 0) k = if k = 0 then 1 else 0 := by
        intro k
        rw [Sparse.get_update, Sparse.get_update, Sparse.get_update]
        split_ifs <;> first | rfl | omega | skip
        exact hc.2 k (by omega) (by omega) (by omega)
      refine ⟨_, rfl, ⟨((hc.1.update _ _).update _ _).update _ _, fun k k0 _ _ => ?_⟩, hg⟩
      rw [hg k, if_neg k0]) hr (nParticles g.nodes) (fun p => if 0 ≤ p ∧ p < g.nodes then [((if inside g.dim (g.position p) then 2 else 1 : Int), (1 : α))] else [])
    (fun q a b => by
      rw [if_pos ⟨a, b⟩]
      refine ⟨by simp [Sparse.Ok, Sparse.keys], fun k k0 k1 k2 => ?_⟩
      rw [Sparse.get_cons, if_neg (by split_ifs <;> exact Ne.symm ‹_›), Sparse.get_nil])
  refine ⟨out, e, fun q a b => ⟨(ho q a b).1.1, (ho q a b).2.1, fun hc k => ?_⟩⟩
  rw [(ho q a b).2.2 hc, if_pos ⟨a, b⟩, Sparse.get_cons, Sparse.get_nil]
  by_cases e : k = (if inside g.dim (g.position q) then 2 else 1)
  · rw [if_pos e.symm, if_pos e]
  · rw [if_neg (fun h => e h.symm), if_neg e]

/-- **C71.** The Monte Carlo Zener examples. -/
theorem zenerMC_spec (h : Torus g) {rand : Nat → Int} (hr : ∀ j, 0 ≤ rand j) (old : Int → Int) :
    ∃ out, zenerMC g rand old = .ok out ∧ ∀ q, 0 ≤ q → q < g.nodes →
      (Covered g rand (nParticles g.nodes) q → out q = 0) ∧ (¬ Covered g rand (nParticles g.nodes) q → out q = if inside g.dim (g.position q) then 2 else 1) := by
  unfold zenerMC
  rw [pass_eq h.wf h.ghosts (fun i _ => .ok (if inside g.dim (g.position i) then 2 else 1)) _ (fun q => if inside g.dim (g.position q) then 2 else 1) fun i _ _ => rfl, Outcome.ok_bind]
  obtain ⟨out, e, ho⟩ := particles_spec h (fun _ => .ok 0) (fun _ : Int => True) (fun c => c = 0) (fun _ _ => ⟨0, rfl, trivial, rfl⟩) hr (nParticles g.nodes)
    (fun p => if 0 ≤ p ∧ p < g.nodes then (if inside g.dim (g.position p) then 2 else 1) else old p) fun _ _ _ => trivial
  exact ⟨out, e, fun q a b => ⟨(ho q a b).2.1, fun hc => by rw [(ho q a b).2.2 hc, if_pos ⟨a, b⟩]⟩⟩

/-- At most `3^dim` nodes are covered by a particle. -/
theorem exists_uncovered (h : Torus g) {rand : Nat → Int} {n m : Nat} (hm : (m : Int) ≤ g.nodes) (hlt : n * 3 ^ g.dim < m) : ∃ q : Nat, q < m ∧ ¬ Covered g rand n q := by
  by_contra hne
  push Not at hne
  have hpos : 0 < g.nodes := by omega
  let f : Nat → List Int := fun j => (cube (g.position (rand j % g.nodes)) g.dim).map (g.atVec .serial)
  have hsub : ((Finset.range m).image fun q : Nat => (q : Int)) ⊆ ((List.range n).flatMap f).toFinset := by
    intro q hq
    obtain ⟨k, hk, rfl⟩ := Finset.mem_image.1 hq
    have hk := Finset.mem_range.1 hk
    obtain ⟨j, hj, ha⟩ := hne k hk
    rw [List.mem_toFinset, List.mem_flatMap]
    exact ⟨j, List.mem_range.2 hj, (cube_addresses h (Int.emod_nonneg _ hpos.ne') (Int.emod_lt_of_pos _ hpos) _).2 ⟨⟨by omega, by omega⟩, ha⟩⟩
  have hc := Finset.card_le_card hsub
  rw [Finset.card_image_of_injective _ Nat.cast_injective, Finset.card_range] at hc
  have hl := List.toFinset_card_le ((List.range n).flatMap f)
  have hf : ((List.range n).flatMap f).length = n * 3 ^ g.dim := by
    rw [List.length_flatMap]
    have : (fun j => (f j).length) = fun _ => 3 ^ g.dim := funext fun j => by rw [List.length_map, cube_length]
    rw [this, List.map_const', List.sum_replicate, List.length_range]
    rfl
  omega

/-- **C71.** In two dimensions (256 × 256) the dense Zener examples write numbers to the file that they never set, whatever the random numbers. -/
theorem zener2_unset [Zero α] [One α] {rand : Nat → Int} (hr : ∀ j, 0 ≤ rand j) :
    ∃ out : Int → List (Option α), zenerDense (box [256, 256]) rand = .ok out ∧ ∃ q, 0 ≤ q ∧ q < (box [256, 256]).nodes ∧ out q = [some 0, some 1, none] := by
  have h : Torus (box [256, 256]) := box_torus (by simp) (by decide)
  have hn : (box [256, 256]).nodes = 65536 := by decide +kernel
  obtain ⟨out, e, ho⟩ := zenerDense_spec (α := α) h hr
  obtain ⟨q, hq, hc⟩ := exists_uncovered h (rand := rand) (n := nParticles (box [256, 256]).nodes) (m := 512) (by rw [hn]; decide) (by rw [hn]; decide +kernel)
  refine ⟨out, e, q, by omega, by omega, ?_⟩
  rw [(ho q (by omega) (by omega)).2 hc]
  have hp : (box [256, 256]).position q 0 = q / 256 := by
    unfold Shape.position digit digitRest
    have : (box [256, 256]).xx 0 = 256 := by decide +kernel
    rw [this, Int.tdiv_eq_ediv_of_nonneg (by omega)]
    exact add_zero _
  rw [if_neg]
  unfold inside
  rw [hp, Int.tmod_eq_emod_of_nonneg (by omega)]
  rw [if_neg (show ¬ (box [256, 256]).dim = 1 by decide)]
  have h2 : (q : Int) / 256 % 64 = 0 ∨ (q : Int) / 256 % 64 = 1 := by omega
  have h3 := sq_nonneg (32 - Int.tmod ((box [256, 256]).position q 1) 64)
  rw [decide_eq_true_iff]
  rcases h2 with h2 | h2 <;> rw [h2] <;> omega

/-- **C71.** The same in three dimensions (128 × 64 × 16). -/
theorem zener3_unset [Zero α] [One α] {rand : Nat → Int} (hr : ∀ j, 0 ≤ rand j) :
    ∃ out : Int → List (Option α), zenerDense (box [128, 64, 16]) rand = .ok out ∧ ∃ q, 0 ≤ q ∧ q < (box [128, 64, 16]).nodes ∧ out q = [some 0, some 1, none] := by
  have h : Torus (box [128, 64, 16]) := box_torus (by simp) (by decide)
  have hn : (box [128, 64, 16]).nodes = 131072 := by decide +kernel
  obtain ⟨out, e, ho⟩ := zenerDense_spec (α := α) h hr
  obtain ⟨q, hq, hc⟩ := exists_uncovered h (rand := rand) (n := nParticles (box [128, 64, 16]).nodes) (m := 2048) (by rw [hn]; decide) (by rw [hn]; decide +kernel)
  refine ⟨out, e, q, by omega, by omega, ?_⟩
  rw [(ho q (by omega) (by omega)).2 hc]
  have hp : (box [128, 64, 16]).position q 0 = q / 1024 := by
    unfold Shape.position digit digitRest
    have : (box [128, 64, 16]).xx 0 = 1024 := by decide +kernel
    rw [this, Int.tdiv_eq_ediv_of_nonneg (by omega)]
    exact add_zero _
  rw [if_neg]
  unfold inside
  rw [hp, Int.tmod_eq_emod_of_nonneg (by omega)]
  rw [if_neg (show ¬ (box [128, 64, 16]).dim = 1 by decide)]
  have h2 : (q : Int) / 1024 % 64 = 0 ∨ (q : Int) / 1024 % 64 = 1 := by omega
  have h3 := sq_nonneg (32 - Int.tmod ((box [128, 64, 16]).position q 1) 64)
  rw [decide_eq_true_iff]
  rcases h2 with h2 | h2 <;> rw [h2] <;> omega

/-- **C71.** In one dimension all nodes may be covered by chance, so that nothing is left unset (400 particles on 1024 nodes). -/
theorem zener1_by_chance : nParticles (box [1024]).nodes = 400 ∧ ∀ q, 0 ≤ q → q < (box [1024]).nodes → Covered (box [1024]) (fun j => 3 * j + 1) 400 q := by
  have hn : (box [1024]).nodes = 1024 := by decide +kernel
  refine ⟨by rw [hn]; decide +kernel, fun q q0 q1 => ?_⟩
  rw [hn] at q1
  have hp : ∀ i : Int, 0 ≤ i → (box [1024]).position i 0 = i := by
    intro i hi
    unfold Shape.position digit digitRest
    have : (box [1024]).xx 0 = 1 := by decide +kernel
    rw [this, Int.tdiv_one]
    exact add_zero _
  refine ⟨(q / 3).toNat, by omega, fun k hk => ?_⟩
  have hk : k = 0 := Nat.lt_one_iff.1 hk
  subst hk
  rw [hp q q0, hn, hp _ (Int.emod_nonneg _ (by decide))]
  change ∃ o ∈ [(-1 : Int), 0, 1], (1024 - 0 : Int) ∣ _
  have e : ((q / 3).toNat : Int) = q / 3 := Int.toNat_of_nonneg (by omega)
  beta_reduce
  rw [e]
  refine ⟨q - (3 * (q / 3) + 1), ?_, ?_⟩
  · have : q - (3 * (q / 3) + 1) = -1 ∨ q - (3 * (q / 3) + 1) = 0 ∨ q - (3 * (q / 3) + 1) = 1 := by omega
    simpa using this
  · omega

/-! ## Shape of the grains -/

/-- **C71.** In two and three dimensions the second grain fills disks of radius 16 around the points 32 (mod 64). -/
theorem inside_disk {d : Nat} (hd : d ≠ 1) {x : Nat → Int} (h0 : 0 ≤ x 0) (h1 : 0 ≤ x 1) : inside d x = true ↔ (x 0 % 64 - 32) ^ 2 + (x 1 % 64 - 32) ^ 2 < 16 ^ 2 := by
  unfold inside
  rw [if_neg hd, decide_eq_true_iff, Int.tmod_eq_emod_of_nonneg h0, Int.tmod_eq_emod_of_nonneg h1, sub_sq_comm, sub_sq_comm 32 (x 1 % 64)]
  rfl

/-- **C71.** In one dimension the distance is taken without its absolute value: the second grain fills 47 of 64 nodes (17 to 63) instead of the 31 around 32. -/
theorem inside_line {x : Nat → Int} (h0 : 0 ≤ x 0) : inside 1 x = true ↔ 17 ≤ x 0 % 64 := by
  unfold inside
  rw [if_pos rfl, decide_eq_true_iff, Int.tmod_eq_emod_of_nonneg h0]
  omega

/-- **C71.** In the sparse example the remainder is missing too: all but the first 17 nodes belong to one grain. -/
theorem insideSparse_line (x : Nat → Int) : insideSparse 1 x = true ↔ 17 ≤ x 0 := by
  unfold insideSparse
  rw [if_pos rfl, decide_eq_true_iff]
  omega

/-- **C71.** The dense and sparse isotropic examples start from different grains in one dimension. -/
theorem dense_sparse_differ : ∃ x : Nat → Int, 0 ≤ x 0 ∧ x 0 < 1024 ∧ inside 1 x ≠ insideSparse 1 x := ⟨fun _ => 64, by decide, by decide, by decide⟩

end

/-! ## From the start to the end of a run -/

section
variable {α : Type} [Field α] [LinearOrder α] [IsStrictOrderedRing α]

theorem unit_simplex {n k : Nat} (hk : k < n) : DensePF.Simplex n (unit n k : List α) := by
  have he : ∀ h : Nat, h < n → DensePF.entry (unit n k : List α) (h : Int) = if h = k then 1 else 0 := by
    intro h hh
    unfold unit DensePF.entry
    rw [if_pos (by omega), Int.toNat_natCast, List.getD_eq_getElem _ _ (by simpa using hh)]
    simp
  refine ⟨by unfold unit; simp, fun h hh => ?_, ?_⟩
  · rw [he h hh]; split_ifs <;> norm_num
  · rw [Finset.sum_congr rfl fun h hh => he h (Finset.mem_range.1 hh), Finset.sum_ite_eq' , if_pos (Finset.mem_range.2 hk)]

/-- **C71.** Anisotropic grain growth from `generate` on: for any number of steps, energies and symmetric mobilities, the fields of every node are not negative and add up to 1. -/
theorem anisoDense_run (h : Torus g) (dx : Nat → α) (dt : α) (energy : Int → Int → α) {mu : Int → Int → α} (hm : ∀ h j, mu h j = mu j h) (eps w : α → α) (steps : Nat) {new : Int → List α}
    (hf : DensePF.Full g 4 new) :
    ∃ (out : Int → List (Option α)) (old : Int → List α), anisoDense g = .ok out ∧ Holds g out (fun q => (old q).map some) ∧
      ∃ r, DensePF.anisoRun g 4 dx dt energy mu eps w steps old new = .ok r ∧ ∀ p, 0 ≤ p → p < g.nodes → DensePF.Simplex 4 (r.1 p) := by
  obtain ⟨out, e, ho⟩ := anisoDense_spec (α := α) h
  refine ⟨out, fun q => unit 4 (quarter g.dim (g.position q)), e, ho, ?_⟩
  refine DensePF.aniso_simplex h.wf h.ghosts (Relax.reach_of_serial h.serial) dx dt energy hm eps w steps hf fun p _ _ => unit_simplex ?_
  unfold quarter
  dsimp only
  split_ifs <;> omega

/-- **C71.** Isotropic grain growth from `generate` on: with a stable time step all fields stay between 0 and 1. -/
theorem isoDense_run (h : Torus g) {dx : Nat → α} {dt : α} (hst : DensePF.Stable g 2 dx dt) (steps : Nat) {new : Int → List α} (hf : DensePF.Full g 2 new) :
    ∃ (out : Int → List (Option α)) (old : Int → List α), isoDense g = .ok out ∧ Holds g out (fun q => (old q).map some) ∧
      ∃ r, DensePF.isoRun g 2 dx (DensePF.isoValue dt 2) steps old new = .ok r ∧ DensePF.Bounded g 2 r.1 := by
  obtain ⟨out, e, ho⟩ := isoDense_spec (α := α) h
  have hs : ∀ q, DensePF.Simplex 2 (unit 2 (if inside g.dim (g.position q) then 1 else 0) : List α) := fun q => unit_simplex (by split_ifs <;> omega)
  refine ⟨out, fun q => unit 2 (if inside g.dim (g.position q) then 1 else 0), e, ho, ?_⟩
  obtain ⟨r, er, -, hb⟩ := DensePF.iso_bounded h.wf h.ghosts (Relax.reach_of_serial h.serial) hst (Or.inl rfl) steps (old := fun q => unit 2 (if inside g.dim (g.position q) then 1 else 0))
    (fun p _ _ => (hs p).length) hf fun p _ _ k hk => ⟨(hs p).nonneg k hk, by
      have := (hs p).total
      rw [← this]
      exact Finset.single_le_sum (f := fun h : Nat => DensePF.entry (unit 2 (if inside g.dim (g.position p) then 1 else 0) : List α) (h : Int)) (fun i hi => (hs p).nonneg i (Finset.mem_range.1 hi)) (Finset.mem_range.2 hk)⟩
  exact ⟨r, er, hb⟩

/-- **C71.** Allen-Cahn from `generate` on: all values stay between -1 and 1, for all random numbers. -/
theorem allenCahn_run (h : Torus g) {dx : Nat → α} {dt m r u k : α} (hc : Relax.Confined g dx (dt * m) r u k 0 1) {randMax : Int} (hmax : 0 < randMax) {rand : Nat → Int}
    (hr : ∀ n, 0 ≤ rand n ∧ rand n ≤ randMax) (steps : Nat) (junk new : Int → α) :
    ∃ out, random g (signed randMax) rand junk = .ok out ∧ ∃ s, Relax.acRun g dx dt m r u k steps out new = .ok s ∧ Relax.Between g (-1) 1 s.1 := by
  unfold random
  rw [pass_eq h.wf h.ghosts (fun i _ => .ok (signed randMax (rand i.toNat))) _ (fun i => signed randMax (rand i.toNat)) fun _ _ _ => rfl]
  refine ⟨_, rfl, Relax.allenCahn_bounded h.wf h.ghosts (Relax.reach_of_serial h.serial) hc steps fun q a b => ?_⟩
  beta_reduce
  rw [if_pos ⟨a, b⟩]
  obtain ⟨l, u⟩ := hr q.toNat
  have hm : (0 : α) < randMax := by exact_mod_cast hmax
  have l' : (0 : α) ≤ rand q.toNat := by exact_mod_cast l
  have u' : (rand q.toNat : α) ≤ randMax := by exact_mod_cast u
  have h1 : 0 ≤ (rand q.toNat : α) / randMax := div_nonneg l' hm.le
  have h2 : (rand q.toNat : α) / randMax ≤ 1 := (div_le_one hm).2 u'
  unfold signed
  rw [mul_div_assoc]
  constructor <;> linarith

end

/-! ## Smaller examples -/

/-- **C71.** Ising starts from spins -1 and 1. -/
theorem spin_spec {r : Int} (h : 0 ≤ r) : (spin r = 1 ↔ r % 2 = 1) ∧ (spin r = -1 ↔ r % 2 = 0) := by
  unfold spin
  rw [Int.tmod_eq_emod_of_nonneg h]
  omega

/-- **C71.** Potts and Monte Carlo grain growth start from the `q` states `0 ... q-1`. -/
theorem choice_spec {q r : Int} (hq : 0 < q) (h : 0 ≤ r) : 0 ≤ choice q r ∧ choice q r < q ∧ q ∣ r - choice q r := by
  unfold choice
  rw [Int.tmod_eq_emod_of_nonneg h]
  exact ⟨Int.emod_nonneg _ hq.ne', Int.emod_lt_of_pos _ hq, Int.dvd_self_sub_emod⟩

/-- **C71.** Ostwald ripening starts with fields that add up to 1. -/
theorem ostwaldNode_spec {α : Type} [Field α] (randMax r : Int) : ∃ a b : α, ostwaldNode randMax r [none, none] = .ok [some a, some b] ∧ a + b = 1 := ⟨_, _, rfl, by ring⟩

/-- **C71.** Solidification starts with a seed of radius below 6 (`int r` cuts off the fraction, so it is larger than the radius 5 of the comment). -/
theorem seedNode_spec {α : Type} [Field α] (u : α) (x : Nat → Int) :
    seedNode 128 u x [none, none] = .ok [some (if (x 0 - 64) ^ 2 + (x 1 - 64) ^ 2 < 6 ^ 2 then 1 else 0), some u] := by
  have h : Int.sqrt ((x 0 - Int.tdiv 128 2) ^ 2 + (x 1 - Int.tdiv 128 2) ^ 2) ≤ 5 ↔ (x 0 - 64) ^ 2 + (x 1 - 64) ^ 2 < 6 ^ 2 := by
    have e : Int.tdiv 128 2 = 64 := by decide
    rw [e]
    have hn : 0 ≤ (x 0 - 64) ^ 2 + (x 1 - 64) ^ 2 := by positivity
    obtain ⟨n, hn⟩ := Int.eq_ofNat_of_zero_le hn
    rw [hn]
    unfold Int.sqrt
    rw [Int.toNat_natCast]
    have : Nat.sqrt n < 6 ↔ n < 6 * 6 := Nat.sqrt_lt
    omega
  change Outcome.ok [some (if Int.sqrt ((x 0 - Int.tdiv 128 2) ^ 2 + (x 1 - Int.tdiv 128 2) ^ 2) ≤ 5 then (1 : α) else 0), some u] = _
  simp only [h]

/-! ## Examples -/

example : Torus (box [256, 256]) := box_torus (by simp) (by decide)

example : DensePF.Stable (box [64, 64]) 2 (fun _ => (1 : ℚ)) (1 / 100) := ⟨by norm_num, by
  have : (box [64, 64]).dim = 2 := rfl
  rw [this]
  simp only [Finset.sum_range_succ, Finset.sum_range_zero]
  norm_num⟩

example : (match isoDense (α := ℚ) (box [64]) with | .ok d => decide (d 5 = [some 1, some 0] ∧ d 40 = [some 0, some 1]) | _ => false) = true := by decide +kernel

end MMSP.Generate
