import Verif.StencilField
import Mathlib.Algebra.BigOperators.Ring.Finset
import Mathlib.Algebra.BigOperators.Field
import Mathlib.Tactic.LinearCombination
/-!
# Discrete conservation on serial grids

Model of the explicit Cahn-Hilliard update (`examples/phase_transitions/cahn-hilliard/explicit/cahn-hilliard.cpp` 47-81) and
of model B (`examples/phase_transitions/model_B/model_B.cpp` 74-112) in a serial build, where `ghostswap` does nothing.
The three grids `oldGrid`, `newGrid`, `temp` have the same shape, spacing and boundary conditions: the latter two are copy
constructed from the first (C48). Progress output is not modelled.
-/

namespace MMSP.Conserve

open Finset MMSP.Stencil

/-! ## Model -/

section Ops
variable {T : Type} [Zero T] [One T] [Add T] [Sub T] [Mul T] [Div T] [Neg T]

/-- `for (int i=0; i<nodes(GRID); i++) GRID(i) = f(i);` as in cahn-hilliard.cpp 67-70 and 73-74. -/
def forNodes (bd : Build) (g : Shape) (f : Int → Outcome T) (out : Int → T) : Outcome (Int → T) :=
  (List.range g.nodes.toNat).foldlM
    (fun out (i : Nat) => (f i).bind fun v => store g out (g.atNode bd i) v) out

/-- `oldGrid`, `newGrid`, `temp` (their data arrays). -/
structure Fields (T : Type) where
  old : Int → T
  new : Int → T
  temp : Int → T

/-- One pass of cahn-hilliard.cpp 67-77 / model_B.cpp 92-107: `mu i phi lap` is the right-hand side assigned to `temp(i)`, `c` is
`dt*M`. -/
def step (g : Shape) (dx : Nat → T) (mu : Int → T → T → T) (c : T) (s : Fields T) : Outcome (Fields T) :=
  (forNodes .serial g (fun i => (deref g s.old (g.atNode .serial i)).bind fun phi =>
    (laplacianNode .serial g dx s.old i).bind fun l => .ok (mu i phi l)) s.temp).bind fun temp =>
  (forNodes .serial g (fun i => (deref g s.old (g.atNode .serial i)).bind fun phi =>
    (laplacianNode .serial g dx temp i).bind fun l => .ok (phi + c * l)) s.new).bind fun new =>
  .ok { old := new, new := s.old, temp := temp }

/-- The time loop of `update(oldGrid, steps)`; the potential may depend on the step (random noise of model B). -/
def update (g : Shape) (dx : Nat → T) (mu : Nat → Int → T → T → T) (c : T) : Nat → Fields T → Outcome (Fields T)
  | 0, s => .ok s
  | n + 1, s => (update g dx mu c n s).bind (step g dx (mu n) c)

/-- cahn-hilliard.cpp 69: `-r*phi+u*pow(phi,3)-K*laplacian(oldGrid,i)`. -/
def chPotential (r u k phi l : T) : T := -r * phi + u * (phi * phi * phi) - k * l

/-- model_B.cpp 95: the same plus noise. -/
def modelBPotential (r u k phi l noise : T) : T := -r * phi + u * (phi * phi * phi) - k * l + noise

end Ops

/-! ## Specification -/

/-- An axis on which no mass can leave: periodic on both sides, or clamped (Neumann or Dirichlet flag) on both sides. -/
def Closed (b0 b1 : BC) : Prop :=
  (b0 = .periodic ∧ b1 = .periodic) ∨
  ((b0 = .neumann ∨ b0 = .dirichlet) ∧ (b1 = .neumann ∨ b1 = .dirichlet))

instance (b0 b1 : BC) : Decidable (Closed b0 b1) := by unfold Closed; infer_instance

/-- Total mass: the sum of `GRID(i)` over all nodes. -/
def total {K : Type} [AddCommMonoid K] (g : Shape) (data : Int → K) : K := ∑ i ∈ range g.nodes.toNat, data i

/-- A serial grid all of whose axes are closed. -/
structure Serial (g : Shape) : Prop where
  wf : g.Wf
  ghosts : g.ghosts = 0
  closed : ∀ j < g.dim, Closed (g.b0 j) (g.b1 j)

/-! ## Proofs -/

/-- Neighbouring coordinate on a closed axis. -/
theorem checkBoundary_closed {x0 x1 c : Int} {b0 b1 : BC} (hb : Closed b0 b1) (h0 : x0 ≤ c) (h1 : c < x1) :
    checkBoundary .serial (c + 1) x0 x1 b0 b1 =
        (if c + 1 < x1 then c + 1 else if b1 = .periodic then x0 else c) ∧
    checkBoundary .serial (c - 1) x0 x1 b0 b1 =
        (if x0 ≤ c - 1 then c - 1 else if b0 = .periodic then x1 - 1 else c) := by
  unfold Closed at hb
  rcases hb with ⟨rfl, rfl⟩ | ⟨h | h, h' | h'⟩ <;> subst_vars <;> simp only [checkBoundary] <;>
    constructor <;> split_ifs <;> simp_all <;> omega

section
variable {g : Shape} (hs : Serial g)
include hs

/-- Array index of the neighbour of node `n` on axis `i`, upwards or downwards. -/
def nb (g : Shape) (i : Nat) (n : Int) (up : Bool) : Int :=
  g.atVec .serial (bump (g.position n) i (if up then 1 else -1))

theorem sx_eq : g.sx = g.xx := by
  have h := hs.ghosts
  unfold Shape.sx Shape.xx
  exact slice_congr fun j _ => by simp [Shape.s0, Shape.s1, h]

theorem cells_eq_nodes : g.cells = g.nodes := by
  unfold Shape.cells Shape.nodes
  rw [sx_eq hs]; simp [Shape.s0, Shape.s1, hs.ghosts]

theorem isCell_of_isNode {x : Nat → Int} (hx : g.IsNode x) : g.IsCell x := by
  intro j hj; have := hx j hj; have := hs.ghosts; omega

theorem position_rawOffset {x : Nat → Int} (hx : g.IsNode x) :
    0 ≤ g.rawOffset x ∧ g.rawOffset x < g.nodes ∧ ∀ j < g.dim, g.position (g.rawOffset x) j = x j := by
  have hb := Shape.rawOffset_bounds hs.wf (isCell_of_isNode hs hx)
  rw [cells_eq_nodes hs] at hb
  refine ⟨hb.1, hb.2, fun j hj => ?_⟩
  have h0 := hs.ghosts
  have hr : g.rawOffset x = encode g.dim g.xx fun j => x j - g.x0 j := by
    unfold Shape.rawOffset; rw [sx_eq hs]; exact encode_congr fun j _ => by simp [Shape.s0, h0]
  rw [hr, Shape.position]
  have := digit_encode (Shape.inBox_of_isNode hx) hj
  have e : digit g.xx (encode g.dim g.xx fun j => x j - g.x0 j) j = x j - g.x0 j := this
  omega

theorem nb_spec {i : Nat} (hi : i < g.dim) {n : Int} (h0 : 0 ≤ n) (h1 : n < g.nodes) (up : Bool) :
    0 ≤ nb g i n up ∧ nb g i n up < g.nodes ∧ ∀ j < g.dim, g.position (nb g i n up) j =
      if j = i then checkBoundary .serial (g.position n i + if up then 1 else -1) (g.x0 i) (g.x1 i) (g.b0 i) (g.b1 i)
      else g.position n j := by
  have hp := Shape.position_isNode hs.wf h0 h1
  let y : Nat → Int := fun j =>
    if j = i then checkBoundary .serial (g.position n i + if up then 1 else -1) (g.x0 i) (g.x1 i) (g.b0 i) (g.b1 i)
      else g.position n j
  have e : nb g i n up = g.rawOffset y := by
    unfold nb
    apply Shape.atVec_eq_raw
    intro j hj
    by_cases e : j = i
    · subst e; simp [y, bump]
    · simp only [y, bump, if_neg e, Function.update_of_ne e]
      exact checkBoundary_inside _ _ _ _ _ _ (hp j hj)
  have hy : g.IsNode y := by
    intro j hj
    by_cases e : j = i
    · subst e
      have hpj := hp j hj
      have hc := checkBoundary_closed (hs.closed j hj) hpj.1 hpj.2
      simp only [y, if_true]
      cases up
      · simp only [Bool.false_eq_true, if_false, ← sub_eq_add_neg, hc.2]; split_ifs <;> omega
      · simp only [if_true, hc.1]; split_ifs <;> omega
    · simp only [y, if_neg e]; exact hp j hj
  rw [e]
  exact position_rawOffset hs hy

theorem node_ext {n m : Int} (h0 : 0 ≤ n) (h1 : n < g.nodes) (h0' : 0 ≤ m) (h1' : m < g.nodes)
    (h : ∀ j < g.dim, g.position n j = g.position m j) : n = m := Shape.position_inj hs.wf h0 h1 h0' h1' h

omit hs in
/-- Crossing a closed face: the edge `(n, up)` seen from the other end. -/
def cross (g : Shape) (i : Nat) (e : Int × Bool) : Int × Bool :=
  (nb g i e.1 e.2,
    if e.2 then (if g.position e.1 i + 1 < g.x1 i ∨ g.b1 i = .periodic then false else true)
    else (if g.x0 i ≤ g.position e.1 i - 1 ∨ g.b0 i = .periodic then true else false))

theorem cross_cross {i : Nat} (hi : i < g.dim) {n : Int} (h0 : 0 ≤ n) (h1 : n < g.nodes) (up : Bool) :
    cross g i (cross g i (n, up)) = (n, up) := by
  obtain ⟨m0, m1, mp⟩ := nb_spec hs hi h0 h1 up
  have hp := Shape.position_isNode hs.wf h0 h1 i hi
  have hc := checkBoundary_closed (hs.closed i hi) hp.1 hp.2
  have hmi := mp i hi
  have hcl := hs.closed i hi
  simp only [if_true] at hmi
  have goal : ∀ up' : Bool, (∀ j < g.dim, g.position (nb g i (nb g i n up) up') j = g.position n j) →
      nb g i (nb g i n up) up' = n := by
    intro up' hj
    obtain ⟨k0, k1, -⟩ := nb_spec hs hi m0 m1 up'
    exact node_ext hs k0 k1 h0 h1 hj
  have other : ∀ (up' : Bool), checkBoundary .serial (g.position (nb g i n up) i + if up' then 1 else -1) (g.x0 i) (g.x1 i)
      (g.b0 i) (g.b1 i) = g.position n i → nb g i (nb g i n up) up' = n := by
    intro up' h
    refine goal up' fun j hj => ?_
    rw [(nb_spec hs hi m0 m1 up').2.2 j hj]
    by_cases e : j = i
    · rw [if_pos e, h, e]
    · rw [if_neg e, mp j hj, if_neg e]
  have hq := Shape.position_isNode hs.wf m0 m1 i hi
  have hc' := checkBoundary_closed (hs.closed i hi) hq.1 hq.2
  unfold Closed at hcl
  cases up with
  | true =>
    simp only [if_true, hc.1] at hmi
    simp only [cross, if_true]
    by_cases hint : g.position n i + 1 < g.x1 i
    · simp only [hint, true_or, if_true] at hmi ⊢
      have h2 := other false (by
        simp only [Bool.false_eq_true, if_false, ← sub_eq_add_neg]
        rw [hc'.2, hmi, if_pos (by omega)]; omega)
      simp only [Bool.false_eq_true, if_false, h2]
      rw [if_pos (Or.inl (by omega))]
    · by_cases hper : g.b1 i = .periodic
      · have hb0 : g.b0 i = .periodic := by rcases hcl with h | h <;> simp_all
        simp only [hint, hper, or_true, if_true, if_false] at hmi ⊢
        have h2 := other false (by
          simp only [Bool.false_eq_true, if_false, ← sub_eq_add_neg]
          rw [hc'.2, hmi, if_neg (by omega), if_pos hb0]; omega)
        simp only [Bool.false_eq_true, if_false, h2]
        rw [if_pos (Or.inr hb0)]
      · simp only [hint, hper, or_false, if_false] at hmi ⊢
        have h2 := other true (by
          simp only [if_true]
          rw [hc'.1, hmi, if_neg (by omega), if_neg hper])
        simp only [h2, if_true]
        rw [if_neg (by rw [hmi]; simp [hint])]
  | false =>
    simp only [Bool.false_eq_true, if_false, ← sub_eq_add_neg, hc.2] at hmi
    simp only [cross, Bool.false_eq_true, if_false]
    by_cases hint : g.x0 i ≤ g.position n i - 1
    · simp only [hint, true_or, if_true] at hmi ⊢
      have h2 := other true (by
        simp only [if_true]
        rw [hc'.1, hmi, if_pos (by omega)]; omega)
      simp only [h2]
      rw [if_pos (Or.inl (by omega))]
    · by_cases hper : g.b0 i = .periodic
      · have hb1 : g.b1 i = .periodic := by rcases hcl with h | h <;> simp_all
        simp only [hint, hper, or_true, if_true, if_false] at hmi ⊢
        have h2 := other true (by
          simp only [if_true]
          rw [hc'.1, hmi, if_neg (by omega), if_pos hb1]; omega)
        simp only [h2]
        rw [if_pos (Or.inr hb1)]
      · simp only [hint, hper, or_false, if_false] at hmi ⊢
        have h2 := other false (by
          simp only [Bool.false_eq_true, if_false, ← sub_eq_add_neg]
          rw [hc'.2, hmi, if_neg (by omega), if_neg hper])
        simp only [Bool.false_eq_true, if_false, h2]
        rw [if_neg (by rw [hmi]; simp [hint])]

theorem inReach {n : Int} (h0 : 0 ≤ n) (h1 : n < g.nodes) : InReach .serial g (g.position n) := by
  apply inReach_serial hs.wf (Shape.position_isNode hs.wf h0 h1)
  · intro j hj; have := hs.closed j hj; unfold Closed at this
    rcases this with h | ⟨h | h, h' | h'⟩ <;> simp [*]
  · intro j hj hm; exfalso; have := hs.closed j hj; unfold Closed at this
    rcases this with h | ⟨h | h, h' | h'⟩ <;> simp_all

theorem view_position {K : Type} (data : Int → K) {n : Int} (h0 : 0 ≤ n) (h1 : n < g.nodes) :
    view .serial g data (g.position n) = data n := by
  unfold view
  rw [← Shape.atNode_eq_atVec hs.wf .serial (fun _ => hs.ghosts) h0 h1]; rfl

variable {K : Type} [Field K]

/-- On a closed axis the neighbour values, summed over all nodes and both directions, are twice the total. -/
theorem axis_sum (data : Int → K) {i : Nat} (hi : i < g.dim) :
    ∑ n ∈ range g.nodes.toNat, (data (nb g i n true) + data (nb g i n false)) = 2 * total g data := by
  have hmem : ∀ a : Nat, a ∈ range g.nodes.toNat → (0 : Int) ≤ a ∧ (a : Int) < g.nodes := by
    intro a ha; rw [Finset.mem_range] at ha; omega
  have step : ∑ e ∈ range g.nodes.toNat ×ˢ (Finset.univ : Finset Bool), data (nb g i (e.1 : Int) e.2) =
      ∑ e ∈ range g.nodes.toNat ×ˢ (Finset.univ : Finset Bool), data (e.1 : Int) := by
    have hcast : ∀ e ∈ range g.nodes.toNat ×ˢ (Finset.univ : Finset Bool),
        ((nb g i (e.1 : Int) e.2).toNat : Int) = nb g i e.1 e.2 := by
      intro e he
      have hm := hmem e.1 (Finset.mem_product.mp he).1
      have := (nb_spec hs hi hm.1 hm.2 e.2).1
      omega
    let f : Nat × Bool → Nat × Bool := fun e => ((cross g i (e.1, e.2)).1.toNat, (cross g i (e.1, e.2)).2)
    have hmaps : ∀ e ∈ range g.nodes.toNat ×ˢ (Finset.univ : Finset Bool),
        f e ∈ range g.nodes.toNat ×ˢ (Finset.univ : Finset Bool) := by
      intro e he
      have hm := hmem e.1 (Finset.mem_product.mp he).1
      have := nb_spec hs hi hm.1 hm.2 e.2
      simp only [f, cross, Finset.mem_product, Finset.mem_range, Finset.mem_univ, and_true]
      omega
    have hinv : ∀ e ∈ range g.nodes.toNat ×ˢ (Finset.univ : Finset Bool), f (f e) = e := by
      intro e he
      have hm := hmem e.1 (Finset.mem_product.mp he).1
      have hc := cross_cross hs hi hm.1 hm.2 e.2
      have h1 : (((f e).1 : Nat) : Int) = (cross g i (e.1, e.2)).1 := hcast e he
      have h2 : ((((f e).1 : Nat) : Int), (f e).2) = cross g i (e.1, e.2) := Prod.ext h1 rfl
      show ((cross g i ((((f e).1 : Nat) : Int), (f e).2)).1.toNat, (cross g i ((((f e).1 : Nat) : Int), (f e).2)).2) = e
      rw [h2, hc]
      simp
    refine Finset.sum_nbij' f f hmaps hmaps hinv hinv ?_
    intro e he
    have h1 : (((f e).1 : Nat) : Int) = nb g i e.1 e.2 := hcast e he
    rw [h1]
  rw [Finset.sum_product, Finset.sum_product] at step
  simp only [Fintype.sum_bool] at step
  rw [step, total, Finset.mul_sum]
  exact Finset.sum_congr rfl fun n _ => by ring

/-- **C29.** On a serial grid whose axes are periodic on both sides or clamped on both sides, the sum of
`laplacian(GRID, i)` over all nodes is zero. -/
theorem laplacian_conserves (dx : Nat → K) (data : Int → K) :
    ∃ lap : Int → K, (∀ n, 0 ≤ n → n < g.nodes → laplacianNode .serial g dx data n = .ok (lap n)) ∧ total g lap = 0 := by
  refine ⟨fun n => ∑ i ∈ range g.dim, (data (nb g i n true) - 2 * data n + data (nb g i n false)) / dx i ^ 2, ?_, ?_⟩
  · intro n h0 h1
    unfold laplacianNode
    rw [laplacian_eq .serial dx data _ (inReach hs h0 h1), view_position hs data h0 h1]
    rfl
  · unfold total
    rw [Finset.sum_comm]
    refine Finset.sum_eq_zero fun i hi => ?_
    rw [← Finset.sum_div]
    have h := axis_sum hs data (Finset.mem_range.mp hi)
    have : ∑ n ∈ range g.nodes.toNat, (data (nb g i n true) - 2 * data n + data (nb g i n false)) =
        (∑ n ∈ range g.nodes.toNat, (data (nb g i n true) + data (nb g i n false))) - 2 * total g data := by
      rw [total, Finset.mul_sum, ← Finset.sum_sub_distrib]
      exact Finset.sum_congr rfl fun n _ => by ring
    rw [this, h]; simp

end

/-! ## The update loops -/

theorem forNodes_eq {T : Type} {g : Shape} (hs : Serial g) (f : Int → Outcome T) (v : Int → T) (out : Int → T)
    (h : ∀ n, 0 ≤ n → n < g.nodes → f n = .ok (v n)) :
    forNodes .serial g f out = .ok (fun p => if 0 ≤ p ∧ p < g.nodes then v p else out p) := by
  have key : ∀ k : Nat, (k : Int) ≤ g.nodes →
      (List.range k).foldlM (fun out (i : Nat) => (f i).bind fun v => store g out (g.atNode .serial i) v) out =
        .ok (fun p => if 0 ≤ p ∧ p < k then v p else out p) := by
    intro k
    induction k with
    | zero =>
      intro _
      have : (fun p : Int => if 0 ≤ p ∧ p < ((0 : Nat) : Int) then v p else out p) = out := by
        funext p; exact if_neg (by omega)
      rw [this]; rfl
    | succ k ih =>
      intro hk
      rw [List.range_succ, List.foldlM_append, ih (by omega)]
      simp only [List.foldlM_cons, List.foldlM_nil, Outcome.bind_eq, Outcome.ok_bind, Outcome.pure_eq,
        h k (by omega) (by omega)]
      have hc : 0 ≤ (k : Int) ∧ (k : Int) < g.cells := by rw [cells_eq_nodes hs]; omega
      have hst : ∀ d : Int → T, store g d (g.atNode .serial k) (v k) = .ok (Function.update d k (v k)) := by
        intro d; unfold store; exact if_pos hc
      rw [hst]
      simp only [Outcome.ok_bind, Outcome.ok.injEq]
      funext p
      by_cases e : p = k
      · subst e; rw [Function.update_self, if_pos (by omega)]
      · rw [Function.update_of_ne e]
        by_cases hp : 0 ≤ p ∧ p < k
        · rw [if_pos hp, if_pos (by omega)]
        · rw [if_neg hp, if_neg (by omega)]
  unfold forNodes
  have hn : ((g.nodes.toNat : Nat) : Int) ≤ g.nodes := by
    have : 0 ≤ g.nodes := by rw [Shape.nodes_eq hs.wf]; exact Finset.prod_nonneg fun j hj => by
                              have := hs.wf.side j (Finset.mem_range.mp hj); omega
    omega
  rw [key _ hn]
  congr 1
  funext p
  by_cases hp : 0 ≤ p ∧ p < g.nodes
  · rw [if_pos hp, if_pos (by omega)]
  · rw [if_neg hp, if_neg (by omega)]

variable {K : Type} [Field K]

/-- One pass conserves the total and never touches memory outside the arrays. -/
theorem step_conserves {g : Shape} (hs : Serial g) (dx : Nat → K) (mu : Int → K → K → K) (c : K) (s : Fields K) :
    ∃ s', step g dx mu c s = .ok s' ∧ total g s'.old = total g s.old ∧ s'.new = s.old := by
  obtain ⟨lap, l1, -⟩ := laplacian_conserves hs dx s.old
  have hd : ∀ (n : Int), 0 ≤ n → n < g.nodes → deref g s.old (g.atNode .serial n) = .ok (s.old n) := by
    intro n h0 h1; unfold deref; exact if_pos ⟨h0, by rw [cells_eq_nodes hs]; exact h1⟩
  have t1 := forNodes_eq hs (fun i => (deref g s.old (g.atNode .serial i)).bind fun phi =>
    (laplacianNode .serial g dx s.old i).bind fun l => .ok (mu i phi l)) (fun n => mu n (s.old n) (lap n)) s.temp
    (by intro n h0 h1; simp only [hd n h0 h1, l1 n h0 h1, Outcome.ok_bind])
  generalize htemp : (fun p => if 0 ≤ p ∧ p < g.nodes then mu p (s.old p) (lap p) else s.temp p) = temp at t1
  obtain ⟨lap2, m1, m2⟩ := laplacian_conserves hs dx temp
  have t2 := forNodes_eq hs (fun i => (deref g s.old (g.atNode .serial i)).bind fun phi =>
    (laplacianNode .serial g dx temp i).bind fun l => .ok (phi + c * l)) (fun n => s.old n + c * lap2 n) s.new
    (by intro n h0 h1; simp only [hd n h0 h1, m1 n h0 h1, Outcome.ok_bind])
  refine ⟨_, by unfold step; rw [t1, Outcome.ok_bind, t2, Outcome.ok_bind], ?_, rfl⟩
  have : total g (fun p => if 0 ≤ p ∧ p < g.nodes then s.old p + c * lap2 p else s.new p) =
      total g s.old + c * total g lap2 := by
    unfold total
    rw [Finset.mul_sum, ← Finset.sum_add_distrib]
    refine Finset.sum_congr rfl fun n hn => ?_
    rw [Finset.mem_range] at hn
    exact if_pos (by omega)
  simp only [this, m2, mul_zero, add_zero]

/-- **C29.** On a serial grid whose axes are periodic on both sides or clamped on both sides, every number of steps of the
explicit conservative update conserves the total, whatever the chemical potential. -/
theorem update_conserves {g : Shape} (hs : Serial g) (dx : Nat → K) (mu : Nat → Int → K → K → K) (c : K) (n : Nat)
    (s : Fields K) : ∃ s', update g dx mu c n s = .ok s' ∧ total g s'.old = total g s.old := by
  induction n with
  | zero => exact ⟨s, rfl, rfl⟩
  | succ n ih =>
    obtain ⟨s1, e1, h1⟩ := ih
    obtain ⟨s2, e2, h2, -⟩ := step_conserves hs dx (mu n) c s1
    exact ⟨s2, by rw [update, e1, Outcome.ok_bind, e2], h2.trans h1⟩

/-- **C29.** The Cahn-Hilliard example. -/
theorem cahnHilliard_conserves {g : Shape} (hs : Serial g) (dx : Nat → K) (r u k m dt : K) (n : Nat) (s : Fields K) :
    ∃ s', update g dx (fun _ _ phi l => chPotential r u k phi l) (dt * m) n s = .ok s' ∧
      total g s'.old = total g s.old := update_conserves hs dx _ _ n s

/-- **C29.** Model B: the same whatever random numbers are drawn. -/
theorem modelB_conserves {g : Shape} (hs : Serial g) (dx : Nat → K) (r u k m dt : K) (noise : Nat → Int → K) (n : Nat)
    (s : Fields K) :
    ∃ s', update g dx (fun t i phi l => modelBPotential r u k phi l (noise t i)) (dt * m) n s = .ok s' ∧
      total g s'.old = total g s.old := update_conserves hs dx _ _ n s

/-! ## Witnesses -/

/-- A 3 x 4 grid, periodic on axis 0 and with Neumann/Dirichlet flags on axis 1. -/
def box : Shape where
  dim := 2
  x0 := fun j => if j = 0 then -1 else 5
  x1 := fun j => if j = 0 then 2 else 9
  b0 := fun j => if j = 0 then .periodic else .neumann
  b1 := fun j => if j = 0 then .periodic else .dirichlet
  ghosts := 0

theorem box_serial : Serial box := by
  refine ⟨⟨by decide, ?_, by decide⟩, rfl, ?_⟩
  · intro j hj; simp only [box]; split <;> decide
  · intro j hj; simp only [box]; split <;> decide

example : ∃ s', update (T := ℚ) box (fun _ => 1) (fun _ _ phi l => chPotential 1 1 1 phi l) (1 / 100 * 1) 1000
    ⟨fun p => p, fun _ => 0, fun _ => 0⟩ = .ok s' ∧ total box s'.old = 66 := by
  obtain ⟨s', h1, h2⟩ := cahnHilliard_conserves box_serial (fun _ => 1) 1 1 1 1 (1 / 100) 1000 ⟨fun p => (p : ℚ), fun _ => 0, fun _ => 0⟩
  refine ⟨s', h1, h2.trans ?_⟩
  have : box.nodes.toNat = 12 := by decide
  simp only [total, this]
  norm_num [Finset.sum_range_succ]

/-- Three nodes on a line. -/
def line (b0 b1 : BC) : Shape where
  dim := 1
  x0 := fun _ => 0
  x1 := fun _ => 3
  b0 := fun _ => b0
  b1 := fun _ => b1
  ghosts := 0

/-- The field 1, 0, 0. -/
def spike (p : Int) : Int := if p = 0 then 1 else 0

/-- Sum of the Laplacian over the nodes of `line` (spacing one, so integers suffice). -/
def lapTotal (b0 b1 : BC) : List (Outcome Int) :=
  [0, 1, 2].map fun n => laplacianNode .serial (line b0 b1) (fun _ => 1) spike n

/-- **C29 (negative).** Mirror boundaries do not conserve: the Laplacians of the field 1, 0, 0 are -2, 1, 0. -/
theorem mirror_not_conserving : lapTotal .mirror .mirror = [.ok (-2), .ok 1, .ok 0] := by decide

/-- **C29 (negative).** Nor does an axis that is periodic on one side only: the Laplacians are -1, 1, 1. -/
theorem mixed_not_conserving : lapTotal .neumann .periodic = [.ok (-1), .ok 1, .ok 1] := by decide

example : lapTotal .periodic .periodic = [.ok (-2), .ok 1, .ok 1] := by decide
example : lapTotal .neumann .dirichlet = [.ok (-1), .ok 1, .ok 0] := by decide

end MMSP.Conserve
