import Verif.ConvexSplitProps
import Mathlib.Algebra.Order.Chebyshev
/-!
# The Cahn-Hilliard example with convex splitting: iteration, mass and energy
-/

namespace MMSP.ConvexSplit

open Conserve (Serial nb nb_spec cross cross_cross total view_position inReach cells_eq_nodes axis_sum)
open Stencil (gridAt bump)

/-! ## Red-black iteration -/

section Iteration
variable {α : Type} [Field α] {g : Shape}

/-- No determinant vanishes. -/
def Solvable (p : Params α) (g : Shape) (dx : Nat → α) : Prop := ∀ c, det p g dx c ≠ 0

/-- Visits one node after another. -/
def sweep (p : Params α) (g : Shape) (dx : Nat → α) (old : Int → α × α) (order : List Nat) (new : Int → α × α) : Int → α × α :=
  order.foldl (fun new (n : Nat) => Function.update new (n : Int) (relax p g dx old new n)) new

/-- The nodes of a pass. -/
def visited (g : Shape) (color : Int) (order : List Nat) : List Nat := order.filter fun n => !skipped g color n

theorem passIn_ok (hs : Serial g) {p : Params α} (hp : Linearised p) {dx : Nat → α} (hd : Solvable p g dx) (color : Int) (old : Int → α × α) :
    ∀ (order : List Nat) (new : Int → α × α), (∀ n ∈ order, (n : Int) < g.nodes) → passIn order p g dx color old new = .ok (sweep p g dx old (visited g color order) new) := by
  intro order
  induction order with
  | nil => intro new _; rfl
  | cons n rest ih =>
    intro new h
    have hn := h n (by simp)
    have hc : 0 ≤ (n : Int) ∧ (n : Int) < g.cells := by rw [cells_eq_nodes hs]; omega
    have ih' := fun new => ih new fun m hm => h m (by simp [hm])
    unfold passIn at ih' ⊢
    rw [List.foldlM_cons]
    by_cases e : skipped g color n
    · rw [if_pos e]
      simp only [Outcome.bind_eq, Outcome.ok_bind]
      rw [ih']
      simp [visited, e]
    · rw [if_neg e, node_ok hs hp dx old new (by omega) hn (hd _), Outcome.ok_bind]
      have hst : store g new (g.atNode .serial n) (relax p g dx old new n) = .ok (Function.update new (n : Int) (relax p g dx old new n)) := if_pos hc
      rw [hst]
      simp only [Outcome.bind_eq, Outcome.ok_bind]
      rw [ih']
      simp [visited, sweep, e]

theorem nodes_pos (hs : Serial g) : 0 ≤ g.nodes := by
  rw [Shape.nodes_eq hs.wf]; exact Finset.prod_nonneg fun j hj => by have := hs.wf.side j (Finset.mem_range.mp hj); omega

/-- All nodes an iteration visits, in this order. -/
def visits (g : Shape) : List Nat := visited g 1 (List.range g.nodes.toNat) ++ visited g 0 (List.range g.nodes.toNat)

theorem mem_range_nodes (hs : Serial g) {n : Nat} (h : n ∈ List.range g.nodes.toNat) : (n : Int) < g.nodes := by
  have := nodes_pos hs; have := List.mem_range.mp h; omega

theorem iteration_ok (hs : Serial g) {p : Params α} (hp : Linearised p) {dx : Nat → α} (hd : Solvable p g dx) (old new : Int → α × α) :
    iteration p g dx old new = .ok (sweep p g dx old (visits g) new) := by
  unfold iteration pass
  rw [passIn_ok hs hp hd 1 old _ new fun n hn => mem_range_nodes hs hn, Outcome.ok_bind, passIn_ok hs hp hd 0 old _ _ fun n hn => mem_range_nodes hs hn]
  simp [sweep, visits]

omit [Field α] in
theorem mem_visited {color : Int} {order : List Nat} {n : Nat} : n ∈ visited g color order ↔ n ∈ order ∧ Int.tmod (∑ d ∈ Finset.range g.dim, g.position n d) 2 ≠ color := by
  simp [visited, skipped]

omit [Field α] in
/-- Every node is visited. -/
theorem visits_all {n : Nat} (h : n < g.nodes.toNat) : n ∈ visits g := by
  rw [visits, List.mem_append, mem_visited, mem_visited]
  simp only [List.mem_range, h, true_and]
  by_contra hcon
  push Not at hcon
  omega

/-- No node has a negative coordinate. -/
def Nonneg (g : Shape) : Prop := ∀ i < g.dim, 0 ≤ g.x0 i

theorem parity (hs : Serial g) (hg : Nonneg g) {n : Int} (h0 : 0 ≤ n) (h1 : n < g.nodes) :
    Int.tmod (∑ d ∈ Finset.range g.dim, g.position n d) 2 = (∑ d ∈ Finset.range g.dim, g.position n d) % 2 := by
  apply Int.tmod_eq_emod_of_nonneg
  exact Finset.sum_nonneg fun d hd => by
    have := Shape.position_isNode hs.wf h0 h1 d (Finset.mem_range.mp hd)
    have := hg d (Finset.mem_range.mp hd)
    omega

theorem visits_nodup (hs : Serial g) (hg : Nonneg g) : (visits g).Nodup := by
  rw [visits, List.nodup_append]
  refine ⟨List.nodup_range.filter _, List.nodup_range.filter _, fun a ha b hb e => ?_⟩
  subst e
  rw [mem_visited] at ha hb
  have hm := mem_range_nodes hs ha.1
  rw [parity hs hg (by omega) hm] at ha hb
  omega

theorem sweep_notin (p : Params α) (dx : Nat → α) (old : Int → α × α) : ∀ (order : List Nat) (new : Int → α × α) (m : Int), (∀ n ∈ order, (n : Int) ≠ m) → sweep p g dx old order new m = new m := by
  intro order
  induction order with
  | nil => intro new m _; rfl
  | cons n rest ih =>
    intro new m h
    show sweep p g dx old rest (Function.update new (n : Int) (relax p g dx old new n)) m = _
    rw [ih _ m fun k hk => h k (by simp [hk]), Function.update_of_ne (h n (by simp)).symm]

/-- The residuals of a node vanish exactly if the relaxation leaves it. -/
theorem relax_fixed_iff {p : Params α} {dx : Nat → α} (hd : Solvable p g dx) (hw : p.omega ≠ 0) (old new : Int → α × α) (n : Int) :
    relax p g dx old new n = new n ↔ r1 p g dx old new n = 0 ∧ r2 p g dx old new n = 0 := by
  have hdn := hd (new n).1
  constructor
  · intro h
    have e1 := congrArg Prod.fst h
    have e2 := congrArg Prod.snd h
    simp only [relax, add_eq_left, mul_eq_zero, hw, false_or, div_eq_zero_iff, hdn, or_false] at e1 e2
    have e : det p g dx (new n).1 * r1 p g dx old new n = 0 := by
      have : det p g dx (new n).1 * r1 p g dx old new n = (r1 p g dx old new n - p.dt * p.D * centre g dx * r2 p g dx old new n)
        + p.dt * p.D * centre g dx * (r2 p g dx old new n + (p.nonlinear (new n).1 + p.K * centre g dx) * r1 p g dx old new n) := by unfold det; ring
      rw [this, e1, e2]; simp
    have z := (mul_eq_zero.mp e).resolve_left hdn
    rw [z] at e2
    exact ⟨z, by simpa using e2⟩
  · rintro ⟨z1, z2⟩
    simp [relax, z1, z2]

theorem sweep_fixed {p : Params α} {dx : Nat → α} (old : Int → α × α) : ∀ (order : List Nat) (new : Int → α × α),
    (∀ n ∈ order, relax p g dx old new (n : Int) = new (n : Int)) → sweep p g dx old order new = new := by
  intro order
  induction order with
  | nil => intro new _; rfl
  | cons n rest ih =>
    intro new h
    have e : Function.update new (n : Int) (relax p g dx old new n) = new := by rw [h n (by simp)]; simp
    show sweep p g dx old rest (Function.update new (n : Int) (relax p g dx old new n)) = new
    rw [e]
    exact ih new fun m hm => h m (by simp [hm])

theorem sweep_fixed_conv {p : Params α} {dx : Nat → α} (old : Int → α × α) : ∀ (order : List Nat) (new : Int → α × α), order.Nodup →
    sweep p g dx old order new = new → ∀ n ∈ order, relax p g dx old new (n : Int) = new (n : Int) := by
  intro order
  induction order with
  | nil => intro new _ _ n hn; simp at hn
  | cons n rest ih =>
    intro new hnd h
    rw [List.nodup_cons] at hnd
    change sweep p g dx old rest (Function.update new (n : Int) (relax p g dx old new n)) = new at h
    have e : relax p g dx old new (n : Int) = new (n : Int) := by
      have := congrFun h n
      rwa [sweep_notin p dx old rest _ n (fun k hk hkn => hnd.1 (by rw [← Int.natCast_inj.mp hkn]; exact hk)), Function.update_self] at this
    have e' : Function.update new (n : Int) (relax p g dx old new n) = new := by rw [e]; simp
    rw [e'] at h
    intro m hm
    rcases List.mem_cons.mp hm with rfl | hm
    · exact e
    · exact ih new hnd.2 h m hm

/-- **C57.** An iteration leaves a state exactly if it solves the equations of the step. -/
theorem iteration_fixed_iff (hs : Serial g) (hg : Nonneg g) {p : Params α} (hp : Linearised p) (hw : p.omega ≠ 0) {dx : Nat → α} (hd : Solvable p g dx) (old new : Int → α × α) :
    iteration p g dx old new = .ok new ↔ Scheme p g dx old new := by
  rw [iteration_ok hs hp hd, Outcome.ok.injEq]
  constructor
  · intro h n h0 h1
    have hm : n.toNat ∈ visits g := visits_all (by omega)
    have := sweep_fixed_conv old _ new (visits_nodup hs hg) h _ hm
    rw [Int.toNat_of_nonneg h0] at this
    exact (relax_fixed_iff hd hw old new n).mp this
  · intro h
    refine sweep_fixed old _ new fun n hn => (relax_fixed_iff hd hw old new n).mpr (h n (by omega) ?_)
    rw [visits, List.mem_append, mem_visited, mem_visited] at hn
    rcases hn with hn | hn <;> exact mem_range_nodes hs hn.1

/-- Every periodic axis has an even number of nodes. -/
def EvenPeriods (g : Shape) : Prop := ∀ i < g.dim, g.b0 i = .periodic → 2 ∣ g.x1 i - g.x0 i

/-- A neighbour is the node itself or has the other colour. -/
theorem nb_parity (hs : Serial g) (he : EvenPeriods g) {i : Nat} (hi : i < g.dim) {n : Int} (h0 : 0 ≤ n) (h1 : n < g.nodes) (up : Bool) :
    nb g i n up = n ∨ (∑ d ∈ Finset.range g.dim, g.position (nb g i n up) d) % 2 ≠ (∑ d ∈ Finset.range g.dim, g.position n d) % 2 := by
  obtain ⟨a0, a1, hpos⟩ := nb_spec hs hi h0 h1 up
  have hp := Shape.position_isNode hs.wf h0 h1 i hi
  have hc := Conserve.checkBoundary_closed (hs.closed i hi) hp.1 hp.2
  have hsplit : ∀ m, ∑ d ∈ Finset.range g.dim, g.position m d = g.position m i + ∑ d ∈ (Finset.range g.dim).erase i, g.position m d := fun m =>
    (Finset.add_sum_erase _ _ (Finset.mem_range.mpr hi)).symm
  have hrest : ∑ d ∈ (Finset.range g.dim).erase i, g.position (nb g i n up) d = ∑ d ∈ (Finset.range g.dim).erase i, g.position n d :=
    Finset.sum_congr rfl fun d hd => by
      rw [Finset.mem_erase, Finset.mem_range] at hd
      rw [hpos d hd.2, if_neg hd.1]
  have hi' := hpos i hi
  rw [if_pos rfl] at hi'
  by_cases e : g.position (nb g i n up) i = g.position n i
  · left
    refine Conserve.node_ext hs a0 a1 h0 h1 fun j hj => ?_
    by_cases hj' : j = i
    · rw [hj', e]
    · rw [hpos j hj, if_neg hj']
  · right
    rw [hsplit, hsplit, hrest]
    have hev : g.b0 i = .periodic → 2 ∣ g.x1 i - g.x0 i := he i hi
    have hper := hs.closed i hi
    unfold Conserve.Closed at hper
    cases up
    · simp only [Bool.false_eq_true, if_false, ← sub_eq_add_neg, hc.2] at hi'
      split_ifs at hi' with q1 q2 <;> first | omega | (have := hev (by rcases hper with h | ⟨h | h, h' | h'⟩ <;> simp_all); omega)
    · simp only [if_true, hc.1] at hi'
      split_ifs at hi' with q1 q2 <;> first | omega | (have := hev (by rcases hper with h | ⟨h | h, h' | h'⟩ <;> simp_all); omega)

theorem lap_congr (dx : Nat → α) {u v : Int → α} {n : Int} (hn : u n = v n) (h : ∀ i < g.dim, ∀ up, u (nb g i n up) = v (nb g i n up)) : lap g dx u n = lap g dx v n := by
  unfold lap
  refine Finset.sum_congr rfl fun i hi => ?_
  rw [hn, h i (Finset.mem_range.mp hi), h i (Finset.mem_range.mp hi)]

theorem relax_congr (p : Params α) (dx : Nat → α) (old : Int → α × α) {new new' : Int → α × α} {n : Int} (hn : new n = new' n) (h : ∀ i < g.dim, ∀ up, new (nb g i n up) = new' (nb g i n up)) :
    relax p g dx old new n = relax p g dx old new' n := by
  have l1 : lap g dx (fun m => (new m).1) n = lap g dx (fun m => (new' m).1) n := lap_congr dx (by rw [hn]) fun i hi up => by rw [h i hi up]
  have l2 : lap g dx (fun m => (new m).2) n = lap g dx (fun m => (new' m).2) n := lap_congr dx (by rw [hn]) fun i hi up => by rw [h i hi up]
  simp only [relax, r1, r2, hn, l1, l2]

/-- Independent nodes may be visited in any order. -/
theorem sweep_independent (p : Params α) (dx : Nat → α) (old : Int → α × α) : ∀ (order : List Nat) (new : Int → α × α), order.Nodup →
    (∀ n ∈ order, ∀ i < g.dim, ∀ up, nb g i (n : Int) up = n ∨ ∀ m ∈ order, (m : Int) ≠ nb g i (n : Int) up) →
    sweep p g dx old order new = fun k => if 0 ≤ k ∧ k.toNat ∈ order then relax p g dx old new k else new k := by
  intro order
  induction order with
  | nil => intro new _ _; funext k; simp [sweep]
  | cons n rest ih =>
    intro new hnd hind
    rw [List.nodup_cons] at hnd
    show sweep p g dx old rest (Function.update new (n : Int) (relax p g dx old new n)) = _
    rw [ih _ hnd.2 fun m hm i hi up => (hind m (by simp [hm]) i hi up).imp_right fun h q hq => h q (by simp [hq])]
    funext k
    by_cases hk : 0 ≤ k ∧ k.toNat ∈ rest
    · rw [if_pos hk, if_pos ⟨hk.1, by simp [hk.2]⟩]
      have hkn : k ≠ n := fun e => hnd.1 (by have : k.toNat = n := by omega
                                             rw [← this]; exact hk.2)
      refine relax_congr p dx old (Function.update_of_ne hkn _ _) fun i hi up => Function.update_of_ne ?_ _ _
      have hi' := hind k.toNat (by simp [hk.2]) i hi up
      rw [Int.toNat_of_nonneg hk.1] at hi'
      rcases hi' with e | e
      · rw [e]; exact hkn
      · exact fun e' => e n (by simp) e'.symm
    · rw [if_neg hk]
      by_cases e : k = n
      · subst e; rw [Function.update_self, if_pos ⟨by omega, by simp⟩]
      · rw [Function.update_of_ne e, if_neg]
        rintro ⟨h0, h1⟩
        rcases List.mem_cons.mp h1 with h | h
        · omega
        · exact hk ⟨h0, h⟩

/-- **C57.** With at most even periods and no negative coordinates the nodes of a colour are independent: whatever the order of the threads, a pass gives each of its nodes the value
computed from the state before the pass. -/
theorem pass_any_order (hs : Serial g) (hg : Nonneg g) (he : EvenPeriods g) {p : Params α} (hp : Linearised p) {dx : Nat → α} (hd : Solvable p g dx) {color : Int} (hc : color = 0 ∨ color = 1)
    (old new : Int → α × α) {order : List Nat} (ho : order.Perm (List.range g.nodes.toNat)) :
    passIn order p g dx color old new = .ok (fun n => if (0 ≤ n ∧ n < g.nodes) ∧ (∑ d ∈ Finset.range g.dim, g.position n d) % 2 ≠ color then relax p g dx old new n else new n) := by
  have hn0 := nodes_pos hs
  have hmem : ∀ n ∈ order, (n : Int) < g.nodes := fun n hn => mem_range_nodes hs (ho.mem_iff.mp hn)
  rw [passIn_ok hs hp hd color old order new hmem, sweep_independent]
  · congr 1
    funext k
    by_cases hk : (0 ≤ k ∧ k < g.nodes) ∧ (∑ d ∈ Finset.range g.dim, g.position k d) % 2 ≠ color
    · rw [if_pos hk, if_pos]
      refine ⟨hk.1.1, mem_visited.mpr ⟨ho.mem_iff.mpr (List.mem_range.mpr (by omega)), ?_⟩⟩
      rw [Int.toNat_of_nonneg hk.1.1, parity hs hg hk.1.1 hk.1.2]
      exact hk.2
    · rw [if_neg hk, if_neg]
      rintro ⟨h0, h1⟩
      rw [mem_visited, Int.toNat_of_nonneg h0] at h1
      have := hmem _ h1.1
      rw [Int.toNat_of_nonneg h0] at this
      rw [parity hs hg h0 this] at h1
      exact hk ⟨⟨h0, this⟩, h1.2⟩
  · exact (ho.nodup_iff.mpr List.nodup_range).filter _
  · intro n hn i hi up
    rw [mem_visited] at hn
    have hnn := hmem n hn.1
    rcases nb_parity hs he hi (by omega : (0 : Int) ≤ n) hnn up with e | e
    · exact .inl e
    · right
      intro m hm hmn
      rw [mem_visited] at hm
      have hmm := hmem m hm.1
      rw [parity hs hg (by omega) hnn] at hn
      rw [parity hs hg (by omega) hmm] at hm
      rw [← hmn] at e
      rcases hc with rfl | rfl <;> omega

end Iteration

/-! ## Mass -/

section Mass
variable {α : Type} [Field α] {g : Shape}

theorem total_lap (hs : Serial g) (dx : Nat → α) (u : Int → α) : total g (lap g dx u) = 0 := by
  unfold total lap
  rw [Finset.sum_comm]
  refine Finset.sum_eq_zero fun i hi => ?_
  rw [← Finset.sum_div]
  have h := axis_sum hs u (Finset.mem_range.mp hi)
  have : ∑ n ∈ Finset.range g.nodes.toNat, (u (nb g i n true) - 2 * u n + u (nb g i n false)) =
      (∑ n ∈ Finset.range g.nodes.toNat, (u (nb g i n true) + u (nb g i n false))) - 2 * total g u := by
    rw [total, Finset.mul_sum, ← Finset.sum_sub_distrib]
    exact Finset.sum_congr rfl fun n _ => by ring
  rw [this, h]; simp

/-- **C57.** Mass changes by exactly what is missing in the first equation. -/
theorem mass_defect (hs : Serial g) (p : Params α) (dx : Nat → α) (old new : Int → α × α) :
    total g (fun n => (new n).1) = total g (fun n => (old n).1) - total g (r1 p g dx old new) := by
  have h := total_lap hs dx fun m => (new m).2
  have : total g (r1 p g dx old new) = total g (fun n => (old n).1) - total g (fun n => (new n).1) + p.D * p.dt * total g (lap g dx fun m => (new m).2) := by
    simp only [total, Finset.mul_sum, ← Finset.sum_sub_distrib, ← Finset.sum_add_distrib]
    exact Finset.sum_congr rfl fun n _ => by unfold r1; ring
  rw [this, h]; ring

/-- **C57.** A solution of the step has the same mass. -/
theorem scheme_mass (hs : Serial g) {p : Params α} {dx : Nat → α} {old new : Int → α × α} (h : Scheme p g dx old new) : total g (fun n => (new n).1) = total g (fun n => (old n).1) := by
  have hn := nodes_pos hs
  rw [mass_defect hs p dx old new]
  have : total g (r1 p g dx old new) = 0 := Finset.sum_eq_zero fun n hn => (h n (by omega) (by have := Finset.mem_range.mp hn; omega)).1
  rw [this]; simp

end Mass

/-! ## Energy -/

section Energy
variable {α : Type} [Field α] {g : Shape}

/-- Every pair of neighbours is met from both sides. -/
theorem edge_sum (hs : Serial g) (F : Int → Int → α) {i : Nat} (hi : i < g.dim) :
    ∑ n ∈ Finset.range g.nodes.toNat, (F n (nb g i n true) + F n (nb g i n false)) = ∑ n ∈ Finset.range g.nodes.toNat, (F (nb g i n true) n + F (nb g i n false) n) := by
  have hmem : ∀ a : Nat, a ∈ Finset.range g.nodes.toNat → (0 : Int) ≤ a ∧ (a : Int) < g.nodes := by
    intro a ha; rw [Finset.mem_range] at ha; omega
  have step : ∑ e ∈ Finset.range g.nodes.toNat ×ˢ (Finset.univ : Finset Bool), F (e.1 : Int) (nb g i (e.1 : Int) e.2) =
      ∑ e ∈ Finset.range g.nodes.toNat ×ˢ (Finset.univ : Finset Bool), F (nb g i (e.1 : Int) e.2) (e.1 : Int) := by
    have hcast : ∀ e ∈ Finset.range g.nodes.toNat ×ˢ (Finset.univ : Finset Bool), ((nb g i (e.1 : Int) e.2).toNat : Int) = nb g i e.1 e.2 := by
      intro e he
      have hm := hmem e.1 (Finset.mem_product.mp he).1
      have := (nb_spec hs hi hm.1 hm.2 e.2).1
      omega
    let f : Nat × Bool → Nat × Bool := fun e => ((cross g i (e.1, e.2)).1.toNat, (cross g i (e.1, e.2)).2)
    have hmaps : ∀ e ∈ Finset.range g.nodes.toNat ×ˢ (Finset.univ : Finset Bool), f e ∈ Finset.range g.nodes.toNat ×ˢ (Finset.univ : Finset Bool) := by
      intro e he
      have hm := hmem e.1 (Finset.mem_product.mp he).1
      have := nb_spec hs hi hm.1 hm.2 e.2
      simp only [f, cross, Finset.mem_product, Finset.mem_range, Finset.mem_univ, and_true]
      omega
    have hf2 : ∀ e ∈ Finset.range g.nodes.toNat ×ˢ (Finset.univ : Finset Bool), cross g i ((((f e).1 : Nat) : Int), (f e).2) = ((e.1 : Int), e.2) := by
      intro e he
      have hm := hmem e.1 (Finset.mem_product.mp he).1
      have hc := cross_cross hs hi hm.1 hm.2 e.2
      have h1 : (((f e).1 : Nat) : Int) = (cross g i (e.1, e.2)).1 := hcast e he
      have h2 : ((((f e).1 : Nat) : Int), (f e).2) = cross g i (e.1, e.2) := Prod.ext h1 rfl
      rw [h2, hc]
    have hinv : ∀ e ∈ Finset.range g.nodes.toNat ×ˢ (Finset.univ : Finset Bool), f (f e) = e := by
      intro e he
      show ((cross g i ((((f e).1 : Nat) : Int), (f e).2)).1.toNat, (cross g i ((((f e).1 : Nat) : Int), (f e).2)).2) = e
      rw [hf2 e he]
      simp
    refine Finset.sum_nbij' f f hmaps hmaps hinv hinv ?_
    intro e he
    have h1 : (((f e).1 : Nat) : Int) = nb g i e.1 e.2 := hcast e he
    have h2 : nb g i (((f e).1 : Nat) : Int) (f e).2 = e.1 := congrArg Prod.fst (hf2 e he)
    rw [h2, h1]
  rw [Finset.sum_product, Finset.sum_product] at step
  simpa only [Fintype.sum_bool] using step

/-- Summation by parts. -/
theorem sum_by_parts [CharZero α] (hs : Serial g) (dx : Nat → α) (a c : Int → α) : total g (fun n => a n * lap g dx c n) = -bonds g dx a c := by
  unfold total lap bonds
  simp only [Finset.mul_sum]
  rw [Finset.sum_comm, ← Finset.sum_neg_distrib]
  refine Finset.sum_congr rfl fun i hi => ?_
  have h := edge_sum hs (fun n m => a n * (c m - c n)) (Finset.mem_range.mp hi)
  have e : ∑ n ∈ Finset.range g.nodes.toNat, a n * ((c (nb g i n true) - 2 * c n + c (nb g i n false)) / dx i ^ 2) =
      (∑ n ∈ Finset.range g.nodes.toNat, (a n * (c (nb g i n true) - c n) + a n * (c (nb g i n false) - c n))) / dx i ^ 2 := by
    rw [Finset.sum_div]; exact Finset.sum_congr rfl fun n _ => by ring
  rw [e, ← neg_div]
  congr 1
  have two : (2 : α) ≠ 0 := by norm_num
  refine mul_left_cancel₀ two ?_
  calc 2 * ∑ n ∈ Finset.range g.nodes.toNat, (a n * (c (nb g i n true) - c n) + a n * (c (nb g i n false) - c n))
      = ∑ n ∈ Finset.range g.nodes.toNat, (a n * (c (nb g i n true) - c n) + a n * (c (nb g i n false) - c n))
        + ∑ n ∈ Finset.range g.nodes.toNat, (a (nb g i n true) * (c n - c (nb g i n true)) + a (nb g i n false) * (c n - c (nb g i n false))) := by rw [two_mul]; congr 1
    _ = 2 * -∑ n ∈ Finset.range g.nodes.toNat, ((a (nb g i n true) - a n) * (c (nb g i n true) - c n) + (a (nb g i n false) - a n) * (c (nb g i n false) - c n)) / 2 := by
      rw [← Finset.sum_add_distrib, ← Finset.sum_neg_distrib, Finset.mul_sum]
      exact Finset.sum_congr rfl fun n _ => by ring

end Energy

section Stability
variable {α : Type} [Field α] [LinearOrder α] [IsStrictOrderedRing α] {g : Shape}

theorem bonds_nonneg (dx : Nat → α) (a : Int → α) : 0 ≤ bonds g dx a a :=
  Finset.sum_nonneg fun i _ => div_nonneg (Finset.sum_nonneg fun n _ => by nlinarith [mul_self_nonneg (a (nb g i n true) - a n), mul_self_nonneg (a (nb g i n false) - a n)]) (sq_nonneg _)

theorem bonds_gain (dx : Nat → α) (c o : Int → α) : bonds g dx c c - bonds g dx o o ≤ 2 * bonds g dx (fun n => c n - o n) c := by
  unfold bonds
  rw [← Finset.sum_sub_distrib, Finset.mul_sum]
  refine Finset.sum_le_sum fun i _ => ?_
  rw [← sub_div, ← mul_div_assoc]
  refine div_le_div_of_nonneg_right ?_ (sq_nonneg _)
  rw [← Finset.sum_sub_distrib, Finset.mul_sum]
  refine Finset.sum_le_sum fun n _ => ?_
  nlinarith [sq_nonneg ((c (nb g i n true) - c n) - (o (nb g i n true) - o n)), sq_nonneg ((c (nb g i n false) - c n) - (o (nb g i n false) - o n))]

/-- **C57.** Energy of any two states: it falls, up to what is missing in the equations. -/
theorem energy_defect (hs : Serial g) {p : Params α} (hK : 0 ≤ p.K) (dx : Nat → α) (old new : Int → α × α)
    (hsp : ∀ n, 0 ≤ n → n < g.nodes → Splits p (old n).1 (new n).1) :
    freeEnergy p g dx (fun n => (new n).1) + p.D * p.dt * bonds g dx (fun n => (new n).2) (fun n => (new n).2) ≤ freeEnergy p g dx (fun n => (old n).1)
      + total g (fun n => r2 p g dx old new n * ((new n).1 - (old n).1) - r1 p g dx old new n * (new n).2) := by
  have hn := nodes_pos hs
  have e1 : total g (fun n => p.energy (new n).1) - total g (fun n => p.energy (old n).1) ≤ total g (fun n => (p.contractive (new n).1 + p.expansive (old n).1) * ((new n).1 - (old n).1)) := by
    unfold total
    rw [← Finset.sum_sub_distrib]
    exact Finset.sum_le_sum fun n hn => hsp n (by omega) (by have := Finset.mem_range.mp hn; omega)
  have e2 : total g (fun n => (p.contractive (new n).1 + p.expansive (old n).1) * ((new n).1 - (old n).1)) =
      p.D * p.dt * total g (fun n => (new n).2 * lap g dx (fun m => (new m).2) n) + p.K * total g (fun n => ((new n).1 - (old n).1) * lap g dx (fun m => (new m).1) n)
      + total g (fun n => r2 p g dx old new n * ((new n).1 - (old n).1) - r1 p g dx old new n * (new n).2) := by
    simp only [total, Finset.mul_sum, ← Finset.sum_add_distrib]
    exact Finset.sum_congr rfl fun n _ => by unfold r1 r2; ring
  rw [sum_by_parts hs dx (fun n => (new n).2), sum_by_parts hs dx (fun n => (new n).1 - (old n).1)] at e2
  have e3 := mul_le_mul_of_nonneg_left (bonds_gain (g := g) dx (fun n => (new n).1) (fun n => (old n).1)) hK
  unfold freeEnergy
  linarith

/-- **C57.** A solution of the step has no more energy than the state before. -/
theorem scheme_energy (hs : Serial g) {p : Params α} (hK : 0 ≤ p.K) (hD : 0 ≤ p.D) (ht : 0 ≤ p.dt) {dx : Nat → α} {old new : Int → α × α}
    (hsp : ∀ n, 0 ≤ n → n < g.nodes → Splits p (old n).1 (new n).1) (h : Scheme p g dx old new) :
    freeEnergy p g dx (fun n => (new n).1) ≤ freeEnergy p g dx (fun n => (old n).1) := by
  have hn := nodes_pos hs
  have e := energy_defect hs hK dx old new hsp
  have z : total g (fun n => r2 p g dx old new n * ((new n).1 - (old n).1) - r1 p g dx old new n * (new n).2) = 0 :=
    Finset.sum_eq_zero fun n hn => by
      have := h n (by omega) (by have := Finset.mem_range.mp hn; omega)
      beta_reduce
      rw [this.1, this.2]; simp
  have := mul_nonneg (mul_nonneg hD ht) (bonds_nonneg (g := g) dx fun n => (new n).2)
  linarith

/-- The plain energy: no condition left. -/
theorem vanilla_energy (hs : Serial g) {dx : Nat → α} {old new : Int → α × α} (h : Scheme vanilla g dx old new) :
    freeEnergy vanilla g dx (fun n => (new n).1) ≤ freeEnergy vanilla g dx (fun n => (old n).1) :=
  scheme_energy hs (by norm_num [vanilla]) (by norm_num [vanilla]) (by norm_num [vanilla]) (fun _ _ _ => vanilla_splits _ _) h

theorem centre_nonneg (dx : Nat → α) : 0 ≤ centre g dx := by
  rw [centre_eq]; exact Finset.sum_nonneg fun i _ => by positivity

theorem solvable_of_nonneg {p : Params α} (hK : 0 ≤ p.K) (hD : 0 ≤ p.D) (ht : 0 ≤ p.dt) (hc : ∀ c, 0 ≤ p.nonlinear c) (dx : Nat → α) : Solvable p g dx := by
  intro c
  have hw := centre_nonneg (g := g) dx
  have := mul_nonneg (mul_nonneg (mul_nonneg ht hD) hw) (add_nonneg (hc c) (mul_nonneg hK hw))
  unfold det
  exact ne_of_gt (by linarith)

/-- The equations of a node can always be solved. -/
theorem vanilla_solvable (dx : Nat → α) : Solvable vanilla g dx :=
  solvable_of_nonneg (by norm_num [vanilla]) (by norm_num [vanilla]) (by norm_num [vanilla]) (fun c => by simp only [vanilla]; positivity) dx

theorem parametric_solvable {c0 ca cb a b : α} (ha : 0 ≤ ca) (hb : ca < cb) (hB : 0 ≤ b) (dx : Nat → α) : Solvable (parametric c0 ca cb a b) g dx := by
  have hcb : 0 < cb := lt_of_le_of_lt ha hb
  have hd : 0 < cb - ca := sub_pos.mpr hb
  refine solvable_of_nonneg (by norm_num [parametric]) (by simp only [parametric]; positivity) (by simp only [parametric]; positivity) (fun c => ?_) dx
  simp only [parametric, qa, qc]
  have : 0 ≤ b * c0 * c0 := by rw [mul_assoc]; exact mul_nonneg hB (mul_self_nonneg _)
  positivity

end Stability

/-! ## The step -/

section Step
variable {α : Type} [Field α] {g : Shape}

/-- Sum of the squares of what is missing in the equations. -/
def missing (p : Params α) (g : Shape) (dx : Nat → α) (old new : Int → α × α) : α := total g fun n => r1 p g dx old new n ^ 2 + r2 p g dx old new n ^ 2

/-- Sum of the squares of the right-hand sides. -/
def rhs (p : Params α) (g : Shape) (old : Int → α × α) : α := total g fun n => (old n).1 ^ 2 + p.expansive (old n).1 ^ 2

/-- **C57.** The residual is the sum over all nodes. -/
theorem residual_ok (hs : Serial g) (p : Params α) (dx : Nat → α) (old new : Int → α × α) : residual p g dx old new = .ok (missing p g dx old new, rhs p g old) := by
  have hn := nodes_pos hs
  have at_ok : ∀ n : Int, 0 ≤ n → n < g.nodes → residualAt p g dx old new n = .ok (r1 p g dx old new n ^ 2 + r2 p g dx old new n ^ 2, (old n).1 ^ 2 + p.expansive (old n).1 ^ 2) := by
    intro n h0 h1
    have hc : 0 ≤ n ∧ n < g.cells := by rw [cells_eq_nodes hs]; exact ⟨h0, h1⟩
    have hdr : ∀ d : Int → α × α, deref g d (g.atNode .serial n) = .ok (d n) := fun d => if_pos hc
    unfold residualAt
    simp only [hdr, Outcome.ok_bind, fieldLaplacian_ok hs dx _ _ h0 h1]
    congr 1
    refine Prod.ext ?_ ?_ <;> simp only [r1, r2] <;> ring
  have key : ∀ k : Nat, (k : Int) ≤ g.nodes → (List.range k).foldlM (fun s (n : Nat) => (residualAt p g dx old new n).bind fun e => .ok (s.1 + e.1, s.2 + e.2)) ((0 : α), (0 : α)) =
      .ok (∑ n ∈ Finset.range k, (r1 p g dx old new n ^ 2 + r2 p g dx old new n ^ 2), ∑ n ∈ Finset.range k, ((old n).1 ^ 2 + p.expansive (old n).1 ^ 2)) := by
    intro k
    induction k with
    | zero => intro _; simp [Outcome.pure_eq]
    | succ k ih =>
      intro hk
      rw [List.range_succ, List.foldlM_append, ih (by omega)]
      simp only [List.foldlM_cons, List.foldlM_nil, Outcome.bind_eq, Outcome.ok_bind, Outcome.pure_eq, at_ok k (by omega) (by omega), Finset.sum_range_succ]
  unfold residual missing rhs total
  exact key _ (by omega)

variable [LinearOrder α]

/-- The step from `old` to `new` passed the test at its end. -/
def Passed (p : Params α) (g : Shape) (dx : Nat → α) (sqrt : α → α) (old new : Int → α × α) : Prop := tooLarge p g sqrt (missing p g dx old new, rhs p g old) = false

/-- `n` steps, each of which passed the test; the pair are the two grids. -/
inductive Steps (p : Params α) (g : Shape) (dx : Nat → α) (sqrt : α → α) : Nat → (Int → α × α) × (Int → α × α) → (Int → α × α) × (Int → α × α) → Prop
  | zero (s) : Steps p g dx sqrt 0 s s
  | succ {n s new s'} (h : Passed p g dx sqrt s.1 new) (ht : Steps p g dx sqrt n (new, s.1) s') : Steps p g dx sqrt (n + 1) s s'

theorem solve_all (hs : Serial g) {p : Params α} (hp : Linearised p) {dx : Nat → α} (hd : Solvable p g dx) (sqrt : α → α) (old : Int → α × α) :
    ∀ (left iter : Nat) (again : Bool) (new : Int → α × α), (again = false → Passed p g dx sqrt old new) →
      solve p g dx sqrt old left iter again new = .abort (-1) ∨ ∃ new', solve p g dx sqrt old left iter again new = .ok new' ∧ Passed p g dx sqrt old new' := by
  intro left
  induction left with
  | zero => intro _ _ _ _; exact .inl rfl
  | succ left ih =>
    intro iter again new h
    unfold solve
    cases again with
    | false => exact .inr ⟨new, by simp, h rfl⟩
    | true =>
      rw [if_pos rfl, iteration_ok hs hp hd, Outcome.ok_bind]
      split_ifs with q
      · rw [residual_ok hs, Outcome.ok_bind, Outcome.ok_bind]
        exact ih _ _ _ fun e => e
      · rw [Outcome.ok_bind]
        exact ih _ _ _ fun e => by simp at e

/-- **C57.** A step ends with a state that passed the test on the residual, or the program is stopped; there is no third way. -/
theorem solve_spec (hs : Serial g) {p : Params α} (hp : Linearised p) {dx : Nat → α} (hd : Solvable p g dx) (sqrt : α → α) (maxIter : Nat) (old new : Int → α × α) :
    solve p g dx sqrt old maxIter 0 true new = .abort (-1) ∨ ∃ new', solve p g dx sqrt old maxIter 0 true new = .ok new' ∧ Passed p g dx sqrt old new' :=
  solve_all hs hp hd sqrt old maxIter 0 true new fun e => by simp at e

/-- **C57.** A run ends with the result of so many steps that passed, or is stopped. -/
theorem update_spec (hs : Serial g) {p : Params α} (hp : Linearised p) {dx : Nat → α} (hd : Solvable p g dx) (sqrt : α → α) (maxIter : Nat) :
    ∀ (steps : Nat) (s : (Int → α × α) × (Int → α × α)), update p g dx sqrt maxIter steps s = .abort (-1) ∨ ∃ s', update p g dx sqrt maxIter steps s = .ok s' ∧ Steps p g dx sqrt steps s s' := by
  intro steps
  induction steps with
  | zero => intro s; exact .inr ⟨s, rfl, .zero s⟩
  | succ steps ih =>
    intro s
    unfold update
    rcases solve_spec hs hp hd sqrt maxIter s.1 s.2 with h | ⟨new, h, hpass⟩
    · exact .inl (by rw [h]; rfl)
    · rw [h, Outcome.ok_bind]
      rcases ih (new, s.1) with h' | ⟨s', h', hst⟩
      · exact .inl h'
      · exact .inr ⟨s', h', .succ hpass hst⟩

/-- **C57, negation.** The last iteration allowed is wasted: with `max_iter` 1 every run stops the program, even if the state given already solves the equations. -/
theorem last_iteration_wasted (hs : Serial g) {p : Params α} (hp : Linearised p) {dx : Nat → α} (hd : Solvable p g dx) (sqrt : α → α) (old new : Int → α × α) :
    solve p g dx sqrt old 1 0 true new = .abort (-1) := by
  unfold solve
  rw [if_pos rfl, iteration_ok hs hp hd, Outcome.ok_bind, if_pos (by omega), residual_ok hs, Outcome.ok_bind, Outcome.ok_bind]
  rfl

variable [IsStrictOrderedRing α]

/-- `sqrt` is a square root. -/
def IsSqrt (sqrt : α → α) : Prop := ∀ x, 0 ≤ x → 0 ≤ sqrt x ∧ sqrt x ^ 2 = x

theorem missing_nonneg (p : Params α) (dx : Nat → α) (old new : Int → α × α) : 0 ≤ missing p g dx old new := by
  unfold missing total; exact Finset.sum_nonneg fun n _ => by positivity

theorem rhs_nonneg (p : Params α) (old : Int → α × α) : 0 ≤ rhs p g old := by
  unfold rhs total; exact Finset.sum_nonneg fun n _ => by positivity

/-- **C57.** What passing the test means: the sum of squared residuals is small against the right-hand sides. -/
theorem passed_bound {p : Params α} {dx : Nat → α} {sqrt : α → α} (hq : IsSqrt sqrt) {old new : Int → α × α} (h : Passed p g dx sqrt old new) :
    missing p g dx old new ≤ (2 * (g.nodes.toNat : α) * p.tol) ^ 2 * rhs p g old := by
  unfold Passed tooLarge at h
  have hm := missing_nonneg (g := g) p dx old new
  have hr := rhs_nonneg (g := g) p old
  by_cases e : rhs p g old = 0
  · rw [if_pos e] at h
    simp only [ne_eq, decide_eq_false_iff_not, not_not] at h
    rw [h, e]; simp
  · rw [if_neg e] at h
    simp only [decide_eq_false_iff_not, not_lt] at h
    have hpos : 0 < rhs p g old := lt_of_le_of_ne hr (Ne.symm e)
    obtain ⟨s0, s1⟩ := hq (missing p g dx old new / rhs p g old) (div_nonneg hm hr)
    have hN : 0 < (g.nodes.toNat : α) := by
      rcases Nat.eq_zero_or_pos g.nodes.toNat with h0 | h0
      · exfalso; apply e; unfold rhs total; rw [h0]; simp
      · exact_mod_cast h0
    rw [div_le_iff₀ (by positivity)] at h
    have := mul_self_le_mul_self s0 h
    rw [← sq, s1, div_le_iff₀ hpos] at this
    calc _ ≤ _ := this
      _ = _ := by ring

/-- **C57.** How far mass may drift in a step that passed. -/
theorem passed_mass (hs : Serial g) {p : Params α} {dx : Nat → α} {sqrt : α → α} (hq : IsSqrt sqrt) {old new : Int → α × α} (h : Passed p g dx sqrt old new) :
    (total g (fun n => (new n).1) - total g (fun n => (old n).1)) ^ 2 ≤ (g.nodes.toNat : α) * ((2 * (g.nodes.toNat : α) * p.tol) ^ 2 * rhs p g old) := by
  rw [mass_defect hs p dx old new]
  have e : total g (fun n => (old n).1) - total g (r1 p g dx old new) - total g (fun n => (old n).1) = -total g (r1 p g dx old new) := by ring
  rw [e, neg_sq]
  have c := sq_sum_le_card_mul_sum_sq (s := Finset.range g.nodes.toNat) (f := fun n : Nat => r1 p g dx old new n)
  rw [Finset.card_range] at c
  refine le_trans c (mul_le_mul_of_nonneg_left (le_trans ?_ (passed_bound hq h)) (Nat.cast_nonneg _))
  exact Finset.sum_le_sum fun n _ => by nlinarith [sq_nonneg (r2 p g dx old new n)]

end Step

/-! ## Concrete cases -/

/-- A periodic line of `k` nodes. -/
def ring (k : Int) : Shape := ⟨1, fun _ => 0, fun _ => k, fun _ => .periodic, fun _ => .periodic, 0⟩

theorem ring_serial {k : Int} (hk : 0 < k) : Serial (ring k) :=
  ⟨⟨Nat.one_pos, fun _ _ => hk, le_refl 0⟩, rfl, fun _ _ => .inl ⟨rfl, rfl⟩⟩

/-- A bump on one node. -/
def bumpAt (n : Int) : ℚ × ℚ := if n = 0 then (1, 0) else (0, 0)

/-- The value at a node after a pass. -/
def after (o : Outcome (Int → ℚ × ℚ)) (n : Int) : Option (ℚ × ℚ) := match o with
  | .ok d => some (d n)
  | _ => none

/-- **C57, negation.** On a periodic axis of odd length the result of a pass depends on the order of the threads. -/
theorem odd_period_races : after (passIn [0, 1, 2] vanilla (ring 3) (fun _ => 1) 1 bumpAt bumpAt) 0 ≠ after (passIn [2, 1, 0] vanilla (ring 3) (fun _ => 1) 1 bumpAt bumpAt) 0 := by decide +kernel

/-- A line of two nodes at negative coordinates. -/
def negative : Shape := ⟨1, fun _ => -1, fun _ => 1, fun _ => .neumann, fun _ => .neumann, 0⟩

/-- **C57, negation.** A node with an odd negative sum of coordinates is visited in both passes. -/
theorem negative_twice : visits negative = [0, 1, 0] := by decide

/-- The conditions of the theorems hold for the plain energy on a line of four nodes. -/
example : Serial (ring 4) ∧ Nonneg (ring 4) ∧ EvenPeriods (ring 4) ∧ Linearised (vanilla : Params ℚ) ∧ (vanilla : Params ℚ).omega ≠ 0 ∧ Solvable (vanilla : Params ℚ) (ring 4) (fun _ => 1) :=
  ⟨ring_serial (by norm_num), fun _ _ => le_refl _, fun _ _ _ => ⟨2, rfl⟩, vanilla_nonlinear, by norm_num [vanilla], vanilla_solvable _⟩

/-- A solution of a step: the well of the plain energy. -/
example : Scheme (vanilla : Params ℚ) (ring 4) (fun _ => 1) (fun _ => (1, 0)) (fun _ => (1, 0)) := by
  intro n _ _
  simp [r1, r2, lap, vanilla]
  norm_num

/-- Another solution, with different states: a uniform composition stays, the potential adjusts. -/
example : Scheme (vanilla : Params ℚ) (ring 4) (fun _ => 1) (fun _ => (1 / 2, 7)) (fun _ => (1 / 2, -3 / 8)) := by
  intro n _ _
  simp [r1, r2, lap, vanilla]
  norm_num

/-- The test is passed at a solution. -/
example : Passed (vanilla : Params ℚ) (ring 4) (fun _ => 1) (fun x => x) (fun _ => (1, 0)) (fun _ => (1, 0)) := by unfold Passed; decide +kernel

/-- The conditions of the split for the constants of the example. -/
example : Splits (benchmark : Params ℚ) (3 / 10) (4 / 10) := by
  unfold benchmark; exact parametric_splits (by norm_num) (by norm_num) (by norm_num) (by norm_num) (by norm_num) (by norm_num) (by norm_num)

end MMSP.ConvexSplit
