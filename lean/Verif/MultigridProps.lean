import Verif.Multigrid
import Verif.BufferProps
import Verif.ConvertProps
import Mathlib.Algebra.Order.Field.Basic
import Mathlib.Algebra.Order.BigOperators.Group.Finset
import Mathlib.Algebra.BigOperators.Field
import Mathlib.Tactic.FieldSimp
import Mathlib.Tactic.Ring
import Mathlib.Tactic.Linarith
/-!
# The multigrid solver: claims

The specification is Poisson's equation on the nodes of a level: `Solves` says that the sum of the second differences, with the stride as distance, is the right-hand side at every
inner node of the level.
-/

namespace MMSP.Multigrid

open Stencil (gridAt)

/-! ## Specification -/

section
variable {α : Type} [Field α]

/-- A serial grid starting at the origin whose sides are multiples of the stride. -/
structure Aligned (g : Shape) (s : Nat) : Prop where
  wf : g.Wf
  ghosts : g.ghosts = 0
  x0 : ∀ j, j < g.dim → g.x0 j = 0
  pos : 0 < s
  dvd : ∀ j, j < g.dim → (s : Int) ∣ g.x1 j - 1

/-- Value at a node. -/
def val (g : Shape) (u : Int → α) (x : Nat → Int) : α := u (g.rawOffset x)

/-- A node of the level that is not on the boundary. -/
def Inner (g : Shape) (s : Nat) (x : Nat → Int) : Prop := ∀ j, j < g.dim → 0 < x j ∧ x j < g.x1 j - 1 ∧ (s : Int) ∣ x j

/-- The discrete Laplacian with stride `s`. -/
def lap (g : Shape) (dx : Nat → α) (s : Nat) (u : Int → α) (x : Nat → Int) : α :=
  ∑ a ∈ Finset.range g.dim, (val g u (move x a (-s)) - 2 * val g u x + val g u (move x a s)) / h2 dx s a

/-- `u` solves Poisson's equation on the level. -/
def Solves (g : Shape) (dx : Nat → α) (s : Nat) (f u : Int → α) : Prop := ∀ x, Inner g s x → lap g dx s u x = val g f x

/-! ## Lists of nodes -/

omit [Field α] in
theorem mem_lattice {values : Nat → List Int} {n : Nat} {x : Nat → Int} : x ∈ lattice values n ↔ (∀ j, j < n → x j ∈ values j) ∧ ∀ j, n ≤ j → x j = 0 := by
  induction n generalizing x with
  | zero =>
    rw [lattice, List.mem_singleton]
    constructor
    · rintro rfl; exact ⟨fun j h => absurd h (by omega), fun _ _ => rfl⟩
    · rintro ⟨-, h⟩; funext j; exact h j (by omega)
  | succ n ih =>
    rw [lattice, List.mem_flatMap]
    simp only [List.mem_map]
    constructor
    · rintro ⟨p, hp, c, hc, rfl⟩
      obtain ⟨h1, h2⟩ := ih.1 hp
      refine ⟨fun j hj => ?_, fun j hj => ?_⟩
      · by_cases e : j = n
        · subst e; rw [Function.update_self]; exact hc
        · rw [Function.update_of_ne e]; exact h1 j (by omega)
      · rw [Function.update_of_ne (by omega)]; exact h2 j (by omega)
    · rintro ⟨h1, h2⟩
      refine ⟨Function.update x n 0, ih.2 ⟨fun j hj => ?_, fun j hj => ?_⟩, x n, h1 n (by omega), ?_⟩
      · rw [Function.update_of_ne (by omega)]; exact h1 j (by omega)
      · by_cases e : j = n
        · subst e; rw [Function.update_self]
        · rw [Function.update_of_ne e]; exact h2 j (by omega)
      · rw [Function.update_idem, Function.update_eq_self]

omit [Field α] in
theorem nodup_lattice {values : Nat → List Int} {n : Nat} (h : ∀ j, j < n → (values j).Nodup) : (lattice values n).Nodup := by
  induction n with
  | zero => simp [lattice]
  | succ n ih =>
    rw [lattice, List.nodup_flatMap]
    constructor
    · intro p _
      apply (h n (by omega)).map
      intro a b e
      have := congrFun e n
      simpa using this
    · refine List.Nodup.pairwise_of_forall_ne (ih fun j hj => h j (by omega)) ?_
      intro p hp q hq hne
      rw [Function.onFun, List.disjoint_left]
      intro z hz hz'
      rw [List.mem_map] at hz hz'
      obtain ⟨c, -, rfl⟩ := hz
      obtain ⟨c', -, e⟩ := hz'
      apply hne
      funext j
      by_cases ej : j = n
      · subst ej; rw [(mem_lattice.1 hp).2 j (le_refl _), (mem_lattice.1 hq).2 j (le_refl _)]
      · have := congrFun e j
        rw [Function.update_of_ne ej, Function.update_of_ne ej] at this
        exact this.symm

omit [Field α] in
theorem nodup_irange {st : Nat} (h : 0 < st) (a b : Int) : (irange st a b).Nodup := by
  unfold irange
  apply List.nodup_range.map
  intro i j e
  have e' : (st : Int) * i = st * j := by
    have : a + (st : Int) * i = a + st * j := e
    omega
  have := Int.eq_of_mul_eq_mul_left (by omega : (st : Int) ≠ 0) e'
  exact_mod_cast this

omit [Field α] in
/-- The nodes of the loops over a level are its inner nodes. -/
theorem mem_inner {g : Shape} {s : Nat} (hs : 0 < s) {x : Nat → Int} : x ∈ inner g s ↔ Inner g s x ∧ ∀ j, g.dim ≤ j → x j = 0 := by
  unfold inner Inner
  rw [mem_lattice]
  apply and_congr_left
  intro _
  apply forall_congr'
  intro j
  apply forall_congr'
  intro _
  rw [mem_irange hs]
  constructor
  · rintro ⟨h1, h2, h3⟩
    exact ⟨by omega, h2, by have := Int.dvd_add h3 (Int.dvd_refl (s : Int)); simpa using this⟩
  · rintro ⟨h1, h2, h3⟩
    refine ⟨Int.le_of_dvd h1 h3, h2, Int.dvd_sub h3 (Int.dvd_refl _)⟩

omit [Field α] in
theorem nodup_inner {g : Shape} {s : Nat} (hs : 0 < s) : (inner g s).Nodup := nodup_lattice fun _ _ => nodup_irange hs _ _

/-! ## Subscripts inside the box -/

omit [Field α] in
theorem get_ok {g : Shape} (hw : g.Wf) (h0 : g.ghosts = 0) {x : Nat → Int} (hx : g.IsNode x) (u : Int → α) : gridAt .serial g u x = .ok (val g u x) := by
  have hc : g.IsCell x := fun j hj => by have := hx j hj; omega
  have hat : g.atVec .serial x = g.rawOffset x := Shape.atVec_eq_raw .serial fun j hj => checkBoundary_inside _ _ _ _ _ _ (hx j hj)
  unfold gridAt deref val
  rw [hat]
  exact if_pos (Shape.rawOffset_bounds hw hc)

omit [Field α] in
theorem set_ok {g : Shape} (hw : g.Wf) (h0 : g.ghosts = 0) {x : Nat → Int} (hx : g.IsNode x) (u : Int → α) (v : α) :
    setAt g u x v = .ok (Function.update u (g.rawOffset x) v) := by
  have hc : g.IsCell x := fun j hj => by have := hx j hj; omega
  have hat : g.atVec .serial x = g.rawOffset x := Shape.atVec_eq_raw .serial fun j hj => checkBoundary_inside _ _ _ _ _ _ (hx j hj)
  unfold setAt store
  rw [hat]
  exact if_pos (Shape.rawOffset_bounds hw hc)

omit [Field α] in
theorem raw_inj {g : Shape} (h0 : g.ghosts = 0) {x y : Nat → Int} (hx : g.IsNode x) (hy : g.IsNode y) (h : g.rawOffset x = g.rawOffset y) : g.SamePoint x y :=
  Shape.rawOffset_inj (fun j hj => by have := hx j hj; omega) (fun j hj => by have := hy j hj; omega) h

omit [Field α] in
theorem inner_isNode {g : Shape} {s : Nat} (ha : Aligned g s) {x : Nat → Int} (hx : Inner g s x) : g.IsNode x := by
  intro j hj
  have := hx j hj
  rw [ha.x0 j hj]
  exact ⟨by omega, by omega⟩

/-- A neighbour on the level of an inner node is a node. -/
theorem dvd_le {s : Nat} {a b : Int} (hb : (s : Int) ∣ b) (ha : (s : Int) ∣ a) (h : a < b) : a + s ≤ b := by
  have := Int.le_of_dvd (show 0 < b - a by omega) (Int.dvd_sub hb ha)
  omega

omit [Field α] in
theorem move_isNode {g : Shape} {s : Nat} (ha : Aligned g s) {x : Nat → Int} (hx : Inner g s x) (a : Nat) {k : Int} (hk : k = s ∨ k = -s) : g.IsNode (move x a k) := by
  intro j hj
  have h := hx j hj
  have h0 := ha.x0 j hj
  have hd := ha.dvd j hj
  have hs := ha.pos
  unfold move
  by_cases e : j = a
  · subst e
    rw [Function.update_self, h0]
    have h1 := dvd_le hd h.2.2 h.2.1
    have h2 := Int.le_of_dvd h.1 h.2.2
    rcases hk with rfl | rfl <;> exact ⟨by omega, by omega⟩
  · rw [Function.update_of_ne e, h0]; exact ⟨by omega, by omega⟩

/-! ## Loops that assign to nodes -/

omit [Field α] in
/-- A loop all of whose subscripts are inside. -/
theorem loop_ok {g : Shape} (hw : g.Wf) (h0 : g.ghosts = 0) {e : (Int → α) → (Nat → Int) → α} {body : (Int → α) → (Nat → Int) → Outcome α} {L : List (Nat → Int)} (hL : ∀ x ∈ L, g.IsNode x)
    (hb : ∀ u, ∀ x ∈ L, body u x = .ok (e u x)) (u : Int → α) :
    L.foldlM (fun u x => (body u x).bind fun v => setAt g u x v) u = Outcome.ok (L.foldl (fun u x => Function.update u (g.rawOffset x) (e u x)) u) := by
  induction L generalizing u with
  | nil => rfl
  | cons x L ih =>
    rw [List.foldlM_cons, hb u x (by simp), Outcome.bind_eq, Outcome.ok_bind, set_ok hw h0 (hL x (by simp)), Outcome.ok_bind, List.foldl_cons]
    exact ih (fun y hy => hL y (by simp [hy])) (fun u y hy => hb u y (by simp [hy])) _

omit [Field α] in
/-- Nodes that are not in the list keep their values. -/
theorem loop_other {off : (Nat → Int) → Int} {e : (Int → α) → (Nat → Int) → α} {L : List (Nat → Int)} {p : Int} (hp : ∀ x ∈ L, off x ≠ p) (u : Int → α) :
    L.foldl (fun u x => Function.update u (off x) (e u x)) u p = u p := by
  induction L generalizing u with
  | nil => rfl
  | cons x L ih =>
    rw [List.foldl_cons, ih (fun y hy => hp y (by simp [hy]))]
    exact Function.update_of_ne (Ne.symm (hp x (by simp))) _ _

omit [Field α] in
theorem loop_invariant {off : (Nat → Int) → Int} {e : (Int → α) → (Nat → Int) → α} {L : List (Nat → Int)} (P : (Int → α) → Prop)
    (hP : ∀ u, ∀ x ∈ L, P u → P (Function.update u (off x) (e u x))) {u : Int → α} (hu : P u) : P (L.foldl (fun u x => Function.update u (off x) (e u x)) u) := by
  induction L generalizing u with
  | nil => exact hu
  | cons x L ih =>
    rw [List.foldl_cons]
    exact ih (fun u y hy => hP u y (by simp [hy])) (hP u x (by simp) hu)

omit [Field α] in
/-- A loop that visits every node once leaves the values alone if and only if every assignment does. -/
theorem loop_fixed {off : (Nat → Int) → Int} {e : (Int → α) → (Nat → Int) → α} {L : List (Nat → Int)} (hn : (L.map off).Nodup) (u : Int → α) :
    L.foldl (fun u x => Function.update u (off x) (e u x)) u = u ↔ ∀ x ∈ L, e u x = u (off x) := by
  induction L generalizing u with
  | nil => simp
  | cons x L ih =>
    rw [List.map_cons, List.nodup_cons] at hn
    rw [List.foldl_cons]
    have hkey : e u x = u (off x) → Function.update u (off x) (e u x) = u := fun h => by rw [h, Function.update_eq_self]
    constructor
    · intro h
      have hx : e u x = u (off x) := by
        have h1 := congrFun h (off x)
        rw [loop_other (fun y hy e => hn.1 (List.mem_map.2 ⟨y, hy, e⟩)), Function.update_self] at h1
        exact h1
      rw [hkey hx] at h
      have := (ih hn.2 u).1 h
      intro y hy
      rcases List.mem_cons.1 hy with rfl | hy
      · exact hx
      · exact this y hy
    · intro h
      rw [hkey (h x (by simp))]
      exact (ih hn.2 u).2 fun y hy => h y (by simp [hy])

/-! ## Smoothing -/

/-- The value assigned by the smoother. -/
def relax (g : Shape) (dx : Nat → α) (s : Nat) (f u : Int → α) (x : Nat → Int) : α :=
  -weight g dx s * val g f x + ∑ a ∈ Finset.range g.dim, weight g dx s / h2 dx s a * (val g u (move x a (-s)) + val g u (move x a s))

theorem relaxed_ok {g : Shape} {s : Nat} (ha : Aligned g s) (dx : Nat → α) (f u : Int → α) {x : Nat → Int} (hx : Inner g s x) :
    relaxed g dx s f u x = .ok (relax g dx s f u x) := by
  unfold relaxed relax
  rw [get_ok ha.wf ha.ghosts (inner_isNode ha hx), Outcome.ok_bind]
  generalize -weight g dx s * val g f x = z
  generalize g.dim = n
  induction n with
  | zero => simp
  | succ n ih =>
    rw [List.range_succ, List.foldlM_append, ih, Finset.sum_range_succ, Outcome.bind_eq, Outcome.ok_bind, List.foldlM_cons, get_ok ha.wf ha.ghosts (move_isNode ha hx n (Or.inr rfl)),
      Outcome.ok_bind, get_ok ha.wf ha.ghosts (move_isNode ha hx n (Or.inl rfl)), Outcome.ok_bind, Outcome.bind_eq, Outcome.ok_bind, List.foldlM_nil, Outcome.pure_eq, add_assoc]

omit [Field α] in
theorem mem_order {g : Shape} {s : Nat} (ha : Aligned g s) {x : Nat → Int} : x ∈ order g s ↔ x ∈ inner g s := by
  unfold order
  rw [List.mem_append, List.mem_filter, List.mem_filter, ← and_or_left]
  constructor
  · exact fun h => h.1
  · intro h
    refine ⟨h, ?_⟩
    have hn := inner_isNode ha ((mem_inner ha.pos).1 h).1
    have hpos : 0 ≤ ∑ j ∈ Finset.range g.dim, x j := Finset.sum_nonneg fun j hj => by
      have := hn j (Finset.mem_range.1 hj)
      have := ha.x0 j (Finset.mem_range.1 hj)
      omega
    have hm : parity g x = 0 ∨ parity g x = 1 := by
      unfold parity
      rw [Int.tmod_eq_emod_of_nonneg hpos]
      omega
    unfold second
    rcases hm with h | h
    · exact Or.inl (by simp [h])
    · refine Or.inr ?_
      split_ifs <;> simp [h]

omit [Field α] in
theorem nodup_order {g : Shape} {s : Nat} (ha : Aligned g s) : ((order g s).map g.rawOffset).Nodup := by
  have hnd : (order g s).Nodup := by
    unfold order
    rw [List.nodup_append]
    refine ⟨(nodup_inner ha.pos).filter _, (nodup_inner ha.pos).filter _, ?_⟩
    intro x hx y hy e
    subst e
    have h1 := (List.mem_filter.1 hx).2
    have h2 := (List.mem_filter.1 hy).2
    rw [decide_eq_true_iff] at h1
    unfold second at h2
    split_ifs at h2
    · rw [decide_eq_true_iff] at h2; exact h2 h1
    · rw [decide_eq_true_iff] at h2; omega
  apply List.Nodup.map_on _ hnd
  intro x hx y hy e
  have hx' := (mem_inner ha.pos).1 ((mem_order ha).1 hx)
  have hy' := (mem_inner ha.pos).1 ((mem_order ha).1 hy)
  have hsame := raw_inj ha.ghosts (inner_isNode ha hx'.1) (inner_isNode ha hy'.1) e
  funext j
  by_cases hj : j < g.dim
  · exact hsame j hj
  · rw [hx'.2 j (by omega), hy'.2 j (by omega)]

/-- One iteration as a loop of assignments. -/
def swept (g : Shape) (dx : Nat → α) (s : Nat) (f u : Int → α) : Int → α :=
  (order g s).foldl (fun u x => Function.update u (g.rawOffset x) (relax g dx s f u x)) u

theorem sweep_ok {g : Shape} {s : Nat} (ha : Aligned g s) (dx : Nat → α) (f u : Int → α) : sweep g dx s f u = .ok (swept g dx s f u) := by
  unfold sweep swept
  have hin : ∀ x ∈ order g s, Inner g s x := fun x hx => ((mem_inner ha.pos).1 ((mem_order ha).1 hx)).1
  exact loop_ok ha.wf ha.ghosts (fun x hx => inner_isNode ha (hin x hx)) (fun u x hx => relaxed_ok ha dx f u (hin x hx)) u

/-- **C56.** The smoother reads and writes only nodes of the grid. -/
theorem smooth_ok {g : Shape} {s : Nat} (ha : Aligned g s) (dx : Nat → α) (f : Int → α) (n : Nat) (u : Int → α) : smooth g dx s f n u = .ok ((swept g dx s f)^[n] u) := by
  induction n generalizing u with
  | zero => rfl
  | succ n ih => rw [smooth, sweep_ok ha, Outcome.ok_bind, ih, Function.iterate_succ_apply]

/-- Weights of a level. -/
def Spaced (g : Shape) (dx : Nat → α) (s : Nat) : Prop := (∀ a, a < g.dim → h2 dx s a ≠ 0) ∧ ∑ a ∈ Finset.range g.dim, 2 / h2 dx s a ≠ 0

/-- An assignment of the smoother changes nothing exactly where the equation holds. -/
theorem relax_fixed {g : Shape} {dx : Nat → α} {s : Nat} (hd : Spaced g dx s) (f u : Int → α) (x : Nat → Int) : relax g dx s f u x = val g u x ↔ lap g dx s u x = val g f x := by
  have hW := hd.2
  have h1 : lap g dx s u x = ∑ a ∈ Finset.range g.dim, (val g u (move x a (-s)) + val g u (move x a s)) / h2 dx s a - (∑ a ∈ Finset.range g.dim, 2 / h2 dx s a) * val g u x := by
    unfold lap
    rw [Finset.sum_mul, ← Finset.sum_sub_distrib]
    apply Finset.sum_congr rfl
    intro a _
    ring
  have h2' : relax g dx s f u x = (∑ a ∈ Finset.range g.dim, (val g u (move x a (-s)) + val g u (move x a s)) / h2 dx s a - val g f x) / ∑ a ∈ Finset.range g.dim, 2 / h2 dx s a := by
    unfold relax weight
    rw [sub_div, Finset.sum_div, sub_eq_neg_add]
    congr 1
    · ring
    · apply Finset.sum_congr rfl
      intro a _
      ring
  rw [h1, h2', div_eq_iff hW]
  constructor
  · intro h; rw [sub_eq_iff_eq_add] at h ⊢; rw [h]; ring
  · intro h; rw [sub_eq_iff_eq_add] at h ⊢; rw [h]; ring

/-- **C56.** One iteration of the smoother leaves `u` alone if and only if `u` solves the equation on this level. -/
theorem sweep_fixed_iff {g : Shape} {s : Nat} (ha : Aligned g s) {dx : Nat → α} (hd : Spaced g dx s) (f u : Int → α) : sweep g dx s f u = .ok u ↔ Solves g dx s f u := by
  rw [sweep_ok ha]
  have : (Outcome.ok (swept g dx s f u) = Outcome.ok u) ↔ swept g dx s f u = u := ⟨Outcome.ok.inj, fun h => by rw [h]⟩
  rw [this]
  unfold swept
  rw [loop_fixed (nodup_order ha)]
  constructor
  · intro h x hx
    -- the representative in the list
    let y : Nat → Int := fun j => if j < g.dim then x j else 0
    have hxy : g.SamePoint y x := fun j hj => if_pos hj
    have hy : y ∈ order g s := (mem_order ha).2 ((mem_inner ha.pos).2 ⟨fun j hj => by rw [hxy j hj]; exact hx j hj, fun j hj => if_neg (by omega)⟩)
    have h1 := (relax_fixed hd f u y).1 (h y hy)
    have hval : ∀ (w : Int → α), val g w y = val g w x := fun w => by unfold val; rw [rawOffset_congr hxy]
    have hmove : ∀ (w : Int → α) (a : Nat) (k : Int), a < g.dim → val g w (move y a k) = val g w (move x a k) := by
      intro w a k hag
      unfold val
      rw [rawOffset_congr]
      intro j hj
      unfold move
      by_cases e : j = a
      · subst e; rw [Function.update_self, Function.update_self, hxy j hj]
      · rw [Function.update_of_ne e, Function.update_of_ne e, hxy j hj]
    rw [← hval f, ← h1]
    unfold lap
    apply Finset.sum_congr rfl
    intro a ha'
    rw [hmove u a _ (Finset.mem_range.1 ha'), hmove u a _ (Finset.mem_range.1 ha'), hval u]
  · intro h x hx
    exact (relax_fixed hd f u x).2 (h x ((mem_inner ha.pos).1 ((mem_order ha).1 hx)).1)

theorem swept_fixed {g : Shape} {s : Nat} (ha : Aligned g s) {dx : Nat → α} (hd : Spaced g dx s) {f u : Int → α} (h : Solves g dx s f u) : swept g dx s f u = u := by
  have := (sweep_fixed_iff ha hd f u).2 h
  rw [sweep_ok ha] at this
  exact Outcome.ok.inj this

/-- **C56.** A solution stays as it is, whatever the number of iterations. -/
theorem smooth_fixed {g : Shape} {s : Nat} (ha : Aligned g s) {dx : Nat → α} (hd : Spaced g dx s) {f u : Int → α} (h : Solves g dx s f u) (n : Nat) : smooth g dx s f n u = .ok u := by
  rw [smooth_ok ha]
  congr 1
  induction n with
  | zero => rfl
  | succ n ih => rw [Function.iterate_succ_apply, swept_fixed ha hd h, ih]

/-- Nodes on the boundary and nodes of finer levels. -/
theorem swept_other {g : Shape} {s : Nat} (ha : Aligned g s) (dx : Nat → α) (f u : Int → α) {x : Nat → Int} (hx : g.IsNode x) (hn : ¬ Inner g s x) : val g (swept g dx s f u) x = val g u x := by
  unfold val swept
  apply loop_other
  intro y hy e
  have hy' := ((mem_inner ha.pos).1 ((mem_order ha).1 hy)).1
  have := raw_inj ha.ghosts (inner_isNode ha hy') hx e
  exact hn fun j hj => by rw [← this j hj]; exact hy' j hj

/-- **C56.** The smoother changes nothing but the inner nodes of its level. -/
theorem smooth_other {g : Shape} {s : Nat} (ha : Aligned g s) (dx : Nat → α) (f : Int → α) (n : Nat) (u : Int → α) {x : Nat → Int} (hx : g.IsNode x) (hn : ¬ Inner g s x) :
    ∃ u', smooth g dx s f n u = .ok u' ∧ val g u' x = val g u x := by
  refine ⟨_, smooth_ok ha dx f n u, ?_⟩
  induction n generalizing u with
  | zero => rfl
  | succ n ih => rw [Function.iterate_succ_apply, ih, swept_other ha dx f u hx hn]

end

section
variable {α : Type} [Field α] [LinearOrder α] [IsStrictOrderedRing α]

theorem spaced_of_pos {g : Shape} (hg : 0 < g.dim) {dx : Nat → α} (hdx : ∀ a, a < g.dim → dx a ≠ 0) {s : Nat} (hs : 0 < s) : Spaced g dx s := by
  have hp : ∀ a, a < g.dim → 0 < h2 dx s a := by
    intro a ha
    unfold h2
    have : (s : α) * dx a ≠ 0 := mul_ne_zero (by exact_mod_cast (show s ≠ 0 by omega)) (hdx a ha)
    exact mul_self_pos.2 this
  refine ⟨fun a ha => (hp a ha).ne', ?_⟩
  apply ne_of_gt
  apply Finset.sum_pos
  · intro a ha
    exact div_pos two_pos (hp a (Finset.mem_range.1 ha))
  · exact ⟨0, Finset.mem_range.2 hg⟩

/-- **C56.** The smoother never increases the largest error: if `u` is within `M` of a solution at every node, it is so afterwards. -/
theorem smooth_error {g : Shape} {s : Nat} (ha : Aligned g s) {dx : Nat → α} (hdx : ∀ a, a < g.dim → dx a ≠ 0) {f sol : Int → α} (hsol : Solves g dx s f sol) {M : α} (n : Nat) {u : Int → α}
    (hu : ∀ x, g.IsNode x → |val g u x - val g sol x| ≤ M) : ∃ u', smooth g dx s f n u = .ok u' ∧ ∀ x, g.IsNode x → |val g u' x - val g sol x| ≤ M := by
  have hd := spaced_of_pos ha.wf.dim_pos hdx ha.pos
  have hp : ∀ a, a < g.dim → 0 < h2 dx s a := by
    intro a hag
    unfold h2
    have : (s : α) * dx a ≠ 0 := mul_ne_zero (by have := ha.pos; exact_mod_cast (show s ≠ 0 by omega)) (hdx a hag)
    exact mul_self_pos.2 this
  have hWpos : 0 < ∑ a ∈ Finset.range g.dim, 2 / h2 dx s a :=
    Finset.sum_pos (fun a h => div_pos two_pos (hp a (Finset.mem_range.1 h))) ⟨0, Finset.mem_range.2 ha.wf.dim_pos⟩
  have hone : ∀ u : Int → α, (∀ x, g.IsNode x → |val g u x - val g sol x| ≤ M) → ∀ x, Inner g s x → |relax g dx s f u x - val g sol x| ≤ M := by
    intro u hu x hx
    have e1 : relax g dx s f sol x = val g sol x := (relax_fixed hd f sol x).2 (hsol x hx)
    rw [← e1]
    have e2 : relax g dx s f u x - relax g dx s f sol x =
        ∑ a ∈ Finset.range g.dim, weight g dx s / h2 dx s a * ((val g u (move x a (-s)) - val g sol (move x a (-s))) + (val g u (move x a s) - val g sol (move x a s))) := by
      unfold relax
      rw [add_sub_add_left_eq_sub, ← Finset.sum_sub_distrib]
      apply Finset.sum_congr rfl
      intro a _
      ring
    rw [e2]
    have hw : 0 < weight g dx s := by unfold weight; exact one_div_pos.2 hWpos
    have e3 : ∀ a ∈ Finset.range g.dim, |weight g dx s / h2 dx s a * ((val g u (move x a (-s)) - val g sol (move x a (-s))) + (val g u (move x a s) - val g sol (move x a s)))| ≤
        weight g dx s * (2 / h2 dx s a) * M := by
      intro a hag
      have hag := Finset.mem_range.1 hag
      have hpa := hp a hag
      rw [abs_mul, abs_of_pos (div_pos hw hpa)]
      have b1 := hu _ (move_isNode ha hx a (Or.inr rfl))
      have b2 := hu _ (move_isNode ha hx a (Or.inl rfl))
      have b3 : |(val g u (move x a (-s)) - val g sol (move x a (-s))) + (val g u (move x a s) - val g sol (move x a s))| ≤ 2 * M := by
        refine (abs_add_le _ _).trans ?_
        linarith
      calc weight g dx s / h2 dx s a * _ ≤ weight g dx s / h2 dx s a * (2 * M) := mul_le_mul_of_nonneg_left b3 (div_pos hw hpa).le
        _ = weight g dx s * (2 / h2 dx s a) * M := by ring
    refine (Finset.abs_sum_le_sum_abs _ _).trans ((Finset.sum_le_sum e3).trans ?_)
    rw [← Finset.sum_mul, ← Finset.mul_sum]
    unfold weight
    rw [one_div, inv_mul_cancel₀ hWpos.ne', one_mul]
  refine ⟨_, smooth_ok ha dx f n u, ?_⟩
  induction n generalizing u with
  | zero => exact hu
  | succ n ih =>
    rw [Function.iterate_succ_apply]
    apply ih
    unfold swept
    apply loop_invariant (fun u => ∀ x, g.IsNode x → |val g u x - val g sol x| ≤ M) _ hu
    intro u x hx hu y hy
    have hx' := ((mem_inner ha.pos).1 ((mem_order ha).1 hx)).1
    by_cases e : g.rawOffset y = g.rawOffset x
    · have h1 : val g (Function.update u (g.rawOffset x) (relax g dx s f u x)) y = relax g dx s f u x := by unfold val; rw [e, Function.update_self]
      have h2 : val g sol y = val g sol x := by unfold val; rw [e]
      rw [h1, h2]
      exact hone u hu x hx'
    · have h1 : val g (Function.update u (g.rawOffset x) (relax g dx s f u x)) y = val g u y := by unfold val; rw [Function.update_of_ne e]
      rw [h1]; exact hu y hy

end

end MMSP.Multigrid
