import Verif.ParallelBoard
import Verif.ParallelExamplesLink
/-!
# Convex splitting in an MPI build: theorems
-/

namespace MMSP.Board

open ParallelRun Stencil ConvexSplit
open Ghost (IsRank isNode_global)

variable {V : Type}

/-! ## Specification -/

/-- A right-hand side that reads `oldGrid` at the node and `newGrid` at the node and its nearest neighbours. -/
def Star {R : Type} (d : Nat) (f : (Nat → (Nat → Int) → Outcome V) → (Nat → Int) → Outcome R) : Prop :=
  ∀ A B x x', (∀ j, j < d → x j = x' j) → A 0 x = B 0 x' → A 1 x = B 1 x' → (∀ i, i < d → ∀ k : Int, k = 1 ∨ k = -1 → A 1 (bump x i k) = B 1 (bump x' i k)) → f A x = f B x'

/-- It cannot fail if the accesses do not. -/
def Total {R : Type} (d : Nat) (f : (Nat → (Nat → Int) → Outcome V) → (Nat → Int) → Outcome R) : Prop :=
  ∀ A x, (∃ v, A 0 x = .ok v) → (∃ v, A 1 x = .ok v) → (∀ i, i < d → ∀ k : Int, k = 1 ∨ k = -1 → ∃ v, A 1 (bump x i k) = .ok v) → ∃ v, f A x = .ok v

/-- A grid that can be coloured like a chess board: no negative coordinates, periodic axes of even length. -/
structure Colourable (w : World) : Prop where
  nonneg : ∀ j, j < w.d → 0 ≤ w.g0 j
  even : ∀ j, j < w.d → w.B0 j = .periodic ∨ w.B1 j = .periodic → 2 ∣ w.g1 j - w.g0 j

/-! ## One colour -/

theorem runLoop_gen {bd : Build} {g : Shape} (hg : g.Wf) (hser : bd = .serial → g.ghosts = 0) {dst : Nat} {kern : Kernel V}
    {σ : Grids V} {val : Int → V}
    (hk : ∀ (n : Nat) (σ' : Grids V), (n : Int) < g.nodes → (∀ k, k ≠ dst → σ' k = σ k) → (∀ i : Int, 0 ≤ i → i < n → σ' dst (g.atNode bd i) = val i) →
      (∀ p, (∀ i : Int, 0 ≤ i → i < n → g.atNode bd i ≠ p) → σ' dst p = σ dst p) → kern (fun k => gridAt bd g (σ' k)) (g.position n) = .ok (val n)) :
    ∃ σ', runLoop bd g dst kern σ = .ok σ' ∧ (∀ k, k ≠ dst → σ' k = σ k) ∧
      (∀ i, 0 ≤ i → i < g.nodes → σ' dst (g.atNode bd i) = val i) ∧
      (∀ p, (∀ i, 0 ≤ i → i < g.nodes → g.atNode bd i ≠ p) → σ' dst p = σ dst p) := by
  have key : ∀ n : Nat, (n : Int) ≤ g.nodes → ∃ σ', (List.range n).foldlM (fun (σ : Grids V) (i : Nat) =>
      (kern (fun k => gridAt bd g (σ k)) (g.position i)).bind fun v =>
      (store g (σ dst) (g.atNode bd i) v).bind fun a => .ok (Function.update σ dst a)) σ = .ok σ' ∧
      (∀ k, k ≠ dst → σ' k = σ k) ∧ (∀ i : Int, 0 ≤ i → i < n → σ' dst (g.atNode bd i) = val i) ∧
      (∀ p, (∀ i : Int, 0 ≤ i → i < n → g.atNode bd i ≠ p) → σ' dst p = σ dst p) := by
    intro n
    induction n with
    | zero => intro _; exact ⟨σ, rfl, fun _ _ => rfl, fun i h0 h1 => absurd h1 (by omega), fun _ _ => rfl⟩
    | succ n ih =>
      intro hn
      obtain ⟨σ', e, ho, hv, hp⟩ := ih (by omega)
      have hb : 0 ≤ g.atNode bd n ∧ g.atNode bd n < g.cells := by
        rw [atNode_raw hg hser (by omega) (by omega)]
        exact Shape.rawOffset_bounds hg (isCell_of_isNode hg.ghosts (Shape.position_isNode hg (by omega) (by omega)))
      have hst : store g (σ' dst) (g.atNode bd n) (val n) = .ok (Function.update (σ' dst) (g.atNode bd n) (val n)) := by
        unfold store; exact if_pos hb
      refine ⟨Function.update σ' dst (Function.update (σ' dst) (g.atNode bd n) (val n)), ?_, ?_, ?_, ?_⟩
      · rw [List.range_succ, List.foldlM_append, e]
        simp only [List.foldlM_cons, List.foldlM_nil, Outcome.bind_eq, Outcome.ok_bind, Outcome.pure_eq, hk n σ' (by omega) ho hv hp, hst]
      · intro k hkd; rw [Function.update_of_ne hkd]; exact ho k hkd
      · intro i h0 h1
        rw [Function.update_self]
        by_cases ei : i = n
        · subst ei; rw [Function.update_self]
        · rw [Function.update_of_ne fun e => ei (atNode_inj hg hser h0 (by omega) (by omega) (by omega) e)]
          exact hv i h0 (by omega)
      · intro p hp'
        rw [Function.update_self, Function.update_of_ne fun e => hp' n (by omega) (by omega) e.symm]
        exact hp p fun i h0 h1 => hp' i h0 (by omega)
  have hnn : 0 ≤ g.nodes := by
    rw [Shape.nodes_eq hg]; exact Finset.prod_nonneg fun k hk => by have := hg.side k (Finset.mem_range.mp hk); omega
  obtain ⟨σ', e, ho, hv, hp⟩ := key g.nodes.toNat (by omega)
  have ht : ((g.nodes.toNat : Nat) : Int) = g.nodes := Int.toNat_of_nonneg hnn
  rw [ht] at hv hp
  exact ⟨σ', e, ho, hv, hp⟩

/-- A neighbour on an axis is the node itself or lies an odd distance away. -/
theorem neighbour_parity {bd : Build} {x x0 x1 k : Int} {b0 b1 : BC} (h0 : x0 ≤ x) (h1 : x < x1) (hk : k = 1 ∨ k = -1)
    (he : bd = .serial → b0 = .periodic ∨ b1 = .periodic → 2 ∣ x1 - x0) :
    checkBoundary bd (x + k) x0 x1 b0 b1 = x ∨ (checkBoundary bd (x + k) x0 x1 b0 b1 - x) % 2 = 1 := by
  unfold checkBoundary
  rcases hk with rfl | rfl <;> split_ifs <;> try omega
  · have := he (by simp_all) (by simp_all); omega
  · have := he (by simp_all) (by simp_all); omega

/-- The array index that an access reaches. -/
def landing (bd : Build) (g : Shape) (y : Nat → Int) : Nat → Int := fun j => checkBoundary bd (y j) (g.x0 j) (g.x1 j) (g.b0 j) (g.b1 j)

/-- One colour on one process: every tile gets the value computed from the state before. -/
theorem board_cells {bd : Build} {g : Shape} (hg : g.Wf) (hser : bd = .serial → g.ghosts = 0) (hn : ∀ j, j < g.dim → 0 ≤ g.x0 j)
    (he : bd = .serial → ∀ j, j < g.dim → g.b0 j = .periodic ∨ g.b1 j = .periodic → 2 ∣ g.x1 j - g.x0 j)
    (hland : ∀ x, g.IsNode x → ∀ i, i < g.dim → ∀ k : Int, k = 1 ∨ k = -1 → g.IsCell (landing bd g (bump x i k))) {color : Int} (hcol : color = 0 ∨ color = 1) {kern : Kernel V}
    (hst : Star g.dim kern) {σ : Grids V} {val : (Nat → Int) → V} (hval : ∀ x y, g.SamePoint x y → val x = val y)
    (hk : ∀ x, g.IsNode x → boardKernel g.dim color kern (fun k => gridAt bd g (σ k)) x = .ok (val x)) :
    ∃ σ', runLoop bd g 1 (boardKernel g.dim color kern) σ = .ok σ' ∧ (∀ k, k ≠ 1 → σ' k = σ k) ∧ ∀ x, g.IsNode x → cellAt g (σ' 1) x = val x := by
  have hat : ∀ (data : Int → V) x, g.IsNode x → gridAt bd g data x = .ok (data (g.rawOffset x)) := fun data x hx => by
    unfold gridAt deref
    rw [Shape.atVec_eq_raw bd fun _ hk => checkBoundary_inside _ _ _ _ _ _ (hx _ hk), if_pos (Shape.rawOffset_bounds hg (isCell_of_isNode hg.ghosts hx))]
  obtain ⟨σ', e, ho, hv, -⟩ := runLoop_gen hg hser (dst := 1) (kern := boardKernel g.dim color kern) (σ := σ) (val := fun i => val (g.position i)) (by
    intro n τ hnn hτ hdone hrest
    have hx := Shape.position_isNode hg (i := n) (by omega) hnn
    rw [← hk _ hx]
    have hown : τ 1 (g.rawOffset (g.position n)) = σ 1 (g.rawOffset (g.position n)) := hrest _ fun i h0 h1 e => by
      rw [← atNode_raw hg hser (by omega) hnn] at e
      have := atNode_inj hg hser h0 (by omega) (by omega) hnn e
      omega
    unfold boardKernel
    split_ifs with hs
    · beta_reduce; rw [hat _ _ hx, hat _ _ hx, hown]
    · refine hst _ _ _ _ (fun _ _ => rfl) (by rw [hτ 0 (by decide)]) (by rw [hat _ _ hx, hat _ _ hx, hown]) fun i hi k hkk => ?_
      have hc := hland _ hx i hi k hkk
      have ha : g.atVec bd (bump (g.position n) i k) = g.rawOffset (landing bd g (bump (g.position n) i k)) := Shape.atVec_eq_raw bd fun _ _ => rfl
      unfold gridAt deref
      rw [ha, if_pos (Shape.rawOffset_bounds hg hc), if_pos (Shape.rawOffset_bounds hg hc)]
      congr 1
      by_cases hm : ∃ m : Int, 0 ≤ m ∧ m < n ∧ g.atNode bd m = g.rawOffset (landing bd g (bump (g.position n) i k))
      · obtain ⟨m, m0, m1, em⟩ := hm
        have hy := Shape.position_isNode hg (i := m) m0 (by omega)
        have em' := em
        rw [atNode_raw hg hser m0 (by omega)] at em'
        have hsame := Shape.rawOffset_inj (isCell_of_isNode hg.ghosts hy) hc em'
        have hoff : ∀ j, j < g.dim → j ≠ i → g.position m j = g.position n j := fun j hj hji => by
          rw [hsame j hj]; unfold landing bump
          rw [Function.update_of_ne hji]
          exact checkBoundary_inside _ _ _ _ _ _ (hx j hj)
        have hax := neighbour_parity (bd := bd) (hx i hi).1 (hx i hi).2 hkk fun hb => he hb i hi
        have hii : g.position m i = checkBoundary bd (g.position n i + k) (g.x0 i) (g.x1 i) (g.b0 i) (g.b1 i) := by
          rw [hsame i hi]; unfold landing bump; rw [Function.update_self]
        rw [← hii] at hax
        -- the tile has the other colour
        have hskip : Int.tmod (∑ j ∈ Finset.range g.dim, g.position m j) 2 = color := by
          rcases hax with e | e
          · exfalso
            have : m = n := by
              obtain ⟨i0, -, hu⟩ := Shape.position_surj hg hx
              rw [hu n (by omega) hnn fun _ _ => rfl]
              exact hu m m0 (by omega) fun j hj => by
                by_cases hji : j = i
                · rw [hji, e]
                · exact hoff j hj hji
            omega
          · have hsplit : ∀ z : Nat → Int, ∑ j ∈ Finset.range g.dim, z j = z i + ∑ j ∈ (Finset.range g.dim).erase i, z j := fun z =>
              (Finset.add_sum_erase _ _ (Finset.mem_range.mpr hi)).symm
            have hrest : ∑ j ∈ (Finset.range g.dim).erase i, g.position m j = ∑ j ∈ (Finset.range g.dim).erase i, g.position n j :=
              Finset.sum_congr rfl fun j hj => by
                rw [Finset.mem_erase, Finset.mem_range] at hj
                exact hoff j hj.2 hj.1
            have p1 : 0 ≤ ∑ j ∈ Finset.range g.dim, g.position m j := Finset.sum_nonneg fun j hj => by
              have := hn j (Finset.mem_range.1 hj); have := hy j (Finset.mem_range.1 hj); omega
            have p2 : 0 ≤ ∑ j ∈ Finset.range g.dim, g.position n j := Finset.sum_nonneg fun j hj => by
              have := hn j (Finset.mem_range.1 hj); have := hx j (Finset.mem_range.1 hj); omega
            rw [Int.tmod_eq_emod_of_nonneg p2] at hs
            rw [Int.tmod_eq_emod_of_nonneg p1]
            rw [hsplit] at hs ⊢
            rw [hrest]
            omega
        have h1 := hk _ hy
        unfold boardKernel at h1
        rw [if_pos hskip] at h1
        beta_reduce at h1
        rw [hat _ _ hy] at h1
        rw [← em, hdone m m0 m1, ← Outcome.ok.inj h1, atNode_raw hg hser m0 (by omega)]
      · exact hrest _ fun i' h0 h1 e => hm ⟨i', h0, h1, e⟩)
  refine ⟨σ', e, ho, fun x hx => ?_⟩
  obtain ⟨i, ⟨i0, i1, hs⟩, -⟩ := Shape.position_surj hg hx
  have := hv i i0 i1
  rw [atNode_raw hg hser i0 i1] at this
  unfold cellAt
  rw [← rawOffset_congr hs, this]
  exact hval _ _ hs

section
variable {w : World} {np : Nat}

/-- Where accesses to neighbours land in the two builds. -/
theorem landing_ok (h : w.Ok np) {r : Int} (hr : IsRank np r) {y : Nat → Int} (hy : (w.shape r).IsCell y) :
    (w.shape r).IsCell (landing .mpi (w.shape r) y) ∧ w.serial.IsNode (landing .serial w.serial y) := by
  have key := fun j (hj : j < w.d) =>
    axis_agree (x := y j) (rank_room h hr hj).1 (rank_room h hr hj).2.1 (b0 := (w.shape r).b0 j) (b1 := (w.shape r).b1 j)
      rfl rfl (h.outer j hj).1 (h.outer j hj).2 h.setup.ghosts (h.setup.thick r hr.1 hr.2 j hj) ((shape_wf h hr).side j hj)
      (rank_room h hr hj).2.2.1 (rank_room h hr hj).2.2.2 (fun hm => h.mirror j hj hm r hr) (hy j hj)
  exact ⟨fun j hj => (key j hj).1, fun j hj => (key j hj).2.1⟩

theorem bump_cell (hgh : 1 ≤ w.ghosts) {r : Int} {x : Nat → Int} (hx : (w.shape r).IsNode x) (i : Nat) {k : Int} (hk : k = 1 ∨ k = -1) : (w.shape r).IsCell (bump x i k) :=
  near_cell hx (near_bump x i hk) hgh

theorem allTrue {σ : Grids V} {D : Int → Grids V} : AllCells w np (fun _ _ => True) σ D := fun _ => ⟨fun _ _ _ => trivial, fun _ _ _ _ _ => trivial⟩

/-- What a right-hand side of this kind gives is the same in both builds. -/
theorem star_agree {R : Type} (h : w.Ok np) (hgh : 1 ≤ w.ghosts) {f : (Nat → (Nat → Int) → Outcome V) → (Nat → Int) → Outcome R} (hst : Star w.d f) {σ : Grids V} {D : Int → Grids V}
    (h0 : SameField w np σ D 0) (h1 : SameField w np σ D 1) (hs : Synced w np σ D 1) {r : Int} (hr : IsRank np r) {x : Nat → Int} (hx : (w.shape r).IsNode x) :
    f (fun k => gridAt .mpi (w.shape r) (D r k)) x = f (fun k => gridAt .serial w.serial (σ k)) x :=
  hst _ _ _ _ (fun _ _ => rfl) (gridAt_node h h0 hr hx) (gridAt_node h h1 hr hx) fun i _ _ hk => gridAt_synced h hs hr (bump_cell hgh hx i hk)

/-- It does not fail. -/
theorem star_total {R : Type} (h : w.Ok np) (hgh : 1 ≤ w.ghosts) {f : (Nat → (Nat → Int) → Outcome V) → (Nat → Int) → Outcome R} (htot : Total w.d f) (σ : Grids V) {x : Nat → Int}
    (hx : w.serial.IsNode x) : ∃ v, f (fun k => gridAt .serial w.serial (σ k)) x = .ok v := by
  obtain ⟨r, hr, hxr⟩ := owner h hx
  have acc : ∀ k y, (w.shape r).IsCell y → ∃ v, gridAt .serial w.serial (σ k) y = .ok v := fun k y hy =>
    (serial_access h (allTrue (σ := σ) (D := fun _ => σ)) k hr hy).imp fun _ e => e.2
  exact htot _ _ (acc 0 x (isCell_of_isNode (shape_wf h hr).ghosts hxr)) (acc 1 x (isCell_of_isNode (shape_wf h hr).ghosts hxr)) fun i _ k hk => acc 1 _ (bump_cell hgh hxr i hk)

theorem boardKernel_star {d : Nat} {color : Int} {kern : Kernel V} (h : Star d kern) : Star d (boardKernel d color kern) := by
  intro A B x x' hx h0 h1 hn
  unfold boardKernel
  rw [Finset.sum_congr rfl fun j hj => hx j (Finset.mem_range.1 hj), h1, h A B x x' hx h0 h1 hn]

theorem boardKernel_total {d : Nat} {color : Int} {kern : Kernel V} (h : Total d kern) : Total d (boardKernel d color kern) := by
  intro A x h0 h1 hn
  unfold boardKernel
  split_ifs
  · exact h1
  · exact h A x h0 h1 hn

/-- Cuts off coordinates that do not exist. -/
def cut (d : Nat) (x : Nat → Int) : Nat → Int := fun j => if j < d then x j else 0

theorem cut_same {d : Nat} (x : Nat → Int) : ∀ j, j < d → cut d x j = x j := fun _ hj => if_pos hj

theorem cut_eq {d : Nat} {x y : Nat → Int} (h : ∀ j, j < d → x j = y j) : cut d x = cut d y := by
  funext j; unfold cut; split
  · exact h j ‹_›
  · rfl

/-- What a right-hand side gives on the nodes of the whole grid. -/
theorem star_values {R : Type} (h : w.Ok np) (hgh : 1 ≤ w.ghosts) {f : (Nat → (Nat → Int) → Outcome V) → (Nat → Int) → Outcome R} (hst : Star w.d f) (htot : Total w.d f) (σ : Grids V) :
    ∃ val : (Nat → Int) → R, (∀ x y, (∀ j, j < w.d → x j = y j) → val x = val y) ∧ ∀ x, w.serial.IsNode x → f (fun k => gridAt .serial w.serial (σ k)) x = .ok (val x) := by
  obtain ⟨v0, -⟩ := star_total h hgh htot σ (x := w.serial.x0) (fun j hj => ⟨le_refl _, (serial_wf h).side j hj⟩)
  have hex : ∀ x, ∃ v, w.serial.IsNode x → f (fun k => gridAt .serial w.serial (σ k)) x = .ok v := fun x => by
    by_cases hx : w.serial.IsNode x
    · exact (star_total h hgh htot σ hx).imp fun _ e _ => e
    · exact ⟨v0, fun hx' => absurd hx' hx⟩
  obtain ⟨val, hval⟩ := Classical.axiomOfChoice hex
  refine ⟨fun x => val (cut w.d x), fun x y e => congrArg val (cut_eq e), fun x hx => ?_⟩
  rw [← hval _ (fun j hj => by rw [cut_same (d := w.d) x j hj]; exact hx j hj)]
  refine hst _ _ _ _ (fun j hj => (cut_same x j hj).symm) (gridAt_congr _ fun j hj => (cut_same x j hj).symm) (gridAt_congr _ fun j hj => (cut_same x j hj).symm) fun i _ k _ => ?_
  exact gridAt_congr _ (bump_same (d := w.d) (fun j hj => (cut_same x j hj).symm) i k)

theorem shape_face (h : w.Ok np) {r : Int} (hr : IsRank np r) {j : Nat} (hj : j < w.d) : w.g0 j ≤ (w.shape r).x0 j := (rank_room h hr hj).1

/-- **One colour in both builds.** -/
theorem stmt_agree_board (h : w.Ok np) (hgh : 1 ≤ w.ghosts) (hw : Colourable w) {color : Int} (hcol : color = 0 ∨ color = 1) {kern : Kernel V} (hst : Star w.d kern)
    (htot : Total w.d kern) {K : Known} (hf0 : K.f 0) (hf1 : K.f 1) (hs1 : K.s 1) {σ : Grids V} {D : Int → Grids V} (hA : Agree w np K σ D) :
    ∃ σ' D', serialStmt w.serial (.loop 1 (boardKernel w.d color kern)) σ = .ok σ' ∧ (∀ r, IsRank np r → runLoop .mpi (w.shape r) 1 (boardKernel w.d color kern) (D r) = .ok (D' r)) ∧
      Agree w np (K.afterLoop 1) σ' D' := by
  obtain ⟨val, hcong, hval⟩ := star_values h hgh (boardKernel_star (color := color) hst) (boardKernel_total (color := color) htot) σ
  obtain ⟨σ', e1, o1, v1⟩ := board_cells (bd := .serial) (g := w.serial) (serial_wf h) (fun _ => rfl) hw.nonneg (fun _ => hw.even)
    (fun x hx i hi k hk => by
      obtain ⟨r, hr, hxr⟩ := owner h hx
      exact isCell_of_isNode (le_refl _) (landing_ok h hr (bump_cell hgh hxr i hk)).2) hcol hst (σ := σ) hcong hval
  have hranks : ∀ r, ∃ τ, IsRank np r → runLoop .mpi (w.shape r) 1 (boardKernel w.d color kern) (D r) = .ok τ ∧ (∀ k, k ≠ 1 → τ k = D r k) ∧
      ∀ x, (w.shape r).IsNode x → cellAt (w.shape r) (τ 1) x = val x := by
    intro r
    by_cases hr : IsRank np r
    · obtain ⟨τ, hτ⟩ := board_cells (bd := .mpi) (g := w.shape r) (shape_wf h hr) (fun hh => by cases hh) (fun j hj => le_trans (hw.nonneg j hj) (shape_face h hr hj)) (fun hh => by cases hh)
        (fun x hx i hi k hk => (landing_ok h hr (bump_cell hgh hx i hk)).1) hcol hst (σ := D r) (val := val) hcong
        (fun x hx => by
          rw [← hval x (isNode_global h.setup hr hx)]
          exact star_agree h hgh (boardKernel_star hst) (hA.same 0 hf0) (hA.same 1 hf1) (hA.synced 1 hs1) hr hx)
      exact ⟨τ, fun _ => hτ⟩
    · exact ⟨D r, fun hr' => absurd hr' hr⟩
  obtain ⟨D', hD'⟩ := Classical.axiomOfChoice hranks
  refine ⟨σ', D', e1, fun r hr => (hD' r hr).1, fun k hf r hr x hx => ?_, fun k hk r hr x hx y hy hxy => ?_⟩
  · by_cases hk : k = 1
    · subst hk
      rw [(hD' r hr).2.2 x hx, v1 x (isNode_global h.setup hr hx)]
    · rw [(hD' r hr).2.1 k hk, o1 k hk]; exact hA.same k (hf.resolve_right hk) r hr x hx
  · rw [(hD' r hr).2.1 k hk.2, o1 k hk.2]; exact hA.synced k hk.1 r hr x hx y hy hxy

/-! ## Sums over ranks -/

/-- The ranks have every node once. -/
theorem sum_ranks {R : Type} [AddCommMonoid R] (h : w.Ok np) {F : (Nat → Int) → R} (hF : ∀ x y, (∀ j, j < w.d → x j = y j) → F x = F y) :
    ∑ r ∈ Finset.range np, ∑ i ∈ Finset.range (w.shape (r : Int)).nodes.toNat, F ((w.shape (r : Int)).position i) =
      ∑ i ∈ Finset.range w.serial.nodes.toNat, F (w.serial.position i) := by
  classical
  have hidx : ∀ x, ∃ i : Nat, w.serial.IsNode x → i < w.serial.nodes.toNat ∧ w.serial.SamePoint (w.serial.position i) x := fun x => by
    by_cases hx : w.serial.IsNode x
    · obtain ⟨i, ⟨i0, i1, e⟩, -⟩ := Shape.position_surj (serial_wf h) hx
      exact ⟨i.toNat, fun _ => ⟨by omega, by rw [Int.toNat_of_nonneg i0]; exact e⟩⟩
    · exact ⟨0, fun hx' => absurd hx' hx⟩
  obtain ⟨idx, hidx⟩ := Classical.axiomOfChoice hidx
  have hpos : ∀ r : Nat, r < np → ∀ i : Nat, i < (w.shape (r : Int)).nodes.toNat → (w.shape (r : Int)).IsNode ((w.shape (r : Int)).position i) := fun r hr i hi =>
    Shape.position_isNode (shape_wf h ⟨by omega, by omega⟩) (by omega) (by omega)
  have hser : ∀ r : Nat, r < np → ∀ i : Nat, i < (w.shape (r : Int)).nodes.toNat → w.serial.IsNode ((w.shape (r : Int)).position i) := fun r hr i hi =>
    isNode_global h.setup ⟨by omega, by omega⟩ (hpos r hr i hi)
  rw [Finset.sum_sigma']
  refine Finset.sum_bij (fun q _ => idx ((w.shape (q.1 : Int)).position q.2)) ?_ ?_ ?_ ?_
  · rintro ⟨r, i⟩ hq
    simp only [Finset.mem_sigma, Finset.mem_range] at hq ⊢
    exact (hidx _ (hser r hq.1 i hq.2)).1
  · rintro ⟨r, i⟩ hq ⟨r', i'⟩ hq' e
    simp only [Finset.mem_sigma, Finset.mem_range] at hq hq' e
    have s1 := (hidx _ (hser r hq.1 i hq.2)).2
    have s2 := (hidx _ (hser r' hq'.1 i' hq'.2)).2
    rw [← e] at s2
    have same : ∀ j, j < w.d → (w.shape (r : Int)).position i j = (w.shape (r' : Int)).position i' j := fun j hj => (s1 j hj).symm.trans (s2 j hj)
    have n1 := hpos r hq.1 i hq.2
    have n2 : (w.shape (r' : Int)).IsNode ((w.shape (r : Int)).position i) := fun j hj => by rw [same j hj]; exact hpos r' hq'.1 i' hq'.2 j hj
    obtain ⟨r0, -, hu⟩ := Decomp.partition (np := np) h.setup.grid h.setup.box (x := (w.shape (r : Int)).position i) (hser r hq.1 i hq.2)
    have a1 := hu r (by omega) (by omega) n1
    have a2 := hu r' (by omega) (by omega) n2
    have er : r = r' := by omega
    subst er
    obtain ⟨i0, -, hv⟩ := Shape.position_surj (shape_wf h (r := (r : Int)) ⟨by omega, by omega⟩) n1
    have b1 := hv i (by omega) (by omega) fun _ _ => rfl
    have b2 := hv i' (by omega) (by omega) fun j hj => (same j hj).symm
    have ei : i = i' := by omega
    rw [ei]
  · intro m hm
    rw [Finset.mem_range] at hm
    have hmN := Shape.position_isNode (serial_wf h) (i := m) (by omega) (by omega)
    obtain ⟨r, hr, hmr⟩ := owner h hmN
    obtain ⟨i, ⟨i0, i1, e⟩, -⟩ := Shape.position_surj (shape_wf h hr) hmr
    have hrc : ((r.toNat : Nat) : Int) = r := Int.toNat_of_nonneg hr.1
    have hic : ((i.toNat : Nat) : Int) = i := Int.toNat_of_nonneg i0
    have hin : w.serial.IsNode ((w.shape r).position i) := isNode_global h.setup hr (Shape.position_isNode (shape_wf h hr) i0 i1)
    refine ⟨⟨r.toNat, i.toNat⟩, ?_, ?_⟩
    · simp only [Finset.mem_sigma, Finset.mem_range]
      rw [hrc]
      have := hr.2
      constructor <;> omega
    · beta_reduce
      simp only
      rw [hrc, hic]
      obtain ⟨j1, j2⟩ := hidx _ hin
      obtain ⟨i2, -, hu⟩ := Shape.position_surj (serial_wf h) hmN
      have b1 := hu m (by omega) (by omega) fun _ _ => rfl
      have b2 := hu (idx ((w.shape r).position i)) (by omega) (by omega) fun j hj => (j2 j hj).trans (e j hj)
      omega
  · rintro ⟨r, i⟩ hq
    simp only [Finset.mem_sigma, Finset.mem_range] at hq
    exact hF _ _ fun j hj => ((hidx _ (hser r hq.1 i hq.2)).2 j hj).symm

theorem foldlM_sum {R : Type} [AddCommMonoid R] {f : Nat → Outcome R} {val : Nat → R} : ∀ {n : Nat}, (∀ i, i < n → f i = .ok (val i)) →
    (List.range n).foldlM (fun s (i : Nat) => (f i).bind fun e => .ok (s + e)) (0 : R) = .ok (∑ i ∈ Finset.range n, val i)
  | 0, _ => rfl
  | n + 1, h => by
    rw [List.range_succ, List.foldlM_append, foldlM_sum fun i hi => h i (by omega), Finset.sum_range_succ]
    simp only [List.foldlM_cons, List.foldlM_nil, Outcome.bind_eq, Outcome.ok_bind, Outcome.pure_eq, h n (by omega)]

/-- The residual is the same in both builds. -/
theorem residual_agree {R : Type} [AddCommMonoid R] (h : w.Ok np) (hgh : 1 ≤ w.ghosts) {res : (Nat → (Nat → Int) → Outcome V) → (Nat → Int) → Outcome R} (hst : Star w.d res)
    (htot : Total w.d res) {σ : Grids V} {D : Int → Grids V} (h0 : SameField w np σ D 0) (h1 : SameField w np σ D 1) (hs : Synced w np σ D 1) :
    ∃ s, localSum .serial w.serial res σ = .ok s ∧ (allreduce np fun r => localSum .mpi (w.shape r) res (D r)) = .ok s := by
  obtain ⟨val, hcong, hval⟩ := star_values h hgh hst htot σ
  refine ⟨_, foldlM_sum fun i hi => hval _ (Shape.position_isNode (serial_wf h) (by omega) (by omega)), ?_⟩
  rw [← sum_ranks h hcong]
  refine foldlM_sum fun r hr => foldlM_sum fun i hi => ?_
  have hr' : IsRank np (r : Int) := ⟨by omega, by omega⟩
  have hx := Shape.position_isNode (shape_wf h hr') (i := i) (by omega) (by omega)
  rw [star_agree h hgh hst h0 h1 hs hr' hx]
  exact hval _ (isNode_global h.setup hr' hx)

/-- All nodes together. -/
theorem size_agree (h : w.Ok np) : ((List.range np).map fun r : Nat => (w.shape r).nodes.toNat).sum = w.serial.nodes.toNat := by
  have := sum_ranks h (F := fun _ => (1 : Nat)) fun _ _ _ => rfl
  simp only [Finset.sum_const, Finset.card_range, smul_eq_mul, mul_one] at this
  rw [← this]
  have key : ∀ (f : Nat → Nat) (n : Nat), ((List.range n).map f).sum = ∑ r ∈ Finset.range n, f r := fun f n => by
    induction n with
    | zero => rfl
    | succ n ih => rw [List.range_succ, List.map_append, List.sum_append, ih, Finset.sum_range_succ]; simp
  exact key _ _

theorem together_ok {X : Type} {S : Int → Outcome X} {E : Int → X} : ∀ {n : Nat} (D : Int → X), (∀ r : Int, 0 ≤ r → r < n → S r = .ok (E r)) →
    ∃ D', together n S D = .ok D' ∧ ∀ r : Int, 0 ≤ r → r < n → D' r = E r
  | 0, D, _ => ⟨D, rfl, fun r h0 h1 => by omega⟩
  | n + 1, D, h => by
    obtain ⟨D', e, hD⟩ := together_ok (n := n) D fun r h0 h1 => h r h0 (by omega)
    refine ⟨Function.update D' n (E n), ?_, fun r h0 h1 => ?_⟩
    · unfold together at e ⊢
      rw [List.range_succ, List.foldlM_append, e]
      simp only [List.foldlM_cons, List.foldlM_nil, Outcome.bind_eq, Outcome.ok_bind, Outcome.pure_eq, h n (by omega) (by omega)]
    · by_cases er : r = n
      · subst er; rw [Function.update_self]
      · rw [Function.update_of_ne er]; exact hD r h0 (by omega)

/-! ## The solver -/

/-- Both fields are known, and the ghosts of `newGrid`. -/
def pairKnown : Known := ⟨fun k => k ≤ 1, fun k => k = 1⟩

theorem agree_congr {K : Known} {σ : Grids V} {D E : Int → Grids V} (h : Agree w np K σ E) (e : ∀ r : Int, 0 ≤ r → r < np → D r = E r) : Agree w np K σ D :=
  ⟨fun k hk r hr x hx => by rw [e r hr.1 hr.2]; exact h.same k hk r hr x hx, fun k hk r hr x hx y hy hxy => by rw [e r hr.1 hr.2]; exact h.synced k hk r hr x hx y hy hxy⟩

theorem agree_le {K L : Known} {σ : Grids V} {D : Int → Grids V} (h : Agree w np K σ D) (hL : L.le K) : Agree w np L σ D :=
  ⟨fun k hk => h.same k (hL.1 k hk), fun k hk => h.synced k (hL.2 k hk)⟩

variable {c : Nat → Cell V}

/-- Both colours. -/
theorem colours_agree (hc : ∀ k, RoundTrips (c k)) (hall : ∀ k v, (c k).Valid v) (h : w.Ok np) (hgh : 1 ≤ w.ghosts) (hw : Colourable w) {kern : Kernel V} (hst : Star w.d kern)
    (htot : Total w.d kern) {σ : Grids V} {D : Int → Grids V} (hA : Agree w np pairKnown σ D) :
    ∃ σ' D', serialRun w.serial (colours w.d kern) σ = .ok σ' ∧ together np (mpiRun c w (colours w.d kern) fun r => .ok (D r)) D = .ok D' ∧ Agree w np pairKnown σ' D' := by
  obtain ⟨σ1, D1, e1, p1, A1⟩ := stmt_agree_board h hgh hw (color := 1) (Or.inr rfl) hst htot (K := pairKnown) (by decide : 0 ≤ 1) (le_refl 1) rfl hA
  have fin1 : Finished np (mpiStmt c w (.loop 1 (boardKernel w.d 1 kern)) fun r => .ok (D r)) D1 := fun r hr => by simp only [mpiStmt]; rw [Outcome.ok_bind, p1 r hr]
  obtain ⟨D2, p2, A2, -⟩ := stmt_agree_ghostswap (P := fun _ _ => True) hc (fun k v _ => hall k v) h (a := 1) (Or.inr rfl) fin1 A1 allTrue
  obtain ⟨σ3, D3, e3, p3, A3⟩ := stmt_agree_board h hgh hw (color := 0) (Or.inl rfl) hst htot (Or.inl (by decide : 0 ≤ 1)) (Or.inr rfl) (Or.inr rfl) A2
  have fin3 : Finished np (mpiStmt c w (.loop 1 (boardKernel w.d 0 kern)) (mpiStmt c w (.ghostswap 1) (mpiStmt c w (.loop 1 (boardKernel w.d 1 kern)) fun r => .ok (D r)))) D3 := fun r hr => by
    rw [mpiStmt]; beta_reduce; rw [p2 r hr, Outcome.ok_bind, p3 r hr]
  obtain ⟨D4, p4, A4, -⟩ := stmt_agree_ghostswap (P := fun _ _ => True) hc (fun k v _ => hall k v) h (a := 1) (Or.inr rfl) fin3 A3 allTrue
  obtain ⟨D', e', hD'⟩ := together_ok (n := np) (E := D4) D fun r h0 h1 => p4 r ⟨h0, h1⟩
  refine ⟨σ3, D', ?_, e', agree_congr (agree_le A4 ⟨fun k hk => Or.inl (Or.inl hk), fun k hk => Or.inr hk⟩) hD'⟩
  unfold serialRun colours
  simp only [List.foldlM_cons, List.foldlM_nil, Outcome.bind_eq, Outcome.pure_eq, e1, Outcome.ok_bind]
  rw [show serialStmt w.serial (.ghostswap 1) σ1 = .ok σ1 from rfl, Outcome.ok_bind, e3, Outcome.ok_bind]
  rfl

/-- The solver of the serial build, lines 313-434. -/
def serialSolve {R : Type} [Add R] [Zero R] (g : Shape) (kern : Kernel V) (res : (Nat → (Nat → Int) → Outcome V) → (Nat → Int) → Outcome R) (again : R → Bool) :
    Nat → Nat → Bool → Grids V → Outcome (Grids V)
  | 0, _, _, _ => .abort (-1)
  | left + 1, iter, go, σ =>
    if go then
      (serialRun g (colours g.dim kern) σ).bind fun σ =>
      (if iter + 1 < 5 ∨ (iter + 1) % 5 = 0 then (localSum .serial g res σ).bind fun s => .ok (again s) else .ok go).bind fun go =>
      serialSolve g kern res again left (iter + 1) go σ
    else .ok σ

/-- The time loop of the serial build. -/
def serialSteps {R : Type} [Add R] [Zero R] (g : Shape) (kern : Kernel V) (res : (Nat → (Nat → Int) → Outcome V) → (Nat → Int) → Outcome R) (again : R → Bool) (maxIter : Nat) :
    Nat → Grids V → Outcome (Grids V)
  | 0, σ => .ok σ
  | n + 1, σ => (serialSolve g kern res again maxIter 0 true σ).bind fun σ => serialSteps g kern res again maxIter n (swapGrids 0 1 σ)

section
variable {R : Type} [AddCommMonoid R] {kern : Kernel V} {res : (Nat → (Nat → Int) → Outcome V) → (Nat → Int) → Outcome R} (again : R → Bool)

/-- The same number of iterations with the same result, or both programs are stopped. -/
theorem solve_agree (hc : ∀ k, RoundTrips (c k)) (hall : ∀ k v, (c k).Valid v) (h : w.Ok np) (hgh : 1 ≤ w.ghosts) (hw : Colourable w) (hst : Star w.d kern) (htot : Total w.d kern)
    (hsr : Star w.d res) (htr : Total w.d res) : ∀ (left iter : Nat) (go : Bool) {σ : Grids V} {D : Int → Grids V}, Agree w np pairKnown σ D →
    (∃ σ' D', serialSolve w.serial kern res again left iter go σ = .ok σ' ∧ mpiSolve c w np kern res again left iter go D = .ok D' ∧ Agree w np pairKnown σ' D') ∨
      (serialSolve w.serial kern res again left iter go σ = .abort (-1) ∧ mpiSolve c w np kern res again left iter go D = .abort (-1))
  | 0, _, _, _, _, _ => Or.inr ⟨rfl, rfl⟩
  | left + 1, iter, false, σ, D, hA => Or.inl ⟨σ, D, rfl, rfl, hA⟩
  | left + 1, iter, true, σ, D, hA => by
    obtain ⟨σ1, D1, e1, e2, A1⟩ := colours_agree hc hall h hgh hw hst htot hA
    obtain ⟨s, f1, f2⟩ := residual_agree h hgh hsr htr (A1.same 0 (by decide : 0 ≤ 1)) (A1.same 1 (le_refl 1)) (A1.synced 1 rfl)
    have e1' : serialRun w.serial (colours w.serial.dim kern) σ = .ok σ1 := e1
    simp only [serialSolve, mpiSolve, if_true, e1', e2, Outcome.ok_bind, f1, f2]
    split_ifs
    · simp only [Outcome.ok_bind]; exact solve_agree hc hall h hgh hw hst htot hsr htr left (iter + 1) (again s) A1
    · simp only [Outcome.ok_bind]; exact solve_agree hc hall h hgh hw hst htot hsr htr left (iter + 1) true A1

theorem steps_agree (hc : ∀ k, RoundTrips (c k)) (hall : ∀ k v, (c k).Valid v) (h : w.Ok np) (hgh : 1 ≤ w.ghosts) (hw : Colourable w) (hst : Star w.d kern) (htot : Total w.d kern)
    (hsr : Star w.d res) (htr : Total w.d res) (maxIter : Nat) : ∀ (steps : Nat) {σ : Grids V} {D : Int → Grids V}, Agree w np ⟨fun k => k ≤ 1, fun _ => False⟩ σ D →
    (∃ σ' D', serialSteps w.serial kern res again maxIter steps σ = .ok σ' ∧ mpiSteps c w np kern res again maxIter steps D = .ok D' ∧ SameField w np σ' D' 0) ∨
      (serialSteps w.serial kern res again maxIter steps σ = .abort (-1) ∧ mpiSteps c w np kern res again maxIter steps D = .abort (-1))
  | 0, σ, D, hA => Or.inl ⟨σ, D, rfl, rfl, hA.same 0 (by decide : 0 ≤ 1)⟩
  | n + 1, σ, D, hA => by
    have hd : Disciplined w.d w.ghosts (fun _ (_ : V) => True) ⟨fun k => k ≤ 1, fun _ => False⟩ [.ghostswap 0, .ghostswap 1] pairKnown :=
      .ghostswap (by decide : 0 ≤ 1) (.ghostswap (le_refl 1) (.nil ⟨fun _ => id, fun _ hk => Or.inr hk⟩))
    obtain ⟨σ1, D1, e1, e2, A1, -⟩ := parallel_eq_serial (P := fun _ _ => True) hc (fun k v _ => hall k v) h hd (σ := σ) (D := D) (S := fun r => .ok (D r)) (fun _ _ => rfl) hA allTrue
    have eσ : σ1 = σ := (Outcome.ok.inj e1).symm
    subst eσ
    obtain ⟨D2, g2, hD2⟩ := together_ok (n := np) (E := D1) D fun r h0 h1 => e2 r ⟨h0, h1⟩
    have A2 := agree_congr A1 hD2
    simp only [serialSteps, mpiSteps, g2, Outcome.ok_bind]
    rcases solve_agree again hc hall h hgh hw hst htot hsr htr maxIter 0 true A2 with ⟨σ3, D3, f1, f2, A3⟩ | ⟨f1, f2⟩
    · have hs : Disciplined w.d w.ghosts (fun _ (_ : V) => True) pairKnown [.swap 0 1] ⟨fun k => k ≤ 1, fun _ => False⟩ :=
        .swap rfl (.nil ⟨fun k hk => by
          show (if k = 0 then _ else if k = 1 then _ else _)
          split_ifs
          · exact le_refl 1
          · exact (by decide : 0 ≤ 1)
          · exact hk, fun _ hk => hk.elim⟩)
      obtain ⟨σ4, D4, k1, k2, A4, -⟩ := parallel_eq_serial (P := fun _ _ => True) hc (fun k v _ => hall k v) h hs (σ := σ3) (D := D3) (S := fun r => .ok (D3 r)) (fun _ _ => rfl) A3 allTrue
      have eσ : σ4 = swapGrids 0 1 σ3 := (Outcome.ok.inj k1).symm
      subst eσ
      obtain ⟨D5, g5, hD5⟩ := together_ok (n := np) (E := D4) D3 fun r h0 h1 => k2 r ⟨h0, h1⟩
      simp only [f1, f2, Outcome.ok_bind, g5]
      exact steps_agree hc hall h hgh hw hst htot hsr htr maxIter n (agree_congr A4 hD5)
    · exact Or.inr ⟨by rw [f1]; rfl, by rw [f2]; rfl⟩

/-- **C89, any right-hand side.** A red-black solver with residual test computes in parallel what it computes serially. -/
theorem update_agree (hc : ∀ k, RoundTrips (c k)) (hall : ∀ k v, (c k).Valid v) (h : w.Ok np) (hgh : 1 ≤ w.ghosts) (hw : Colourable w) (hst : Star w.d kern) (htot : Total w.d kern)
    (hsr : Star w.d res) (htr : Total w.d res) (maxIter steps : Nat) {σ : Grids V} {D : Int → Grids V} (hF : SameField w np σ D 0) :
    (∃ σ' D', serialSteps w.serial kern res again maxIter steps (Function.update σ 1 (σ 0)) = .ok σ' ∧ mpiUpdate c w np kern res again maxIter steps D = .ok D' ∧ SameField w np σ' D' 0) ∨
      (serialSteps w.serial kern res again maxIter steps (Function.update σ 1 (σ 0)) = .abort (-1) ∧ mpiUpdate c w np kern res again maxIter steps D = .abort (-1)) := by
  have hd : Disciplined w.d w.ghosts (fun _ (_ : V) => True) ⟨fun k => k = 0, fun _ => False⟩ [.ghostswap 0] oldKnown := .ghostswap rfl (.nil ⟨fun _ => id, fun _ hk => Or.inr hk⟩)
  obtain ⟨σ1, D1, e1, e2, A1, -⟩ := parallel_eq_serial (P := fun _ _ => True) hc (fun k v _ => hall k v) h hd (σ := σ) (D := D) (S := fun r => .ok (D r)) (fun _ _ => rfl)
    ⟨fun k hk => hk ▸ hF, fun _ hk => hk.elim⟩ allTrue
  have eσ : σ1 = σ := (Outcome.ok.inj e1).symm
  subst eσ
  obtain ⟨D2, g2, hD2⟩ := together_ok (n := np) (E := D1) D fun r h0 h1 => e2 r ⟨h0, h1⟩
  have A2 := agree_congr A1 hD2
  simp only [mpiUpdate, g2, Outcome.ok_bind]
  refine steps_agree again hc hall h hgh hw hst htot hsr htr maxIter steps ⟨fun k hk r hr x hx => ?_, fun _ hk => hk.elim⟩
  have hk' : k = 0 ∨ k = 1 := by have : k ≤ 1 := hk; omega
  rcases hk' with rfl | rfl
  · exact A2.same 0 rfl r hr x hx
  · simp only [Function.update_self]; exact A2.same 0 rfl r hr x hx
end

end

end MMSP.Board
