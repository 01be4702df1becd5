import Verif.GenerateStart
import Verif.ParallelBoardLink
/-!
# Property C106: the initial condition of convex splitting

`generate` of `examples/phase_transitions/cahn-hilliard/convex_splitting/cahn-hilliard.cpp` 215-271 on any number of ranks: field 0 is filled node by node, ghosts are exchanged, and field 1 becomes
the chemical potential, which needs the neighbours of a node.
-/

namespace MMSP.GenerateConvex

open FileIO ParallelRun Sessions Stencil Conserve GenerateRanks
open ConvexSplit hiding ring
open Board (fieldKernel)
open DensePF (pass)
open Ghost (IsRank)

variable {α : Type} [Field α]

/-! ## Model -/

/-- `initGrid(n)[1] = full_dfdc(initGrid(n)[0]) - K*field_laplacian(initGrid, x, 0);`, lines 227-228, 256-257, 269-270 -/
def muKernel (p : Params α) (d : Nat) (dx : Nat → α) : Kernel (α × α) := fun A x =>
  (A 0 x).bind fun v => (fieldKernel d dx Prod.fst (fun _ => A 0) x).bind fun lap => .ok (v.1, p.full v.1 - p.K * lap)

/-- `initGrid(n)[0] = ...`, lines 220-221, 239-240, 245-249, 262-263: `fill n` is the value of node `n`, random or a function of the position. -/
def fillPass (bd : Build) (g : Shape) (fill : Int → α) (new : Int → α × α) : Outcome (Int → α × α) := pass bd g (fun i v => .ok (fill i, v.2)) new

/-- Lines 220-229 on all ranks: filling, `ghostswap`, the second loop. -/
def convexRanks (c : Cell (α × α)) (w : World) (p : Params α) (dx : Nat → α) (fill : Int → Int → α) (new : Int → Int → α × α) (r : Int) : Outcome (Int → α × α) :=
  (mpiRun (fun _ => c) w [.ghostswap 0, .loop 0 (muKernel p w.d dx)] (fun r => (fillPass .mpi (w.shape r) (fill r) (new r)).bind fun a => .ok fun _ => a) r).bind fun σ => .ok (σ 0)

/-- Lines 220-229 in a serial build. -/
def convexSerial (g : Shape) (p : Params α) (dx : Nat → α) (fill : Int → α) (new : Int → α × α) : Outcome (Int → α × α) :=
  (fillPass .serial g fill new).bind fun a => (serialRun g [.ghostswap 0, .loop 0 (muKernel p g.dim dx)] fun _ => a).bind fun σ => .ok (σ 0)

/-! ## The second loop, which reads the array it writes -/

omit [Field α] in
theorem inplace {bd : Build} {g : Shape} (hg : g.Wf) (hser : bd = .serial → g.ghosts = 0) {kern : Kernel (α × α)} {σ : Grids (α × α)} {val : (Nat → Int) → α × α}
    (hval : ∀ x y, g.SamePoint x y → val x = val y)
    (hk : ∀ a : Int → α × α, (∀ o, (a o).1 = (σ 0 o).1) → ∀ x, g.IsNode x → kern (fun k => gridAt bd g ((Function.update σ 0 a) k)) x = .ok (val x))
    (h1 : ∀ x, g.IsNode x → (val x).1 = (cellAt g (σ 0) x).1) :
    ∃ a, runLoop bd g 0 kern σ = .ok (Function.update σ 0 a) ∧ ∀ x, g.IsNode x → cellAt g a x = val x := by
  have hnn := (nodes_pos hg).le
  have key : ∀ n : Nat, (n : Int) ≤ g.nodes → ∃ a : Int → α × α, (List.range n).foldlM (fun (σ : Grids (α × α)) (i : Nat) =>
      (kern (fun k => gridAt bd g (σ k)) (g.position i)).bind fun v =>
      (store g (σ 0) (g.atNode bd i) v).bind fun a => .ok (Function.update σ 0 a)) σ = .ok (Function.update σ 0 a) ∧ (∀ o, (a o).1 = (σ 0 o).1) ∧
      ∀ i : Int, 0 ≤ i → i < n → a (g.atNode bd i) = val (g.position i) := by
    intro n
    induction n with
    | zero => intro _; exact ⟨σ 0, by rw [Function.update_eq_self]; rfl, fun _ => rfl, fun i h0 h1 => absurd h1 (by omega)⟩
    | succ n ih =>
      intro hn
      obtain ⟨a, e, hf, hv⟩ := ih (by omega)
      have hpos := Shape.position_isNode hg (i := (n : Int)) (by omega) (by omega)
      have hraw : g.atNode bd n = g.rawOffset (g.position n) := atNode_raw hg hser (by omega) (by omega)
      have hb : 0 ≤ g.atNode bd n ∧ g.atNode bd n < g.cells := by
        rw [hraw]
        exact Shape.rawOffset_bounds hg (isCell_of_isNode hg.ghosts hpos)
      have hst : store g a (g.atNode bd n) (val (g.position n)) = .ok (Function.update a (g.atNode bd n) (val (g.position n))) := by
        unfold store; exact if_pos hb
      refine ⟨Function.update a (g.atNode bd n) (val (g.position n)), ?_, fun o => ?_, fun i h0 h1' => ?_⟩
      · rw [List.range_succ, List.foldlM_append, e]
        simp only [List.foldlM_cons, List.foldlM_nil, Outcome.bind_eq, Outcome.ok_bind, Outcome.pure_eq, hk a hf _ hpos, Function.update_self, hst, Function.update_idem]
      · by_cases eo : o = g.atNode bd n
        · rw [eo, Function.update_self, h1 _ hpos, hraw]; rfl
        · rw [Function.update_of_ne eo]; exact hf o
      · by_cases ei : i = n
        · subst ei; rw [Function.update_self]
        · rw [Function.update_of_ne fun e => ei (atNode_inj hg hser h0 (by omega) (by omega) (by omega) e)]
          exact hv i h0 (by omega)
  obtain ⟨a, e, -, hv⟩ := key g.nodes.toNat (by omega)
  refine ⟨a, e, fun x hx => ?_⟩
  obtain ⟨i, ⟨h0, h1', hs⟩, _⟩ := Shape.position_surj hg hx
  unfold cellAt
  rw [← rawOffset_congr hs, ← atNode_raw hg hser h0 h1', hv i h0 (by omega)]
  exact hval _ _ hs

/-- `field_laplacian` of field 0 sees only field 0 of the node and its neighbours. -/
theorem field_congr {A B : (Nat → Int) → Outcome (α × α)} {d : Nat} (dx : Nat → α) {x x' : Nat → Int} (h0 : ((A x).bind fun v => .ok v.1) = (B x').bind fun v => .ok v.1)
    (h : ∀ i < d, ∀ k, k = 1 ∨ k = -1 → ((A (bump x i k)).bind fun v => .ok v.1) = (B (bump x' i k)).bind fun v => .ok v.1) :
    fieldKernel d dx Prod.fst (fun _ => A) x = fieldKernel d dx Prod.fst (fun _ => B) x' := by
  show (((A x).bind fun v => .ok v.1).bind fun y => lapLoop (fun y => (A y).bind fun v => .ok v.1) (axisWeight dx) y (List.range d) x 0) =
    ((B x').bind fun v => .ok v.1).bind fun y => lapLoop (fun y => (B y).bind fun v => .ok v.1) (axisWeight dx) y (List.range d) x' 0
  rw [h0]
  congr 1
  funext y
  exact lapLoop_congr (A := fun y => (A y).bind fun v => .ok v.1) (B := fun y => (B y).bind fun v => .ok v.1) _ _ x x' _ _ fun i hi =>
    ⟨h i (List.mem_range.1 hi) 1 (Or.inl rfl), h i (List.mem_range.1 hi) (-1) (Or.inr rfl)⟩

omit [Field α] in
theorem first_congr {bd : Build} {g : Shape} {a b : Int → α × α} (h : ∀ o, (a o).1 = (b o).1) (y : Nat → Int) :
    ((gridAt bd g a y).bind fun v => .ok v.1) = (gridAt bd g b y).bind fun v => .ok v.1 := by
  unfold gridAt deref
  split_ifs
  · simp only [Outcome.ok_bind, h]
  · rfl

omit [Field α] in
theorem fill_spec {bd : Build} {g : Shape} (hg : g.Wf) (hser : bd = .serial → g.ghosts = 0) (fill : Int → α) (new : Int → α × α) :
    ∃ a, fillPass bd g fill new = .ok a ∧ ∀ i, 0 ≤ i → i < g.nodes → (cellAt g a (g.position i)).1 = fill i := by
  have hnn := (nodes_pos hg).le
  have key : ∀ n : Nat, (n : Int) ≤ g.nodes → ∃ a : Int → α × α, (List.range n).foldlM (fun out (i : Nat) =>
      (deref g out (g.atNode bd i)).bind fun z => (Outcome.ok (fill i, z.2)).bind fun v => store g out (g.atNode bd i) v) new = .ok a ∧
      ∀ i : Int, 0 ≤ i → i < n → (a (g.atNode bd i)).1 = fill i := by
    intro n
    induction n with
    | zero => intro _; exact ⟨new, rfl, fun i h0 h1 => absurd h1 (by omega)⟩
    | succ n ih =>
      intro hn
      obtain ⟨a, e, hv⟩ := ih (by omega)
      have hb : 0 ≤ g.atNode bd n ∧ g.atNode bd n < g.cells := by
        rw [atNode_raw hg hser (by omega) (by omega)]
        exact Shape.rawOffset_bounds hg (ParallelRun.isCell_of_isNode hg.ghosts (Shape.position_isNode hg (by omega) (by omega)))
      have hde : deref g a (g.atNode bd n) = .ok (a (g.atNode bd n)) := by unfold deref; exact if_pos hb
      have hst : ∀ v, store g a (g.atNode bd n) v = .ok (Function.update a (g.atNode bd n) v) := fun v => by unfold store; exact if_pos hb
      refine ⟨Function.update a (g.atNode bd n) (fill n, (a (g.atNode bd n)).2), ?_, fun i h0 h1 => ?_⟩
      · rw [List.range_succ, List.foldlM_append, e]
        simp only [List.foldlM_cons, List.foldlM_nil, Outcome.bind_eq, Outcome.ok_bind, Outcome.pure_eq, hde, hst]
      · by_cases ei : i = n
        · subst ei; rw [Function.update_self]
        · rw [Function.update_of_ne fun e => ei (atNode_inj hg hser h0 (by omega) (by omega) (by omega) e)]
          exact hv i h0 (by omega)
  obtain ⟨a, e, hv⟩ := key g.nodes.toNat (by omega)
  refine ⟨a, e, fun i h0 h1 => ?_⟩
  unfold cellAt
  rw [← atNode_raw hg hser h0 h1]
  exact hv i h0 (by omega)

/-! ## All ranks -/

/-- The chemical potential of the composition in the first field, over the whole grid. -/
def HasPotential (p : Params α) (g : Shape) (dx : Nat → α) (a : Int → α × α) : Prop := ∀ n, 0 ≤ n → n < g.nodes → (a n).2 = p.full (a n).1 - p.K * lap g dx (fun q => (a q).1) n

theorem lap_congr {g : Shape} (hs : Serial g) (dx : Nat → α) {u v : Int → α} {n : Int} (h0 : 0 ≤ n) (h1 : n < g.nodes) (h : ∀ q, 0 ≤ q → q < g.nodes → u q = v q) :
    lap g dx u n = lap g dx v n := by
  unfold lap
  refine Finset.sum_congr rfl fun i hi => ?_
  have hi' := Finset.mem_range.1 hi
  have a := nb_spec hs hi' h0 h1 true
  have b := nb_spec hs hi' h0 h1 false
  rw [h n h0 h1, h _ a.1 a.2.1, h _ b.1 b.2.1]

/-- The second loop on a grid whose accesses near `x` give the first fields of the array `s` of the whole grid. -/
theorem mu_value {g : Shape} (hs : Serial g) (p : Params α) (dx : Nat → α) {s : Int → α × α} {A : (Nat → Int) → Outcome (α × α)} {x : Nat → Int} (hx : g.IsNode x)
    (hA : ∀ y, Near g.dim 1 x y → ((A y).bind fun v => .ok v.1) = (gridAt .serial g s y).bind fun v => .ok v.1) (B : Nat → (Nat → Int) → Outcome (α × α)) (hB : B 0 = A) :
    muKernel p g.dim dx B x = .ok ((s (g.rawOffset x)).1, p.full (s (g.rawOffset x)).1 - p.K * lap g dx (fun q => (s q).1) (g.rawOffset x)) := by
  obtain ⟨n0, n1, hn⟩ := position_rawOffset hs hx
  have hx0 := hA x (near_self (by decide) x)
  have e0 : gridAt .serial g s x = .ok (s (g.rawOffset x)) := by
    unfold gridAt deref
    rw [Shape.atVec_eq_raw .serial fun j hj => checkBoundary_inside _ _ _ _ _ _ (hx j hj),
      if_pos (Shape.rawOffset_bounds hs.wf (Conserve.isCell_of_isNode hs hx))]
  rw [e0, Outcome.ok_bind] at hx0
  have hlap : fieldKernel g.dim dx Prod.fst (fun _ => A) x = .ok (lap g dx (fun q => (s q).1) (g.rawOffset x)) := by
    rw [field_congr (B := gridAt .serial g s) (x' := g.position (g.rawOffset x)) dx]
    · exact fieldLaplacian_ok hs dx Prod.fst s n0 n1
    · rw [hA x (near_self (by decide) x), gridAt_congr s fun j hj => (hn j hj).symm]
    · intro i hi k hk
      rw [hA _ (near_bump x i hk), gridAt_congr s fun j hj => (bump_same hn i k j hj).symm]
  unfold muKernel
  rw [hB, hlap]
  cases e : A x with
  | ok v =>
    rw [e, Outcome.ok_bind] at hx0
    rw [Outcome.ok_bind, Outcome.ok_bind, Outcome.ok.inj hx0]
  | ub => rw [e] at hx0; cases hx0
  | abort k => rw [e] at hx0; cases hx0

section
variable {w : World} {np : Nat} {c : Cell (α × α)}

/-- **C106.** On every number of ranks, `generate` of convex splitting succeeds, and the arrays of the ranks make up one array of the whole grid: field 0 is what the owner of the node filled in,
field 1 the chemical potential of field 0 over the whole grid, across the borders of ranks. -/
theorem convex_ranks (h : w.Ok np) (hgh : 1 ≤ w.ghosts) (hs : Serial w.serial) (hc : RoundTrips c) (hcv : ∀ v, c.Valid v) (p : Params α) (dx : Nat → α) (fill : Int → Int → α) (new : Int → Int → α × α) :
    ∃ (a : Int → α × α) (D : Int → Int → α × α), (∀ r, IsRank np r → convexRanks c w p dx fill new r = .ok (D r)) ∧
      (∀ r, IsRank np r → ∀ x, (w.shape r).IsNode x → cellAt (w.shape r) (D r) x = cellAt w.serial a x) ∧
      (∀ r, IsRank np r → ∀ i, 0 ≤ i → i < (w.shape r).nodes → (cellAt w.serial a ((w.shape r).position i)).1 = fill r i) ∧ HasPotential p w.serial dx a := by
  have hfill : ∀ r, ∃ a, IsRank np r → fillPass .mpi (w.shape r) (fill r) (new r) = .ok a ∧ ∀ i, 0 ≤ i → i < (w.shape r).nodes → (cellAt (w.shape r) a ((w.shape r).position i)).1 = fill r i := by
    intro r
    by_cases hr : IsRank np r
    · obtain ⟨a, ha⟩ := fill_spec (bd := .mpi) (shape_wf h hr) (fun e => by cases e) (fill r) (new r)
      exact ⟨a, fun _ => ha⟩
    · exact ⟨new r, fun h => absurd h hr⟩
  choose E hE using hfill
  obtain ⟨F, hF⟩ := glue h E
  let s : Int → α × α := fun m => F (w.serial.position m)
  have hglobal : ∀ r, IsRank np r → ∀ x, (w.shape r).IsNode x → w.serial.IsNode x := fun r hr x hx => Ghost.isNode_global h.setup hr hx
  have hsame : ∀ r, IsRank np r → ∀ x, (w.shape r).IsNode x → cellAt (w.shape r) (E r) x = cellAt w.serial s x := by
    intro r hr x hx
    obtain ⟨-, -, hn⟩ := position_rawOffset hs (hglobal r hr x hx)
    have hx' : (w.shape r).IsNode (w.serial.position (w.serial.rawOffset x)) := fun j hj => by rw [hn j hj]; exact hx j hj
    show _ = F (w.serial.position (w.serial.rawOffset x))
    rw [← hF r hr _ hx']
    unfold cellAt
    rw [rawOffset_congr (g := w.shape r) fun j hj => hn j hj]
  obtain ⟨D', hD', hA, -⟩ := stmt_agree_ghostswap (P := fun _ _ => True) (c := fun _ => c) (fun _ => hc) (fun _ v _ => hcv v) h (K := ⟨fun k => k = 0, fun _ => False⟩) (a := 0) rfl (σ := fun _ => s)
    (D := fun r _ => E r) (S := fun r => (fillPass .mpi (w.shape r) (fill r) (new r)).bind fun a => .ok fun _ => a) (fun r hr => by beta_reduce; rw [(hE r hr).1]; rfl)
    ⟨fun k _ r hr x hx => hsame r hr x hx, fun k hk => hk.elim⟩ (fun _ => ⟨fun _ _ _ => trivial, fun _ _ _ _ _ => trivial⟩)
  let a : Int → α × α := fun n => ((s n).1, p.full (s n).1 - p.K * lap w.serial dx (fun q => (s q).1) n)
  have hloop : ∀ r, ∃ b, IsRank np r → runLoop .mpi (w.shape r) 0 (muKernel p w.d dx) (D' r) = .ok (Function.update (D' r) 0 b) ∧ ∀ x, (w.shape r).IsNode x → cellAt (w.shape r) b x = cellAt w.serial a x := by
    intro r
    by_cases hr : IsRank np r
    · have hsync := hA.synced 0 (Or.inr rfl)
      obtain ⟨b, hb⟩ := inplace (bd := .mpi) (shape_wf h hr) (fun e => by cases e) (kern := muKernel p w.d dx) (σ := D' r) (val := cellAt w.serial a)
        (fun x y hxy => by unfold cellAt; rw [rawOffset_congr (g := w.serial) hxy]) (fun b hb x hx => by
          refine mu_value hs p dx (hglobal r hr x hx) (A := gridAt .mpi (w.shape r) b) (fun y hy => ?_) _ (by rw [Function.update_self])
          rw [first_congr hb, gridAt_synced h hsync hr (near_cell hx hy hgh)]) (fun x hx => by
          have := hA.same 0 rfl r hr x hx
          rw [this]
          rfl)
      exact ⟨b, fun _ => hb⟩
    · exact ⟨new r, fun h => absurd h hr⟩
  choose D hD using hloop
  refine ⟨a, D, fun r hr => ?_, fun r hr => (hD r hr).2, fun r hr i h0 h1 => ?_, fun n _ _ => rfl⟩
  · unfold convexRanks mpiRun
    simp only [List.foldl_cons, List.foldl_nil]
    have e1 := hD' r hr
    show (((mpiStmt (fun _ => c) w (.ghostswap 0) _ r).bind (runLoop .mpi (w.shape r) 0 (muKernel p w.d dx))).bind fun σ => .ok (σ 0)) = _
    rw [e1, Outcome.ok_bind, (hD r hr).1, Outcome.ok_bind, Function.update_self]
  · rw [← (hE r hr).2 i h0 h1, hsame r hr _ (Shape.position_isNode (shape_wf h hr) h0 h1)]
    rfl

end

/-- **C106.** The serial program. -/
theorem convex_serial {g : Shape} (hs : Serial g) (p : Params α) (dx : Nat → α) (fill : Int → α) (new : Int → α × α) :
    ∃ a, convexSerial g p dx fill new = .ok a ∧ (∀ i, 0 ≤ i → i < g.nodes → (a i).1 = fill i) ∧ HasPotential p g dx a := by
  have hser : Build.serial = .serial → g.ghosts = 0 := fun _ => hs.ghosts
  obtain ⟨s, e, hf⟩ := fill_spec hs.wf hser fill new
  let a : Int → α × α := fun n => ((s n).1, p.full (s n).1 - p.K * lap g dx (fun q => (s q).1) n)
  obtain ⟨b, hb, hv⟩ := inplace hs.wf hser (kern := muKernel p g.dim dx) (σ := fun _ => s) (val := cellAt g a) (fun x y hxy => by unfold cellAt; rw [rawOffset_congr hxy])
    (fun b hb x hx => mu_value hs p dx hx (A := gridAt .serial g b) (fun y _ => first_congr hb y) _ (by rw [Function.update_self])) fun x _ => rfl
  have hraw : ∀ n, 0 ≤ n → n < g.nodes → g.rawOffset (g.position n) = n := fun n h0 h1 => (atNode_raw hs.wf hser h0 h1).symm
  have hbn : ∀ n, 0 ≤ n → n < g.nodes → b n = a n := fun n h0 h1 => by
    have := hv _ (Shape.position_isNode hs.wf h0 h1)
    unfold cellAt at this
    rwa [hraw n h0 h1] at this
  refine ⟨b, ?_, fun i h0 h1 => ?_, fun n h0 h1 => ?_⟩
  · unfold convexSerial
    rw [e, Outcome.ok_bind]
    have e2 : serialRun g [.ghostswap 0, .loop 0 (muKernel p g.dim dx)] (fun _ => s) = .ok (Function.update (fun _ => s) 0 b) := by
      unfold serialRun
      simp only [List.foldlM_cons, List.foldlM_nil, Outcome.bind_eq, Outcome.pure_eq, serialStmt, Outcome.ok_bind, hb]
    rw [e2, Outcome.ok_bind, Function.update_self]
  · rw [hbn i h0 h1, ← hf i h0 h1]
    unfold cellAt
    rw [hraw i h0 h1]
  · rw [hbn n h0 h1, lap_congr hs dx (v := fun q => (s q).1) h0 h1 fun q q0 q1 => by rw [hbn q q0 q1]]

/-! ## The file -/

section
variable {D : Type} {fmt : Format (α × α) D} {m : Meta D} (hfmt : fmt.Good fun _ => True) (hm : m.Good fmt) {ghosts : Int} {np : Nat} (hok : (m.world fmt.d ghosts np).Ok np)
  (hnp : np < 2 ^ 31) (hw : ∀ r, IsRank np r → Writes fmt (fun _ => True) ((m.world fmt.d ghosts np).shape r)) (hs : Serial (m.serial fmt.d)) (hgh : 1 ≤ ghosts) (p : Params α) (dx : Nat → α)
include hfmt hm hok hnp hw hs hgh

/-- **C106.** The file of `generate` of convex splitting on any number of ranks: field 0 as filled in by the owner of each node, field 1 the chemical potential of that field 0 over the whole grid. -/
theorem convex_file (fill : Int → Int → α) (new : Int → Int → α × α) :
    ∃ writes, generateFile fmt m ghosts np (convexRanks fmt.cell (m.world fmt.d ghosts np) p dx fill new) = .ok writes ∧
      ∃ out a, (∀ W, W.Perm writes → ∀ i, written W i = out[i]?) ∧ Denotes fmt m (cellAt (m.serial fmt.d) a) out ∧
        (∀ r, IsRank np r → ∀ i, 0 ≤ i → i < ((m.world fmt.d ghosts np).shape r).nodes → (cellAt (m.serial fmt.d) a (((m.world fmt.d ghosts np).shape r).position i)).1 = fill r i) ∧
        HasPotential p (m.serial fmt.d) dx a := by
  obtain ⟨a, D', h1, h2, h3, h4⟩ := convex_ranks hok hgh hs hfmt.cell (fun v => hfmt.valid v trivial) p dx fill new
  obtain ⟨writes, e, out, ho, hd⟩ := generate_denotes hfmt hm hok hnp hw h1 (fun _ _ _ _ _ => trivial) h2
  exact ⟨writes, e, out, a, ho, hd, h3, h4⟩

/-- **C106.** If field 0 is a function of the position (the benchmark of lines 244-249), the file holds what the serial program computes, on any number of ranks. -/
theorem convex_same {φ : (Nat → Int) → α} (hφ : ∀ x y, (∀ j, j < fmt.d → x j = y j) → φ x = φ y) (new : Int → Int → α × α) (new' : Int → α × α) :
    ∃ b, convexSerial (m.serial fmt.d) p dx (fun n => φ ((m.serial fmt.d).position n)) new' = .ok b ∧
    ∃ writes, generateFile fmt m ghosts np (convexRanks fmt.cell (m.world fmt.d ghosts np) p dx (fun r i => φ (((m.world fmt.d ghosts np).shape r).position i)) new) = .ok writes ∧
      ∃ out, (∀ W, W.Perm writes → ∀ i, written W i = out[i]?) ∧ Denotes fmt m (cellAt (m.serial fmt.d) b) out := by
  obtain ⟨b, e, b1, b2⟩ := convex_serial hs p dx (fun n => φ ((m.serial fmt.d).position n)) new'
  obtain ⟨writes, e', out, a, ho, hd, a1, a2⟩ := convex_file hfmt hm hok hnp hw hs hgh p dx (fun r i => φ (((m.world fmt.d ghosts np).shape r).position i)) new
  refine ⟨b, e, writes, e', out, ho, hd.congr fun x hx => ?_⟩
  have hser : Build.serial = .serial → (m.serial fmt.d).ghosts = 0 := fun _ => hs.ghosts
  have hraw : ∀ n, 0 ≤ n → n < (m.serial fmt.d).nodes → (m.serial fmt.d).rawOffset ((m.serial fmt.d).position n) = n := fun n h0 h1 => (atNode_raw hs.wf hser h0 h1).symm
  have hfirst : ∀ n, 0 ≤ n → n < (m.serial fmt.d).nodes → (a n).1 = (b n).1 := by
    intro n h0 h1
    rw [b1 n h0 h1]
    have hn := Shape.position_isNode hs.wf h0 h1
    obtain ⟨r, hr, hrn⟩ := owner hok (y := (m.serial fmt.d).position n) hn
    obtain ⟨i, ⟨i0, i1, hi⟩, -⟩ := Shape.position_surj (shape_wf hok hr) hrn
    have := a1 r hr i i0 i1
    unfold cellAt at this
    rw [rawOffset_congr (g := m.serial fmt.d) hi, hraw n h0 h1] at this
    rw [this]
    exact hφ _ _ hi
  obtain ⟨n0, n1, -⟩ := position_rawOffset hs hx
  unfold cellAt
  refine Prod.ext (hfirst _ n0 n1) ?_
  rw [a2 _ n0 n1, b2 _ n0 n1, hfirst _ n0 n1, lap_congr hs dx n0 n1 hfirst]

end

/-! ## Examples -/

/-- Cells of two numbers, as `vector` of length two. -/
def pairs {K : Type} (c : Codec K) (zero : K) : Format (K × K) { n : Int // -2 ^ 31 ≤ n ∧ n < 2 ^ 31 } :=
  ⟨none, mapCell (arrayCell c) (fun v => [v.1, v.2]) (fun l => (l.getD 0 zero, l.getD 1 zero)), fun _ => (zero, zero), wholeDecimal, ⟨1, by decide⟩, gridName (ascii "vector:double"), 1⟩

theorem pairs_good {K : Type} (c : Codec K) (zero : K) : (pairs c zero).Good fun _ => True :=
  ⟨mapCell_roundTrips (vectorCell_roundTrips c) (fun v : K × K => [v.1, v.2]) (fun l => (l.getD 0 zero, l.getD 1 zero)), by rintro z ⟨⟩,
    show newline ∉ gridName (ascii "vector:double") by decide, show checkType (gridName (ascii "vector:double")) (gridName (ascii "vector:double")) = .ok () by decide, fun v _ => ⟨show 2 < 2 ^ 31 by decide, rfl⟩⟩

/-- The line of 1024 nodes on four ranks, with any random numbers, for numbers of at most 64 bytes. -/
example (c : Codec α) (hc : c.width ≤ 64) (p : Params α) (dx : Nat → α) (fill : Int → Int → α) (new : Int → Int → α × α) :
    ∃ writes out a, generateFile (pairs c 0) (ring 2) 1 4 (convexRanks (pairs c 0).cell ((ring 2).world 1 1 4) p dx fill new) = .ok writes ∧
      Denotes (pairs c 0) (ring 2) (cellAt ((ring 2).serial 1) a) out ∧ (a 256).1 = fill 1 0 ∧ (a 256).2 = p.full (a 256).1 - p.K * (((a 257).1 - 2 * (a 256).1 + (a 255).1) / dx 0 ^ 2) := by
  have hs : Serial ((ring 2).serial 1) := ⟨serial_wf (ring_ok 2 (np := 1) (by decide)), rfl, fun j hj => by
    obtain rfl : j = 0 := by change j < 1 at hj; omega
    exact Or.inl ⟨rfl, rfl⟩⟩
  have hg := pairs_good c (0 : α)
  obtain ⟨writes, e, out, a, -, hd, hf, hp⟩ := convex_file hg (ring_good rfl ⟨by decide, by decide⟩ rfl) (ring_ok 2 (np := 4) (by decide)) (by decide)
    (fun r hr => ring_writes rfl hg.cell hg.valid (fun v _ => by show 4 + 2 * c.width ≤ 1000; omega) 2 (by decide) hr) hs (by decide) p dx fill new
  refine ⟨writes, out, a, e, hd, ?_, ?_⟩
  · rw [← hf 1 ⟨by decide, by decide⟩ 0 (by decide) (by rw [show ((ring 2).world (pairs c (0 : α)).d 1 4) = (ring 2).world 1 1 4 from rfl, ring_nodes 2 ⟨by decide, by decide⟩]; decide)]
    congr 2
  · have hn : 256 < ((ring 2).serial 1).nodes := by decide +kernel
    have n1 : nb ((ring 2).serial 1) 0 256 true = 257 := by decide +kernel
    have n2 : nb ((ring 2).serial 1) 0 256 false = 255 := by decide +kernel
    have := hp 256 (by decide) hn
    rw [this]
    unfold lap
    rw [show ((ring 2).serial (pairs c (0 : α)).d) = (ring 2).serial 1 from rfl, show ((ring 2).serial 1).dim = 1 from rfl, Finset.sum_range_one, n1, n2]

/-- A composition that depends on the position, on two ranks. -/
example (c : Codec α) (hc : c.width ≤ 64) (p : Params α) (dx : Nat → α) (new : Int → Int → α × α) (new' : Int → α × α) :
    ∃ b writes out, convexSerial ((ring 2).serial 1) p dx (fun n => ((((ring 2).serial 1).position n 0 : Int) : α) ^ 2) new' = .ok b ∧
      generateFile (pairs c 0) (ring 2) 1 2 (convexRanks (pairs c 0).cell ((ring 2).world 1 1 2) p dx (fun r i => (((((ring 2).world 1 1 2).shape r).position i 0 : Int) : α) ^ 2) new) = .ok writes ∧
      (∀ W, W.Perm writes → ∀ i, written W i = out[i]?) ∧ Denotes (pairs c 0) (ring 2) (cellAt ((ring 2).serial 1) b) out := by
  have hs : Serial ((ring 2).serial 1) := ⟨serial_wf (ring_ok 2 (np := 1) (by decide)), rfl, fun j hj => by
    obtain rfl : j = 0 := by change j < 1 at hj; omega
    exact Or.inl ⟨rfl, rfl⟩⟩
  have hg := pairs_good c (0 : α)
  obtain ⟨b, e, writes, e', out, ho, hd⟩ := convex_same hg (ring_good rfl ⟨by decide, by decide⟩ rfl) (ring_ok 2 (np := 2) (by decide)) (by decide)
    (fun r hr => ring_writes rfl hg.cell hg.valid (fun v _ => by show 4 + 2 * c.width ≤ 1000; omega) 2 (by decide) hr) hs (by decide) p dx (φ := fun x => ((x 0 : Int) : α) ^ 2)
    (fun x y h => by rw [h 0 (show 0 < 1 by decide)]) new new'
  exact ⟨b, writes, out, e, e', ho, hd⟩

end MMSP.GenerateConvex
