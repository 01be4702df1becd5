import Verif.SpinSchedule
import Verif.UnequalCalls
import Verif.SpinProps
/-!
# Property C101: do the parallel spin models return?

A rank of `update` calls `ghostswap` after every `gss`-th attempt, and `gss` and the number of attempts come from its own number of nodes. The program returns on all ranks, for every schedule, exactly
when these numbers of calls agree; for the grids that `generate` makes they do not on seven ranks in two dimensions and on three ranks in three.
-/

namespace MMSP.SpinSchedule

open ParallelRun Ghost Async Stencil Spin

variable {V : Type} {np : Nat}

/-! ## Specification -/

open Classical in
/-- How many calls of `ghostswap` a program makes. -/
noncomputable def calls (p : List (Stmt V)) : Nat := p.countP fun s => decide (∃ a, s = .ghostswap a)

section
variable {w : World} (c : Nat → Cell V) (h : w.Ok np)

/-- Every run is finite, and goes on until all ranks have executed all their statements; with sends that are buffered (`e`) and with sends that are not. -/
def Returns (p : Rank np → List (Stmt V)) (D : Int → Grids V) : Prop :=
  ∀ e, (∃ B, ∀ n X, Run c h e n (startEach p D) X → n ≤ B) ∧ ∀ n X, Run c h e n (startEach p D) X → ¬ Done X → ∃ Y, Step c h e X Y

/-- Every run gets to a state in which some rank is not done and no rank can go on; and with barriers that let everybody pass there is still no run in which all ranks are done. -/
def Hangs (p : Rank np → List (Stmt V)) (D : Int → Grids V) : Prop :=
  ∀ e, (∀ n X, Run c h e n (startEach p D) X → ∃ m Y, Run c h e m (startEach p D) Y ∧ n ≤ m ∧ ¬ Done Y ∧ ∀ Z, ¬ Step c h e Y Z) ∧ ∀ n X, FreeRun c h e n (startEach p D) X → ¬ Done X

end

/-- `⌈n/⌊√n⌋⌉` -/
def perSweep (n : Nat) : Nat := (n + n.sqrt - 1) / n.sqrt

/-! ## Counting calls -/

theorem calls_segs (p : List (Stmt V)) : (segs p).length = calls p := by
  classical
  unfold calls
  induction p with
  | nil => rfl
  | cons s p ih => cases s <;> simp [segs, ih]

theorem calls_cons_local {s : Stmt V} (hs : IsLocal s) (p : List (Stmt V)) : calls (s :: p) = calls p := by rw [← calls_segs, ← calls_segs, segs_local hs]

theorem calls_append (p q : List (Stmt V)) : calls (p ++ q) = calls p + calls q := by unfold calls; exact List.countP_append

theorem calls_sweep {attempt : Nat → Stmt V} (ha : ∀ h, IsLocal (attempt h)) {g : Nat} (hg : 0 < g) : ∀ n, calls (sweep attempt n g) = (n + g - 1) / g
  | 0 => by
    show calls ([] : List (Stmt V)) = (0 + g - 1) / g
    rw [Nat.div_eq_of_lt (by omega)]; rfl
  | n + 1 => by
    have ih := calls_sweep ha hg n
    unfold sweep at ih ⊢
    rw [List.range_succ, List.flatMap_append, calls_append, ih, List.flatMap_cons, List.flatMap_nil, List.append_nil, calls_cons_local (ha n)]
    have e : n + 1 + g - 1 = (n + g - 1) + 1 := by omega
    rw [e, Nat.succ_div]
    have hd : g ∣ n + g - 1 + 1 ↔ n % g = 0 := by rw [show n + g - 1 + 1 = n + g by omega, Nat.dvd_add_self_right, Nat.dvd_iff_mod_eq_zero]
    congr 1
    simp only [hd]
    split_ifs with h0
    · rw [← calls_segs]; rfl
    · rfl

theorem calls_update {attempt : Nat → Nat → Stmt V} (ha : ∀ s h, IsLocal (attempt s h)) {g : Nat} (hg : 0 < g) (n : Nat) (steps : Nat) :
    calls (update attempt n g steps) = 1 + steps * ((n + g - 1) / g) := by
  have h1 : calls (update attempt n g steps) = 1 + calls ((List.range steps).flatMap fun step => sweep (attempt step) n g) := by
    unfold update; rw [← calls_segs, segs, List.length_cons, calls_segs]; omega
  rw [h1]
  congr 1
  induction steps with
  | zero => rw [Nat.zero_mul]; rfl
  | succ k ih => rw [List.range_succ, List.flatMap_append, calls_append, ih ?_, List.flatMap_cons, List.flatMap_nil, List.append_nil, calls_sweep (ha k) hg]; ring
                 unfold update; rw [← calls_segs, segs, List.length_cons, calls_segs]; omega

/-! ## Programs of any kind -/

section
variable {w : World} {c : Nat → Cell V} {h : w.Ok np}

theorem step_eager {e : Bool} {S S' : State V np} (hs : Step c h false S S') : Step c h e S S' := by
  cases hs with
  | compute r s rest ht hs hb => exact .compute S r s rest ht hs hb
  | post r a rest ht hp hb => exact .post S r a rest ht hp hb
  | deliver r a rest m l₁ l₂ ht hn hp hr hd hs htag => exact .deliver S r a rest m l₁ l₂ ht hn hp hr hd hs htag
  | sent r hp hs hn => exact .sent S r hp hs (Or.inr (hn.resolve_left (by simp)))
  | pass r a rest ht hr hb => exact .pass S r a rest ht hr hb

theorem hangs_of_calls {p : Rank np → List (Stmt V)} {a b : Rank np} (hne : calls (p a) ≠ calls (p b)) (D : Int → Grids V) : Hangs c h p D := by
  have hno : ∀ e n X, FreeRun c h e n (startEach p D) X → ¬ Done X := fun e n X hrun hX => hne (by
    have := finished_calls hrun hX a b
    rwa [calls_segs, calls_segs] at this)
  refine fun e => ⟨fun n X hrun => ?_, hno e⟩
  obtain ⟨m, Y, hY, hm, hstuck⟩ := runs_stop hrun
  exact ⟨m, Y, hY, hm, hno e m Y (Run.free c h hY), hstuck⟩

/-- **C101.** Ranks that execute programs of their own return, for every schedule, exactly if they make equally many calls of `ghostswap`, -/
theorem returns_iff {p : Rank np → List (Stmt V)} {D : Int → Grids V} : Returns c h p D ↔ ∀ a b, calls (p a) = calls (p b) := by
  constructor
  · intro hR a b
    by_contra hne
    obtain ⟨m, Y, hY, -, hnd, hstuck⟩ := (hangs_of_calls (c := c) (h := h) hne D false).1 0 _ (.nil _)
    obtain ⟨Z, hZ⟩ := (hR false).2 m Y hY hnd
    exact hstuck Z hZ
  · intro heq e
    refine ⟨⟨_, fun n X hrun => all_end (Run.free c h hrun)⟩, fun n X hrun hX => ?_⟩
    obtain ⟨r0⟩ : Nonempty (Rank np) := by
      by_contra hcon
      exact hX fun r => absurd ⟨r⟩ hcon
    obtain ⟨Y, hY⟩ := each_go_on (N := calls (p r0)) (fun r => by rw [calls_segs]; exact heq r r0) hrun hX
    exact ⟨Y, step_eager hY⟩

/-- **C101.** and otherwise they hang. -/
theorem returns_or_hangs (p : Rank np → List (Stmt V)) (D : Int → Grids V) : (Returns c h p D ∧ ¬ Hangs c h p D) ∨ (Hangs c h p D ∧ ¬ Returns c h p D) := by
  by_cases heq : ∀ a b, calls (p a) = calls (p b)
  · refine Or.inl ⟨returns_iff.2 heq, fun hH => ?_⟩
    obtain ⟨m, Y, hY, -, hnd, hstuck⟩ := (hH false).1 0 _ (.nil _)
    obtain ⟨Z, hZ⟩ := (returns_iff.2 heq false).2 m Y hY hnd
    exact hstuck Z hZ
  · push Not at heq
    obtain ⟨a, b, hne⟩ := heq
    exact Or.inr ⟨hangs_of_calls hne D, fun hR => hne (returns_iff.1 hR a b)⟩

end

/-! ## An attempt is the assignment of the program -/

theorem assign_local (dim : Nat) (x : Nat → Int) (f : ((Nat → Int) → Outcome V) → Outcome V) : IsLocal (assign dim x f) := trivial

theorem node_cell {g : Shape} (hg : g.Wf) {i : Nat} (hi : i < g.nodes.toNat) : 0 ≤ g.atNode .mpi i ∧ g.atNode .mpi i < g.cells := by
  rw [atNode_raw hg (fun e => by cases e) (by omega) (by omega)]
  exact Shape.rawOffset_bounds hg (isCell_of_isNode hg.ghosts (Shape.position_isNode hg (by omega) (by omega)))

theorem read_node {g : Shape} (hg : g.Wf) {i : Nat} (hi : i < g.nodes.toNat) (d : Int → V) : gridAt .mpi g d (g.position i) = .ok (d (g.atNode .mpi i)) := by
  unfold gridAt deref
  rw [← Shape.atNode_eq_atVec hg .mpi (fun e => by cases e) (by omega) (by omega), if_pos (node_cell hg hi)]

/-- `assign` assigns to one node. -/
theorem assign_run {g : Shape} (hg : g.Wf) {m : Nat} (hm : m < g.nodes.toNat) (f : ((Nat → Int) → Outcome V) → Outcome V) (σ : Grids V) :
    localStmt g (assign g.dim (g.position m) f) ⟨σ, k⟩ =
      (f (gridAt .mpi g (σ 0))).bind fun v => .ok ⟨Function.update σ 0 (Function.update (σ 0) (g.atNode .mpi m) v), k⟩ := by
  have skip : ∀ (l : List Nat) (σ : Grids V), (∀ i ∈ l, i < g.nodes.toNat ∧ i ≠ m) → l.foldlM (fun (σ : Grids V) (i : Nat) =>
      ((if ∀ j, j < g.dim → g.position i j = g.position m j then f (gridAt .mpi g (σ 0)) else gridAt .mpi g (σ 0) (g.position i))).bind fun v =>
      (store g (σ 0) (g.atNode .mpi i) v).bind fun a => .ok (Function.update σ 0 a)) σ = Outcome.ok σ := fun l => by
    induction l with
    | nil => intro σ _; rfl
    | cons i l ih =>
      intro σ hl
      obtain ⟨hi, hne⟩ := hl i (List.mem_cons_self ..)
      have hpos : ¬ ∀ j, j < g.dim → g.position i j = g.position m j := fun hh => hne (by
        have := Shape.position_inj hg (i := (i : Int)) (i' := (m : Int)) (by omega) (by omega) (by omega) (by omega) hh
        omega)
      rw [List.foldlM_cons, if_neg hpos, read_node hg hi, Outcome.ok_bind, store, if_pos (node_cell hg hi), Outcome.ok_bind, Function.update_eq_self, Function.update_eq_self, Outcome.bind_eq,
        Outcome.ok_bind]
      exact ih σ fun t ht => hl t (List.mem_cons_of_mem _ ht)
  obtain ⟨l₁, l₂, e⟩ := List.append_of_mem (List.mem_range.2 hm)
  have hnd := List.nodup_range (n := g.nodes.toNat)
  rw [e] at hnd
  have hmem : ∀ i, i ∈ l₁ ∨ i ∈ l₂ → i < g.nodes.toNat ∧ i ≠ m := fun i hi => by
    refine ⟨List.mem_range.1 (by rw [e]; rcases hi with hi | hi <;> simp [hi]), fun him => ?_⟩
    subst him
    rw [List.nodup_append] at hnd
    rcases hi with hi | hi
    · exact hnd.2.2 i hi i (List.mem_cons_self ..) rfl
    · exact (List.nodup_cons.1 hnd.2.1).1 hi
  show (runLoop .mpi g 0 _ σ).bind _ = _
  unfold runLoop
  rw [e, List.foldlM_append]
  have h1 := skip l₁ σ fun i hi => hmem i (Or.inl hi)
  rw [h1, Outcome.bind_eq, Outcome.ok_bind, List.foldlM_cons]
  beta_reduce
  rw [if_pos fun _ _ => rfl, Outcome.bind_eq]
  cases f (gridAt .mpi g (σ 0)) with
  | ok v =>
    rw [Outcome.ok_bind, Outcome.ok_bind, store, if_pos (node_cell hg hm), Outcome.ok_bind, Outcome.ok_bind]
    have h2 := skip l₂ (Function.update σ 0 (Function.update (σ 0) (g.atNode .mpi m) v)) fun i hi => hmem i (Or.inr hi)
    rw [h2]; rfl
  | ub => rfl
  | abort z => rfl

/-- What an attempt of `Verif/Spin.lean` makes of the memory of a rank. -/
def onGrid (flip : (Int → V) → Outcome (Int → V)) (m : Mem V) : Outcome (Mem V) := (flip (m.σ 0)).bind fun a => .ok { m with σ := Function.update m.σ 0 a }

theorem keep {d : Int → V} {p : Int} : Function.update d p (d p) = d := Function.update_eq_self _ _

theorem isingAttempt_eq {g : Shape} (hg : g.Wf) (hn : 0 < g.nodes.toNat) (hot : ℚ → Nat → Bool) (r : Nat × Nat) (m : Mem Int) :
    localStmt g (isingAttempt g hot r) m = onGrid (fun d => isingFlip .mpi g hot d r) m := by
  have hm := Nat.mod_lt r.1 hn
  obtain ⟨σ, k⟩ := m
  rw [isingAttempt, assign_run hg hm, onGrid, isingFlip, if_neg (by omega)]
  dsimp only
  rw [read_node hg hm, deref, if_pos (node_cell hg hm), Outcome.ok_bind, Outcome.ok_bind]
  show ((energySum .mpi g (σ 0) _ _ _ _).bind _).bind _ = ((energySum .mpi g (σ 0) _ _ _ _).bind _).bind _
  cases energySum .mpi g (σ 0) (List.range g.dim) (g.position (r.1 % g.nodes.toNat : Nat)) (σ 0 (g.atNode .mpi (r.1 % g.nodes.toNat : Nat))) (-σ 0 (g.atNode .mpi (r.1 % g.nodes.toNat : Nat))) with
  | ok s =>
    simp only [Outcome.ok_bind, store, if_pos (node_cell hg hm)]
    split_ifs <;> simp only [Outcome.ok_bind, keep]
  | ub => rfl
  | abort z => rfl

theorem pottsAttempt_eq {g : Shape} (hg : g.Wf) (hn : 0 < g.nodes.toNat) (hot : ℚ → Nat → Bool) (r : Nat × Nat × Nat) (m : Mem Int) :
    localStmt g (pottsAttempt g hot r) m = onGrid (fun d => pottsFlip .mpi g hot d r) m := by
  have hm := Nat.mod_lt r.1 hn
  obtain ⟨σ, k⟩ := m
  rw [pottsAttempt, assign_run hg hm, onGrid, pottsFlip, if_neg (by omega)]
  dsimp only
  rw [read_node hg hm, deref, if_pos (node_cell hg hm), Outcome.ok_bind, Outcome.ok_bind]
  show ((pottsSum .mpi g (σ 0) _ _ _).bind _).bind _ = ((pottsSum .mpi g (σ 0) _ _ _).bind _).bind _
  cases pottsSum .mpi g (σ 0) (g.position (r.1 % g.nodes.toNat : Nat)) (σ 0 (g.atNode .mpi (r.1 % g.nodes.toNat : Nat))) (r.2.1 % 20 : Nat) with
  | ok s =>
    simp only [Outcome.ok_bind, store, if_pos (node_cell hg hm), mul_one]
    split_ifs <;> simp only [Outcome.ok_bind, keep]
  | ub => rfl
  | abort z => rfl

theorem heisenbergAttempt_eq {α : Type} [Field α] [LinearOrder α] {g : Shape} (hg : g.Wf) (hn : 0 < g.nodes.toNat) (dir : Nat → Nat → Dir α) (hot : α → Nat → Bool) (r : Nat × Nat × Nat × Nat)
    (m : Mem (Dir α)) : localStmt g (heisenbergAttempt g dir hot r) m = onGrid (fun d => heisenbergFlip .mpi g dir hot d r) m := by
  have hm := Nat.mod_lt r.1 hn
  obtain ⟨σ, k⟩ := m
  rw [heisenbergAttempt, assign_run hg hm, onGrid, heisenbergFlip, if_neg (by omega)]
  dsimp only
  rw [read_node hg hm, deref, if_pos (node_cell hg hm), Outcome.ok_bind, Outcome.ok_bind]
  show ((turnSum .mpi g (σ 0) _ _ _ _).bind _).bind _ = ((turnSum .mpi g (σ 0) _ _ _ _).bind _).bind _
  cases turnSum .mpi g (σ 0) (List.range g.dim) (g.position (r.1 % g.nodes.toNat : Nat)) (σ 0 (g.atNode .mpi (r.1 % g.nodes.toNat : Nat))) (dir r.2.1 r.2.2.1) with
  | ok s =>
    simp only [Outcome.ok_bind, store, if_pos (node_cell hg hm)]
    split_ifs <;> simp only [Outcome.ok_bind, keep]
  | ub => rfl
  | abort z => rfl

/-! ## The programs -/

theorem rank_nodes {w : World} (h : w.Ok np) (r : Rank np) : 0 < (w.shape r.1).nodes.toNat := by
  have hg := shape_wf h r.2
  have : 0 < (w.shape r.1).nodes := by
    rw [Shape.nodes_eq hg]
    exact Finset.prod_pos fun j hj => Shape.xx_radix_pos hg j (Finset.mem_range.1 hj)
  omega

theorem gss_pos (dim : Nat) {n : Nat} (hn : 0 < n) : 0 < gss dim n := by
  unfold gss
  split_ifs
  · exact hn
  · exact Nat.sqrt_pos.2 hn

section
variable {w : World} {c : Nat → Cell V} {h : w.Ok np}

/-- Two or three dimensions: the ranks return exactly if `⌈n/⌊√n⌋⌉` is the same for all their numbers `n` of nodes. -/
theorem spin_returns_iff (hd : w.d ≠ 1) {attempt : Rank np → Nat → Nat → Stmt V} (ha : ∀ r s i, IsLocal (attempt r s i)) (steps : Nat) (D : Int → Grids V) :
    Returns c h (fun r => update (attempt r) (w.shape r.1).nodes.toNat (gss w.d (w.shape r.1).nodes.toNat) steps) D ↔
      steps = 0 ∨ ∀ a b : Rank np, perSweep (w.shape a.1).nodes.toNat = perSweep (w.shape b.1).nodes.toNat := by
  rw [returns_iff]
  have e : ∀ r : Rank np, calls (update (attempt r) (w.shape r.1).nodes.toNat (gss w.d (w.shape r.1).nodes.toNat) steps) = 1 + steps * perSweep (w.shape r.1).nodes.toNat := fun r => by
    rw [calls_update (ha r) (gss_pos _ (rank_nodes h r)), perSweep, gss, if_neg hd]
  simp only [e]
  constructor
  · intro hh
    by_cases h0 : steps = 0
    · exact Or.inl h0
    · exact Or.inr fun a b => Nat.eq_of_mul_eq_mul_left (Nat.pos_of_ne_zero h0) (by have := hh a b; omega)
  · rintro (h0 | hh) a b
    · rw [h0, Nat.zero_mul, Nat.zero_mul]
    · rw [hh a b]

/-- With `gss` equal to the number of nodes there is one call per sweep. -/
theorem one_call {n : Nat} (hn : 0 < n) : (n + n - 1) / n = 1 := by
  rw [show n + n - 1 = n - 1 + n by omega, Nat.add_div_right _ hn, Nat.div_eq_of_lt (by omega)]

/-- In one dimension they always return. -/
theorem spin_line_returns (hd : w.d = 1) {attempt : Rank np → Nat → Nat → Stmt V} (ha : ∀ r s i, IsLocal (attempt r s i)) (steps : Nat) (D : Int → Grids V) :
    Returns c h (fun r => update (attempt r) (w.shape r.1).nodes.toNat (gss w.d (w.shape r.1).nodes.toNat) steps) D := by
  refine returns_iff.2 fun a b => ?_
  rw [calls_update (ha a) (gss_pos _ (rank_nodes h a)), calls_update (ha b) (gss_pos _ (rank_nodes h b)), gss, gss, if_pos hd, if_pos hd, one_call (rank_nodes h a), one_call (rank_nodes h b)]

/-- **C101.** The Monte Carlo programs of `zener_pinning` always return, -/
theorem zener_returns {attempt : Rank np → Nat → Nat → Stmt V} (ha : ∀ r s i, IsLocal (attempt r s i)) (steps : Nat) (D : Int → Grids V) :
    Returns c h (fun r => zenerRank (w.shape r.1) (attempt r) steps) D := by
  refine returns_iff.2 fun a b => ?_
  unfold zenerRank zenerGss
  rw [calls_update (ha a) (rank_nodes h a), calls_update (ha b) (rank_nodes h b), one_call (rank_nodes h a), one_call (rank_nodes h b)]

end

/-- Enough for the spin models to return: ranks with equally many nodes, or a line. -/
def Even (w : World) (np : Nat) : Prop := w.d = 1 ∨ ∀ a b : Rank np, (w.shape a.1).nodes = (w.shape b.1).nodes

theorem even_returns {w : World} {c : Nat → Cell V} {h : w.Ok np} (hw : Even w np) {attempt : Rank np → Nat → Nat → Stmt V} (ha : ∀ r s i, IsLocal (attempt r s i)) (steps : Nat)
    (D : Int → Grids V) : Returns c h (fun r => update (attempt r) (w.shape r.1).nodes.toNat (gss w.d (w.shape r.1).nodes.toNat) steps) D := by
  by_cases hd : w.d = 1
  · exact spin_line_returns hd ha steps D
  · exact (spin_returns_iff hd ha steps D).2 (Or.inr fun a b => by rw [hw.resolve_left hd a b])

/-- Ising. Full claim: it returns on every decomposition (false, `ising_hangs`). -/
theorem ising_returns_partial {w : World} {c : Nat → Cell Int} {h : w.Ok np} (hw : Even w np) (hot : ℚ → Nat → Bool) (draws : Rank np → Nat → Nat → Nat × Nat) (steps : Nat)
    (D : Int → Grids Int) : Returns c h (fun r => isingRank (w.shape r.1) hot (draws r) steps) D :=
  even_returns hw (attempt := fun r step i => isingAttempt (w.shape r.1) hot (draws r step i)) (fun _ _ _ => trivial) steps D

/-- Potts. Full claim: it returns on every decomposition (false, `potts_hangs`). -/
theorem potts_returns_partial {w : World} {c : Nat → Cell Int} {h : w.Ok np} (hw : Even w np) (hot : ℚ → Nat → Bool) (draws : Rank np → Nat → Nat → Nat × Nat × Nat) (steps : Nat)
    (D : Int → Grids Int) : Returns c h (fun r => pottsRank (w.shape r.1) hot (draws r) steps) D :=
  even_returns hw (attempt := fun r step i => pottsAttempt (w.shape r.1) hot (draws r step i)) (fun _ _ _ => trivial) steps D

/-- Heisenberg. Full claim: it returns on every decomposition (false, `heisenberg_hangs`). -/
theorem heisenberg_returns_partial {α : Type} [Field α] [LinearOrder α] {w : World} {c : Nat → Cell (Dir α)} {h : w.Ok np} (hw : Even w np) (dir : Nat → Nat → Dir α) (hot : α → Nat → Bool)
    (draws : Rank np → Nat → Nat → Nat × Nat × Nat × Nat) (steps : Nat) (D : Int → Grids (Dir α)) : Returns c h (fun r => heisenbergRank (w.shape r.1) dir hot (draws r) steps) D :=
  even_returns hw (attempt := fun r step i => heisenbergAttempt (w.shape r.1) dir hot (draws r step i)) (fun _ _ _ => trivial) steps D

/-! ## The grids of `generate` -/

/-- The periodic grid with side lengths `L` and one ghost layer on `np` ranks, cut by `setup()`. -/
def generated (d : Nat) (L : Nat → Int) (np : Nat) : World :=
  { d := d, g0 := fun _ => 0, g1 := L, ghosts := 1, p := Decomp.choose np d (fun _ => 0) L, B0 := fun _ => .periodic, B1 := fun _ => .periodic }

/-- `GRID2D initGrid(0,0,2*L,0,L)` with `L=256`: `ising.cpp` 26-27, `potts.cpp` 26-27, `heisenberg.cpp` 32-33. -/
def plane (j : Nat) : Int := if j = 0 then 512 else 256

/-- `GRID3D initGrid(0,0,2*L,0,L,0,L/4)` with `L=64`: `ising.cpp` 36-37, `potts.cpp` 36-37. -/
def box (j : Nat) : Int := if j = 0 then 128 else if j = 1 then 64 else 16

/-- The same with `L=32`: `heisenberg.cpp` 47-48. -/
def smallBox (j : Nat) : Int := if j = 0 then 64 else if j = 1 then 32 else 8

theorem plane_cut : ∀ j, j < 2 → Decomp.choose 7 2 (fun _ => 0) plane j = if j = 0 then 7 else 1 := by decide +kernel
theorem box_cut : ∀ j, j < 3 → Decomp.choose 3 3 (fun _ => 0) box j = if j = 0 then 3 else 1 := by decide +kernel
theorem smallBox_cut : ∀ j, j < 3 → Decomp.choose 3 3 (fun _ => 0) smallBox j = if j = 0 then 3 else 1 := by decide +kernel

theorem generated_ok {d : Nat} (hd : 0 < d) {L : Nat → Int} {np : Nat} (hnp : 0 < np) (hL : ∀ j, j < d → 0 ≤ L j ∧ Decomp.choose np d (fun _ => 0) L j ≤ L j) : (generated d L np).Ok np := by
  have hg : ∀ j, j < d → (fun _ => (0 : Int)) j ≤ L j := fun j hj => (hL j hj).1
  have hp := Decomp.choose_procGrid (g0 := fun _ => 0) (g1 := L) hnp hd hg
  have hfit : ∀ j, j < d → Decomp.choose np d (fun _ => 0) L j ≤ L j - (fun _ => (0 : Int)) j := fun j hj => by have := (hL j hj).2; simpa using this
  refine ⟨⟨hp, hd, hg, (by decide : (0 : Int) ≤ 1), hfit, fun r h0 h1 j hj => ?_⟩, fun j _ => ⟨by simp [generated], by simp [generated]⟩, fun j hj hm => ?_⟩
  · have := (Decomp.nonempty_iff (g0 := fun _ => 0) (g1 := L) hp hg).mpr hfit r h0 h1 j hj
    show (1 : Int) ≤ _
    have h2 : ((generated d L np).toSetup.shape r).x0 j < ((generated d L np).toSetup.shape r).x1 j := this
    omega
  · simp [generated] at hm

theorem plane_ok : (generated 2 plane 7).Ok 7 := generated_ok (by decide) (by decide) (by decide +kernel)
theorem box_ok : (generated 3 box 3).Ok 3 := generated_ok (by decide) (by decide) (by decide +kernel)
theorem smallBox_ok : (generated 3 smallBox 3).Ok 3 := generated_ok (by decide) (by decide) (by decide +kernel)

theorem plane_uneven : perSweep ((generated 2 plane 7).shape 0).nodes.toNat = 139 ∧ perSweep ((generated 2 plane 7).shape 6).nodes.toNat = 138 := by decide +kernel
theorem box_uneven : perSweep ((generated 3 box 3).shape 0).nodes.toNat = 211 ∧ perSweep ((generated 3 box 3).shape 2).nodes.toNat = 208 := by decide +kernel
theorem smallBox_uneven : perSweep ((generated 3 smallBox 3).shape 0).nodes.toNat ≠ perSweep ((generated 3 smallBox 3).shape 2).nodes.toNat := by decide +kernel

theorem uneven_hangs {w : World} {c : Nat → Cell V} {h : w.Ok np} (hd : w.d ≠ 1) {a b : Rank np} (hne : perSweep (w.shape a.1).nodes.toNat ≠ perSweep (w.shape b.1).nodes.toNat)
    {attempt : Rank np → Nat → Nat → Stmt V} (ha : ∀ r s i, IsLocal (attempt r s i)) {steps : Nat} (hs : 0 < steps) (D : Int → Grids V) :
    Hangs c h (fun r => update (attempt r) (w.shape r.1).nodes.toNat (gss w.d (w.shape r.1).nodes.toNat) steps) D := by
  rcases returns_or_hangs (c := c) (h := h) (fun r => update (attempt r) (w.shape r.1).nodes.toNat (gss w.d (w.shape r.1).nodes.toNat) steps) D with hR | hH
  · rcases (spin_returns_iff hd ha steps D).1 hR.1 with h0 | hh
    · omega
    · exact absurd (hh a b) hne
  · exact hH.1

/-- **C101.** The Ising model on the grid of `generate(2)` hangs on seven ranks, on that of `generate(3)` on three, in the first step, whatever the ranks draw. -/
theorem ising_hangs (c : Nat → Cell Int) (hot : ℚ → Nat → Bool) {steps : Nat} (hs : 0 < steps) (D : Int → Grids Int) :
    (∀ draws : Rank 7 → Nat → Nat → Nat × Nat, Hangs c plane_ok (fun r => isingRank ((generated 2 plane 7).shape r.1) hot (draws r) steps) D) ∧
      ∀ draws : Rank 3 → Nat → Nat → Nat × Nat, Hangs c box_ok (fun r => isingRank ((generated 3 box 3).shape r.1) hot (draws r) steps) D :=
  ⟨fun draws => uneven_hangs (w := generated 2 plane 7) (by decide) (a := ⟨0, ⟨by decide, by decide⟩⟩) (b := ⟨6, ⟨by decide, by decide⟩⟩) (by rw [plane_uneven.1, plane_uneven.2]; decide)
      (attempt := fun r step i => isingAttempt ((generated 2 plane 7).shape r.1) hot (draws r step i)) (fun _ _ _ => trivial) hs D,
    fun draws => uneven_hangs (w := generated 3 box 3) (by decide) (a := ⟨0, ⟨by decide, by decide⟩⟩) (b := ⟨2, ⟨by decide, by decide⟩⟩) (by rw [box_uneven.1, box_uneven.2]; decide)
      (attempt := fun r step i => isingAttempt ((generated 3 box 3).shape r.1) hot (draws r step i)) (fun _ _ _ => trivial) hs D⟩

/-- **C101.** So does the Potts model, -/
theorem potts_hangs (c : Nat → Cell Int) (hot : ℚ → Nat → Bool) {steps : Nat} (hs : 0 < steps) (D : Int → Grids Int) :
    (∀ draws : Rank 7 → Nat → Nat → Nat × Nat × Nat, Hangs c plane_ok (fun r => pottsRank ((generated 2 plane 7).shape r.1) hot (draws r) steps) D) ∧
      ∀ draws : Rank 3 → Nat → Nat → Nat × Nat × Nat, Hangs c box_ok (fun r => pottsRank ((generated 3 box 3).shape r.1) hot (draws r) steps) D :=
  ⟨fun draws => uneven_hangs (w := generated 2 plane 7) (by decide) (a := ⟨0, ⟨by decide, by decide⟩⟩) (b := ⟨6, ⟨by decide, by decide⟩⟩) (by rw [plane_uneven.1, plane_uneven.2]; decide)
      (attempt := fun r step i => pottsAttempt ((generated 2 plane 7).shape r.1) hot (draws r step i)) (fun _ _ _ => trivial) hs D,
    fun draws => uneven_hangs (w := generated 3 box 3) (by decide) (a := ⟨0, ⟨by decide, by decide⟩⟩) (b := ⟨2, ⟨by decide, by decide⟩⟩) (by rw [box_uneven.1, box_uneven.2]; decide)
      (attempt := fun r step i => pottsAttempt ((generated 3 box 3).shape r.1) hot (draws r step i)) (fun _ _ _ => trivial) hs D⟩

/-- **C101.** and the Heisenberg model. -/
theorem heisenberg_hangs {α : Type} [Field α] [LinearOrder α] (c : Nat → Cell (Dir α)) (dir : Nat → Nat → Dir α) (hot : α → Nat → Bool) {steps : Nat} (hs : 0 < steps) (D : Int → Grids (Dir α)) :
    (∀ draws : Rank 7 → Nat → Nat → Nat × Nat × Nat × Nat, Hangs c plane_ok (fun r => heisenbergRank ((generated 2 plane 7).shape r.1) dir hot (draws r) steps) D) ∧
      ∀ draws : Rank 3 → Nat → Nat → Nat × Nat × Nat × Nat, Hangs c smallBox_ok (fun r => heisenbergRank ((generated 3 smallBox 3).shape r.1) dir hot (draws r) steps) D :=
  ⟨fun draws => uneven_hangs (w := generated 2 plane 7) (by decide) (a := ⟨0, ⟨by decide, by decide⟩⟩) (b := ⟨6, ⟨by decide, by decide⟩⟩) (by rw [plane_uneven.1, plane_uneven.2]; decide)
      (attempt := fun r step i => heisenbergAttempt ((generated 2 plane 7).shape r.1) dir hot (draws r step i)) (fun _ _ _ => trivial) hs D,
    fun draws => uneven_hangs (w := generated 3 smallBox 3) (by decide) (a := ⟨0, ⟨by decide, by decide⟩⟩) (b := ⟨2, ⟨by decide, by decide⟩⟩) smallBox_uneven
      (attempt := fun r step i => heisenbergAttempt ((generated 3 smallBox 3).shape r.1) dir hot (draws r step i)) (fun _ _ _ => trivial) hs D⟩

/-! ## Examples -/

-- four ranks have 256 by 128 nodes each
theorem plane4_even : Even (generated 2 plane 4) 4 := by
  have e : ∀ r : Int, IsRank 4 r → ((generated 2 plane 4).shape r).nodes = 32768 := fun r hr => by
    have h0 := hr.1
    have h1 := hr.2
    have hr : r = 0 ∨ r = 1 ∨ r = 2 ∨ r = 3 := by push_cast at h1; omega
    clear h0 h1
    rcases hr with rfl | rfl | rfl | rfl <;> decide +kernel
  exact Or.inr fun a b => by rw [e a.1 a.2, e b.1 b.2]

theorem plane4_ok : (generated 2 plane 4).Ok 4 := generated_ok (by decide) (by decide) (by decide +kernel)
theorem line3_ok : (generated 1 (fun _ => 1024) 3).Ok 3 := generated_ok (by decide) (by decide) (by decide +kernel)

example (c : Nat → Cell Int) (hot : ℚ → Nat → Bool) (draws : Rank 4 → Nat → Nat → Nat × Nat) (D : Int → Grids Int) :
    Returns c plane4_ok (fun r => isingRank ((generated 2 plane 4).shape r.1) hot (draws r) 1000) D :=
  ising_returns_partial plane4_even hot draws 1000 D

-- the line of 1024 nodes on three ranks, which have 342, 341 and 341
example (c : Nat → Cell Int) (hot : ℚ → Nat → Bool) (draws : Rank 3 → Nat → Nat → Nat × Nat × Nat) (D : Int → Grids Int) :
    Returns c line3_ok (fun r => pottsRank ((generated 1 (fun _ => 1024) 3).shape r.1) hot (draws r) 1000) D :=
  potts_returns_partial (Or.inl rfl) hot draws 1000 D

-- 139 calls per step on rank 0, 138 on rank 6
example (hot : ℚ → Nat → Bool) (draws : Nat → Nat → Nat × Nat) : calls (isingRank ((generated 2 plane 7).shape 0) hot draws 10) = 1391 ∧ calls (isingRank ((generated 2 plane 7).shape 6) hot draws 10) = 1381 := by
  have h : ∀ r : Rank 7, calls (isingRank ((generated 2 plane 7).shape r.1) hot draws 10) = 1 + 10 * perSweep ((generated 2 plane 7).shape r.1).nodes.toNat := fun r => by
    exact calls_update (attempt := fun step h => isingAttempt ((generated 2 plane 7).shape r.1) hot (draws step h)) (fun _ _ => trivial) (gss_pos 2 (rank_nodes plane_ok r)) _ 10
  have h0 := h ⟨0, by decide, by decide⟩
  have h6 := h ⟨6, by decide, by decide⟩
  rw [plane_uneven.1] at h0
  rw [plane_uneven.2] at h6
  exact ⟨h0, h6⟩

end MMSP.SpinSchedule
