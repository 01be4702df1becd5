import Verif.EachRunProps
import Verif.SpinZener
/-!
# Monte Carlo Zener pinning on several ranks (C126)

`update` of `examples/coarsening/zener_pinning/isotropic/Monte_Carlo/zener.cpp` 89-205 and `anisotropic/Monte_Carlo/zener.cpp` 89-208 in the parallel build, with the calls of `ghostswap`
(`zenerRank` of `Verif/SpinSchedule.lean`), under every schedule of the ranks and messages.
-/

namespace MMSP.ZenerRanks

open ParallelRun Ghost Async Stencil Spin SpinZener SpinSchedule Sparse

/-! ## The program -/

section
variable {α : Type} [Field α] [LinearOrder α]

/-- The spins near a site, `isotropic/Monte_Carlo/zener.cpp` 114-147, as in `SpinZener.near`, from the accesses. -/
def nearSet (A : (Nat → Int) → Outcome Int) (axes : List Nat) (x : Nat → Int) : Outcome (Sparse.Cell Int) :=
  boxFold (fun s y => (A y).bind fun spin => .ok (Sparse.update s spin fun _ => 1)) axes x []

/-- `dE`, `isotropic/Monte_Carlo/zener.cpp` 155-189, `anisotropic/Monte_Carlo/zener.cpp` 156-190, as in `SpinZener.energyChange`, from the accesses. -/
def nearChange (A : (Nat → Int) → Outcome Int) (energy : Int → Int → α) (axes : List Nat) (x : Nat → Int) (spin1 spin2 : Int) : Outcome α :=
  boxFold (fun a y => (A y).bind fun spin => .ok (a + (energy spin spin2 - energy spin spin1))) axes x (-energy spin1 spin2)

/-- One attempt with the three numbers drawn, `isotropic/Monte_Carlo/zener.cpp` 107-198, `anisotropic/Monte_Carlo/zener.cpp` 108-203. -/
def zenerAttempt (g : Shape) (energy : Int → Int → α) (cold : Int → Int → Nat → Bool) (hot : α → Int → Int → Nat → Bool) (r : Nat × Nat × Nat) : Stmt Int :=
  let x := g.position (r.1 % g.nodes.toNat : Nat)
  assign g.dim x fun A =>
    (A x).bind fun spin1 =>
    if spin1 ≠ 0 then
      (nearSet A (List.range g.dim) x).bind fun neighbors =>
      match neighbors[r.2.1 % neighbors.length]? with
      | none => .ub
      | some e =>
        if spin1 ≠ e.1 ∧ e.1 ≠ 0 then
          (nearChange A energy (List.range g.dim) x spin1 e.1).bind fun dE =>
          .ok (if dE ≤ 0 then (if cold spin1 e.1 r.2.2 then e.1 else spin1) else if hot dE spin1 e.1 r.2.2 then e.1 else spin1)
        else .ok spin1
    else .ok spin1

/-- `update` on one rank. -/
def zenerProgram (g : Shape) (energy : Int → Int → α) (cold : Int → Int → Nat → Bool) (hot : α → Int → Int → Nat → Bool) (draws : Nat → Nat → Nat × Nat × Nat) (steps : Nat) :
    List (Stmt Int) := zenerRank g (fun step h => zenerAttempt g energy cold hot (draws step h)) steps

/-- **C126.** The attempt is that of `Verif/SpinZener.lean`. -/
theorem zenerAttempt_eq {g : Shape} (hg : g.Wf) (hn : 0 < g.nodes.toNat) (energy : Int → Int → α) (cold : Int → Int → Nat → Bool) (hot : α → Int → Int → Nat → Bool) (r : Nat × Nat × Nat)
    (m : Mem Int) : localStmt g (zenerAttempt g energy cold hot r) m = onGrid (fun d => zenerFlip .mpi g energy cold hot d r) m := by
  have hm := Nat.mod_lt r.1 hn
  obtain ⟨σ, k⟩ := m
  rw [zenerAttempt, assign_run hg hm, onGrid, zenerFlip, if_neg (by omega)]
  dsimp only
  rw [read_node hg hm, deref, if_pos (node_cell hg hm), Outcome.ok_bind, Outcome.ok_bind]
  by_cases h0 : σ 0 (g.atNode .mpi (r.1 % g.nodes.toNat : Nat)) ≠ 0
  · rw [if_pos h0, if_pos h0]
    show ((near .mpi g (σ 0) _ _).bind _).bind _ = ((near .mpi g (σ 0) _ _).bind _).bind _
    cases near .mpi g (σ 0) (List.range g.dim) (g.position (r.1 % g.nodes.toNat : Nat)) with
    | ok s =>
      rw [Outcome.ok_bind, Outcome.ok_bind]
      cases s[r.2.1 % s.length]? with
      | none => rfl
      | some e =>
        dsimp only
        by_cases h1 : σ 0 (g.atNode .mpi (r.1 % g.nodes.toNat : Nat)) ≠ e.1 ∧ e.1 ≠ 0
        · rw [if_pos h1, if_pos h1]
          show ((energyChange .mpi g energy (σ 0) _ _ _ _).bind _).bind _ = ((energyChange .mpi g energy (σ 0) _ _ _ _).bind _).bind _
          cases energyChange .mpi g energy (σ 0) (List.range g.dim) (g.position (r.1 % g.nodes.toNat : Nat)) (σ 0 (g.atNode .mpi (r.1 % g.nodes.toNat : Nat))) e.1 with
          | ok dE =>
            simp only [Outcome.ok_bind, store, if_pos (node_cell hg hm)]
            split_ifs <;> simp only [Outcome.ok_bind, keep]
          | ub => rfl
          | abort z => rfl
        · rw [if_neg h1, if_neg h1, Outcome.ok_bind, Outcome.ok_bind, keep]
    | ub => rfl
    | abort z => rfl
  · rw [if_neg h0, if_neg h0, Outcome.ok_bind, Outcome.ok_bind, keep]

end

/-! ## What the ranks keep -/

section
variable {V : Type} {np : Nat} {w : World} {c : Nat → MMSP.Cell V}

/-- What a local statement does not destroy. -/
def Holds (g : Shape) (J : Grids V → Prop) (s : Stmt V) : Prop := ∀ σ, J σ → ∃ σ', gridStmt g s σ = .ok σ' ∧ J σ'

theorem runLocal_holds {g : Shape} {J : Grids V → Prop} : ∀ {p : List (Stmt V)}, (∀ s ∈ p, Holds g J s) → ∀ {σ : Grids V}, J σ → ∃ σ', runLocal g p (.ok σ) = .ok σ' ∧ J σ'
  | [], _, σ, hσ => ⟨σ, rfl, hσ⟩
  | s :: p, hp, σ, hσ => by
    obtain ⟨σ1, e1, h1⟩ := hp s (List.mem_cons_self ..) σ hσ
    obtain ⟨σ2, e2, h2⟩ := runLocal_holds (fun t ht => hp t (List.mem_cons_of_mem _ ht)) h1
    exact ⟨σ2, by rw [runLocal, List.foldl_cons, Outcome.ok_bind, e1]; exact e2, h2⟩

theorem until_mem {p : List (Stmt V)} {s : Stmt V} : s ∈ untilCall p → s ∈ p ∧ IsLocal s := by
  induction p with
  | nil => intro hs; cases hs
  | cons t p ih =>
    cases t with
    | ghostswap b => intro hs; cases hs
    | loop dst kern =>
      intro hs
      rcases List.mem_cons.1 hs with rfl | hs
      · exact ⟨List.mem_cons_self .., trivial⟩
      · exact ⟨List.mem_cons_of_mem _ (ih hs).1, (ih hs).2⟩
    | swap a b =>
      intro hs
      rcases List.mem_cons.1 hs with rfl | hs
      · exact ⟨List.mem_cons_self .., trivial⟩
      · exact ⟨List.mem_cons_of_mem _ (ih hs).1, (ih hs).2⟩

theorem after_mem {p : List (Stmt V)} {s : Stmt V} : s ∈ afterCall p → s ∈ p := by
  induction p with
  | nil => intro hs; cases hs
  | cons t p ih =>
    cases t with
    | ghostswap b => exact fun hs => List.mem_cons_of_mem _ hs
    | loop dst kern => exact fun hs => List.mem_cons_of_mem _ (ih hs)
    | swap a b => exact fun hs => List.mem_cons_of_mem _ (ih hs)

/-- Something true of every rank that local statements and exchanges keep is true at the end. -/
theorem eachRun_holds {J : Int → Grids V → Prop}
    (hswap : ∀ {S : Int → Outcome (Grids V)} {D : Int → Grids V}, (∀ r, IsRank np r → S r = .ok (D r)) → (∀ r, IsRank np r → J r (D r)) →
      ∃ D' : Int → Grids V, (∀ r, IsRank np r → mpiStmt c w (.ghostswap 0) S r = .ok (D' r)) ∧ ∀ r, IsRank np r → J r (D' r)) :
    ∀ (N : Nat) {p : Int → List (Stmt V)}, (∀ r, IsRank np r → ∀ s ∈ p r, IsLocal s → Holds (w.shape r) (J r) s) → ∀ {S : Int → Outcome (Grids V)} {D : Int → Grids V},
    (∀ r, IsRank np r → S r = .ok (D r)) → (∀ r, IsRank np r → J r (D r)) → ∀ r, IsRank np r → ∃ σ, eachRun c w 0 N p S r = .ok σ ∧ J r σ := by
  have hloc : ∀ {p : Int → List (Stmt V)}, (∀ r, IsRank np r → ∀ s ∈ p r, IsLocal s → Holds (w.shape r) (J r) s) → ∀ {S : Int → Outcome (Grids V)} {D : Int → Grids V},
      (∀ r, IsRank np r → S r = .ok (D r)) → (∀ r, IsRank np r → J r (D r)) → ∀ r, IsRank np r → ∃ σ, runLocal (w.shape r) (untilCall (p r)) (S r) = .ok σ ∧ J r σ :=
    fun {p} hp {S D} hS hD r hr => by
      rw [hS r hr]
      exact runLocal_holds (fun s hs => hp r hr s (until_mem hs).1 (until_mem hs).2) (hD r hr)
  intro N
  induction N with
  | zero => intro p hp S D hS hD r hr; exact hloc hp hS hD r hr
  | succ N ih =>
    intro p hp S D hS hD r hr
    have hex : ∀ r, ∃ σ, IsRank np r → runLocal (w.shape r) (untilCall (p r)) (S r) = .ok σ ∧ J r σ := fun r => by
      by_cases hr : IsRank np r
      · obtain ⟨σ, h1⟩ := hloc hp hS hD r hr
        exact ⟨σ, fun _ => h1⟩
      · exact ⟨D r, fun hh => absurd hh hr⟩
    choose D1 hD1 using hex
    obtain ⟨D2, e2, h2⟩ := hswap (fun r hr => (hD1 r hr).1) fun r hr => (hD1 r hr).2
    exact ih (fun r hr s hs => hp r hr s (after_mem hs)) e2 h2 r hr

/-- Every cell holds a spin of `P`, and every node is a particle exactly if it was one in `Z`. -/
def Pinned (w : World) (P : Int → Prop) (Z : Int → Int → Int) (r : Int) (σ : Grids Int) : Prop :=
  Cells (w.shape r) P σ ∧ ∀ x, (w.shape r).IsNode x → (cellAt (w.shape r) (σ 0) x = 0 ↔ cellAt (w.shape r) (Z r) x = 0)

/-- An exchange fills the ghosts and leaves the nodes. -/
theorem exchange_pinned {c : Nat → MMSP.Cell Int} (hc : RoundTrips (c 0)) (h : w.Ok np) {P : Int → Prop} {Z : Int → Int → Int} {S : Int → Outcome (Grids Int)} {D : Int → Grids Int}
    (hS : ∀ r, IsRank np r → S r = .ok (D r)) (hv : ∀ r, IsRank np r → Cells (w.shape r) (c 0).Valid (D r))
    (hn : ∀ r, IsRank np r → ∀ x, (w.shape r).IsNode x → P (cellAt (w.shape r) (D r 0) x))
    (hz : ∀ r, IsRank np r → ∀ x, (w.shape r).IsNode x → (cellAt (w.shape r) (D r 0) x = 0 ↔ cellAt (w.shape r) (Z r) x = 0)) :
    ∃ D' : Int → Grids Int, (∀ r, IsRank np r → mpiStmt c w (.ghostswap 0) S r = .ok (D' r)) ∧ ∀ r, IsRank np r → Pinned w P Z r (D' r) := by
  obtain ⟨E, hR, hG⟩ := ghostswap_correct (c := c 0) (su := w.toSetup) hc h.setup (S := fun r => (S r).bind fun σ => .ok ⟨σ 0, 0⟩) (D0 := fun r => D r 0)
    (fun r hr => ⟨0, by show (S r).bind _ = _; rw [hS r hr]; rfl⟩) (fun r hr o h0 h1 => hv r hr o h0 h1)
  refine ⟨fun r => Function.update (D r) 0 (E r), fun r hr => ?_, fun r hr => ⟨fun o h0 h1 => ?_, fun x hx => ?_⟩⟩
  · obtain ⟨n, e⟩ := hR r hr
    show (S r).bind _ = _
    rw [hS r hr, Outcome.ok_bind, e, Outcome.ok_bind]
  · show P (Function.update (D r) 0 (E r) 0 o)
    rw [Function.update_self]
    obtain ⟨x, hx, ex⟩ := Shape.rawOffset_surj (shape_wf h hr) h0 h1
    obtain ⟨s, hs, y, hy, hw⟩ := owner_exists h.setup x
    have := hG r hr x hx s hs y hy hw
    have e2 : E r o = cellAt (w.shape r) (E r) x := by unfold cellAt; rw [ex]
    rw [e2]
    exact this ▸ hn s hs y hy
  · show cellAt (w.shape r) (Function.update (D r) 0 (E r) 0) x = 0 ↔ _
    rw [Function.update_self]
    have e : cellAt (w.shape r) (E r) x = cellAt (w.shape r) (D r 0) x :=
      hG r hr x (isCell_of_isNode (shape_wf h hr).ghosts hx) r hr x hx fun j _ => by rw [sub_self]; exact dvd_zero _
    rw [e]
    exact hz r hr x hx

end

/-! ## Attempts -/

section
variable {α : Type} [Field α] [LinearOrder α]

theorem gridAt_cell {bd : Build} {g : Shape} {d : Int → Int} {x : Nat → Int} {v : Int} (h : gridAt bd g d x = .ok v) : ∃ o, 0 ≤ o ∧ o < g.cells ∧ v = d o := by
  unfold gridAt deref at h
  split_ifs at h with hb
  injection h with h
  exact ⟨_, hb.1, hb.2, h.symm⟩

/-- The list of spins near a site on a rank: it is not empty, and holds spins of cells of that rank. -/
theorem near_rank {g : Shape} (hr : BoxReach .mpi g) (d : Int → Int) {m : Nat} (hm : m < g.nodes.toNat) :
    ∃ s, near .mpi g d (List.range g.dim) (g.position m) = .ok s ∧ 0 < s.length ∧ ∀ k ∈ keys s, ∃ o, 0 ≤ o ∧ o < g.cells ∧ k = d o := by
  unfold near
  rw [boxFold_eq _ List.nodup_range]
  have key : ∀ (l : List (Nat → Int)), (∀ o ∈ l, Near o) → ∀ s : Sparse.Cell Int, (∀ k ∈ keys s, ∃ o, 0 ≤ o ∧ o < g.cells ∧ k = d o) →
      ∃ s', l.foldlM (fun s o => (gridAt .mpi g d (Spin.shift (g.position m) o)).bind fun spin => Outcome.ok (Sparse.update s spin fun _ => 1)) s = .ok s' ∧
        (0 < s.length ∨ l ≠ [] → 0 < s'.length) ∧ ∀ k ∈ keys s', ∃ o, 0 ≤ o ∧ o < g.cells ∧ k = d o := by
    intro l
    induction l with
    | nil => intro _ s hs; exact ⟨s, rfl, fun h => h.elim id fun h => absurd rfl h, hs⟩
    | cons o l ih =>
      intro hl s hs
      have hg := gridAt_ok (hr m hm o (hl o (by simp))) d
      have hk : ∀ k ∈ keys (Sparse.update s (view .mpi g d (Spin.shift (g.position m) o)) fun _ => 1), ∃ o, 0 ≤ o ∧ o < g.cells ∧ k = d o := by
        intro k hk
        rw [keys_update] at hk
        split_ifs at hk with hin
        · exact hs k hk
        · rw [List.mem_append, List.mem_singleton] at hk
          rcases hk with hk | hk
          · exact hs k hk
          · rw [hk]; exact gridAt_cell hg
      have hpos : 0 < (Sparse.update s (view .mpi g d (Spin.shift (g.position m) o)) fun _ => 1).length := by
        have : (keys (Sparse.update s (view .mpi g d (Spin.shift (g.position m) o)) fun _ => 1)).length = (Sparse.update s (view .mpi g d (Spin.shift (g.position m) o)) fun _ => 1).length := by
          rw [keys, List.length_map]
        rw [← this, keys_update]
        split_ifs with hin
        · exact List.length_pos_of_mem hin
        · simp
      obtain ⟨s', e, h1, h2⟩ := ih (fun o' ho' => hl o' (by simp [ho'])) _ hk
      refine ⟨s', ?_, fun _ => h1 (Or.inl hpos), h2⟩
      rw [List.foldlM_cons, hg]; exact e
  obtain ⟨s, e, h1, h2⟩ := key (offsets (List.range g.dim)) (fun o ho => ((mem_offsets List.nodup_range).1 ho).1) [] (by simp [keys])
  refine ⟨s, e, h1 (Or.inr fun h => ?_), h2⟩
  have : (fun _ => 0 : Nat → Int) ∈ offsets (List.range g.dim) := (mem_offsets List.nodup_range).2 ⟨near_zero, fun _ _ => rfl⟩
  rw [h] at this
  cases this

omit [LinearOrder α] in
theorem change_total {g : Shape} (hr : BoxReach .mpi g) (energy : Int → Int → α) (d : Int → Int) {m : Nat} (hm : m < g.nodes.toNat) (a b : Int) :
    ∃ s, energyChange .mpi g energy d (List.range g.dim) (g.position m) a b = .ok s := by
  unfold energyChange
  rw [boxFold_eq _ List.nodup_range]
  have key : ∀ (l : List (Nat → Int)), (∀ o ∈ l, Near o) → ∀ t : α,
      ∃ s, l.foldlM (fun t o => (gridAt .mpi g d (Spin.shift (g.position m) o)).bind fun spin => Outcome.ok (t + (energy spin b - energy spin a))) t = .ok s := by
    intro l
    induction l with
    | nil => exact fun _ t => ⟨t, rfl⟩
    | cons o l ih =>
      intro hl t
      obtain ⟨s, e⟩ := ih (fun o' ho' => hl o' (by simp [ho'])) (t + (energy (view .mpi g d (Spin.shift (g.position m) o)) b - energy (view .mpi g d (Spin.shift (g.position m) o)) a))
      exact ⟨s, by rw [List.foldlM_cons, gridAt_ok (hr m hm o (hl o (by simp))) d]; exact e⟩
  exact key _ (fun o ho => ((mem_offsets List.nodup_range).1 ho).1) _

/-- On a rank, whatever its ghosts hold, an attempt has defined behaviour, keeps particles and grain sites such, and takes its spins from the cells of the rank. -/
theorem flip_rank {g : Shape} (hg : g.Wf) (hr : BoxReach .mpi g) (hn : 0 < g.nodes.toNat) (energy : Int → Int → α) (cold : Int → Int → Nat → Bool) (hot : α → Int → Int → Nat → Bool)
    (d : Int → Int) (r : Nat × Nat × Nat) :
    ∃ d', zenerFlip .mpi g energy cold hot d r = .ok d' ∧ (∀ o, d' o = 0 ↔ d o = 0) ∧ ∀ o, d' o = d o ∨ ∃ q, 0 ≤ q ∧ q < g.cells ∧ d' o = d q := by
  have hm := Nat.mod_lt r.1 hn
  have hc := node_cell hg hm
  have same : (∀ o, d o = 0 ↔ d o = 0) ∧ ∀ o, d o = d o ∨ ∃ q, 0 ≤ q ∧ q < g.cells ∧ d o = d q := ⟨fun _ => Iff.rfl, fun _ => Or.inl rfl⟩
  unfold zenerFlip
  rw [if_neg (by omega)]
  dsimp only
  rw [deref, if_pos hc, Outcome.ok_bind]
  by_cases h0 : d (g.atNode .mpi (r.1 % g.nodes.toNat : Nat)) ≠ 0
  · rw [if_pos h0]
    obtain ⟨s, es, hpos, hk⟩ := near_rank hr d hm
    rw [es, Outcome.ok_bind]
    have hi := Nat.mod_lt r.2.1 hpos
    rw [List.getElem?_eq_getElem hi]
    dsimp only
    have hmem : s[r.2.1 % s.length].1 ∈ keys s := List.mem_map_of_mem (List.getElem_mem hi)
    generalize s[r.2.1 % s.length].1 = v at hmem
    obtain ⟨q, q0, q1, eq⟩ := hk v hmem
    by_cases h1 : d (g.atNode .mpi (r.1 % g.nodes.toNat : Nat)) ≠ v ∧ v ≠ 0
    · rw [if_pos h1]
      obtain ⟨dE, hE⟩ := change_total hr energy d hm (d (g.atNode .mpi (r.1 % g.nodes.toNat : Nat))) v
      rw [hE, Outcome.ok_bind, store, if_pos hc]
      have new : (∀ o, Function.update d (g.atNode .mpi (r.1 % g.nodes.toNat : Nat)) v o = 0 ↔ d o = 0) ∧
          ∀ o, Function.update d (g.atNode .mpi (r.1 % g.nodes.toNat : Nat)) v o = d o ∨ ∃ q, 0 ≤ q ∧ q < g.cells ∧ Function.update d (g.atNode .mpi (r.1 % g.nodes.toNat : Nat)) v o = d q := by
        refine ⟨fun o => ?_, fun o => ?_⟩ <;> by_cases eo : o = g.atNode .mpi (r.1 % g.nodes.toNat : Nat)
        · rw [eo, Function.update_self]; exact ⟨fun e => absurd e h1.2, fun e => absurd e h0⟩
        · rw [Function.update_of_ne eo]
        · rw [eo, Function.update_self]; exact Or.inr ⟨q, q0, q1, eq⟩
        · rw [Function.update_of_ne eo]; exact Or.inl rfl
      split_ifs
      · exact ⟨_, rfl, new⟩
      · exact ⟨_, rfl, same⟩
      · exact ⟨_, rfl, new⟩
      · exact ⟨_, rfl, same⟩
    · rw [if_neg h1]; exact ⟨_, rfl, same⟩
  · rw [if_neg h0]; exact ⟨_, rfl, same⟩

theorem attempt_holds {w : World} {np : Nat} (h : w.Ok np) (hgh : 1 ≤ w.ghosts) (r : Rank np) (energy : Int → Int → α) (cold : Int → Int → Nat → Bool) (hot : α → Int → Int → Nat → Bool)
    (P : Int → Prop) (Z : Int → Int → Int) (t : Nat × Nat × Nat) : Holds (w.shape r.1) (Pinned w P Z r.1) (zenerAttempt (w.shape r.1) energy cold hot t) := by
  intro σ hσ
  have hg := shape_wf h r.2
  have hn := rank_nodes h r
  obtain ⟨d', e, h1, h2⟩ := flip_rank hg (reach (h := h) hgh r) hn energy cold hot (σ 0) t
  have h3 := zenerAttempt_eq hg hn energy cold hot t ⟨σ, 0⟩
  unfold onGrid at h3
  dsimp only at h3
  rw [e, Outcome.ok_bind] at h3
  have h4 : localStmt (w.shape r.1) (zenerAttempt (w.shape r.1) energy cold hot t) ⟨σ, 0⟩ =
      (gridStmt (w.shape r.1) (zenerAttempt (w.shape r.1) energy cold hot t) σ).bind fun σ' => .ok ⟨σ', 0⟩ := rfl
  rw [h4] at h3
  cases e5 : gridStmt (w.shape r.1) (zenerAttempt (w.shape r.1) energy cold hot t) σ with
  | ok σ' =>
    rw [e5, Outcome.ok_bind] at h3
    have e6 : σ' = Function.update σ 0 d' := by simpa using h3
    refine ⟨σ', rfl, fun o o0 o1 => ?_, fun x hx => ?_⟩
    · rw [e6, Function.update_self]
      rcases h2 o with h5 | ⟨q, q0, q1, h5⟩
      · rw [h5]; exact hσ.1 o o0 o1
      · rw [h5]; exact hσ.1 q q0 q1
    · rw [e6, Function.update_self]
      exact (h1 _).trans (hσ.2 x hx)
  | ub => rw [e5] at h3; cases h3
  | abort z => rw [e5] at h3; cases h3

/-! ## The programs -/

variable {np : Nat} {w : World}

/-- **C126.** Both programs return on every number of ranks under every schedule. -/
theorem zener_always_returns {c : Nat → MMSP.Cell Int} {h : w.Ok np} (energy : Int → Int → α) (cold : Int → Int → Nat → Bool) (hot : α → Int → Int → Nat → Bool)
    (draws : Int → Nat → Nat → Nat × Nat × Nat) (steps : Nat) (D : Int → Grids Int) :
    Returns c h (fun r : Rank np => zenerProgram (w.shape r.1) energy cold hot (draws r.1) steps) D :=
  zener_returns (attempt := fun (r : Rank np) step i => zenerAttempt (w.shape r.1) energy cold hot (draws r.1 step i)) (fun _ _ _ => trivial) steps D

/-- **C126.** At the end, under every schedule, no message is left, no rank has failed, every spin, ghosts included, is one that was on the grid before, and the particles are where they were. -/
theorem zener_ends {c : Nat → MMSP.Cell Int} (hc : RoundTrips (c 0)) (h : w.Ok np) (hgh : 1 ≤ w.ghosts) (energy : Int → Int → α) (cold : Int → Int → Nat → Bool)
    (hot : α → Int → Int → Nat → Bool) (draws : Int → Nat → Nat → Nat × Nat × Nat) (steps : Nat) {D : Int → Grids Int}
    (hv : ∀ r, IsRank np r → ∀ o, 0 ≤ o → o < (w.shape r).cells → (c 0).Valid (D r 0 o)) {e : Bool} {n : Nat} {X : State Int np}
    (hrun : Run c h e n (startEach (fun r : Rank np => zenerProgram (w.shape r.1) energy cold hot (draws r.1) steps) D) X) (hX : Done X) :
    X.net = [] ∧ ∀ r : Rank np, ∃ τ, (X.loc r).mem = .ok ⟨τ, 0⟩ ∧
      (∀ o, 0 ≤ o → o < (w.shape r.1).cells → ∃ s, IsRank np s ∧ ∃ y, (w.shape s).IsNode y ∧ τ 0 o = cellAt (w.shape s) (D s 0) y) ∧
      ∀ x, (w.shape r.1).IsNode x → (cellAt (w.shape r.1) (τ 0) x = 0 ↔ cellAt (w.shape r.1) (D r.1 0) x = 0) := by
  let p : Int → List (Stmt Int) := fun r => zenerProgram (w.shape r) energy cold hot (draws r) steps
  let P : Int → Prop := fun v => ∃ s, IsRank np s ∧ ∃ y, (w.shape s).IsNode y ∧ v = cellAt (w.shape s) (D s 0) y
  have hP : ∀ v, P v → (c 0).Valid v := by
    rintro v ⟨s, hs, y, hy, rfl⟩
    have hb := Shape.rawOffset_bounds (shape_wf h hs) (isCell_of_isNode (shape_wf h hs).ghosts hy)
    exact hv s hs _ hb.1 hb.2
  obtain ⟨N, hN, hm, hnet⟩ := each_result (p := p) (fun r => update_calls_zero (attempt := fun step i => zenerAttempt (w.shape r.1) energy cold hot (draws r.1 step i)) (fun _ _ => trivial) _ _ _) hrun hX
  refine ⟨hnet, fun r => ?_⟩
  obtain ⟨D1, e1, h1⟩ := exchange_pinned (P := P) (Z := fun r => D r 0) hc h (S := fun r => .ok (D r)) (D := D) (fun _ _ => rfl) hv
    (fun s hs y hy => ⟨s, hs, y, hy, rfl⟩) fun _ _ _ _ => Iff.rfl
  have hN' := hN r
  obtain ⟨M, rfl⟩ : ∃ M, N = M + 1 := ⟨N - 1, by
    have : calls (p r.1) ≠ 0 := by rw [← calls_segs]; simp [p, zenerProgram, zenerRank, SpinSchedule.update, segs]
    omega⟩
  obtain ⟨σ, e2, h2, h3⟩ := eachRun_holds (c := c) (J := Pinned w P fun r => D r 0)
    (fun {S D'} hS hJ => exchange_pinned hc h hS (fun r hr o h0 h1 => hP _ ((hJ r hr).1 o h0 h1)) (fun r hr x hx => by
      have hb := Shape.rawOffset_bounds (shape_wf h hr) (isCell_of_isNode (shape_wf h hr).ghosts hx)
      exact (hJ r hr).1 _ hb.1 hb.2) fun r hr x hx => (hJ r hr).2 x hx)
    M (p := fun r => afterCall (p r)) (fun r hr s hs hl => by
      have hs : s ∈ (List.range steps).flatMap fun step => sweep (fun i => zenerAttempt (w.shape r) energy cold hot (draws r step i)) (w.shape r).nodes.toNat (zenerGss (w.shape r).nodes.toNat) := hs
      obtain ⟨step, -, hs⟩ := List.mem_flatMap.1 hs
      obtain ⟨i, -, hs⟩ := List.mem_flatMap.1 hs
      rcases List.mem_cons.1 hs with rfl | hs
      · exact attempt_holds h hgh ⟨r, hr⟩ energy cold hot P _ _
      · split_ifs at hs
        · rw [List.mem_singleton] at hs; subst hs; exact hl.elim
        · cases hs) e1 h1 r.1 r.2
  refine ⟨σ, ?_, h2, h3⟩
  rw [hm r]
  have e3 : eachRun c w 0 (M + 1) p (fun r => .ok (D r)) r.1 = eachRun c w 0 M (fun r => afterCall (p r)) (mpiStmt c w (.ghostswap 0) fun r => .ok (D r)) r.1 := rfl
  rw [e3, e2]; rfl

/-- **C126.** A single grain among particles stays bit for bit as it is, on any number of ranks and under every schedule. -/
theorem single_grain_ranks {c : Nat → MMSP.Cell Int} (hc : RoundTrips (c 0)) (h : w.Ok np) (hgh : 1 ≤ w.ghosts) (energy : Int → Int → α) (cold : Int → Int → Nat → Bool)
    (hot : α → Int → Int → Nat → Bool) (draws : Int → Nat → Nat → Nat × Nat × Nat) (steps : Nat) {D : Int → Grids Int}
    (hv : ∀ r, IsRank np r → ∀ o, 0 ≤ o → o < (w.shape r).cells → (c 0).Valid (D r 0 o)) {a : Int}
    (ha : ∀ r, IsRank np r → ∀ x, (w.shape r).IsNode x → cellAt (w.shape r) (D r 0) x = 0 ∨ cellAt (w.shape r) (D r 0) x = a) {e : Bool} {n : Nat} {X : State Int np}
    (hrun : Run c h e n (startEach (fun r : Rank np => zenerProgram (w.shape r.1) energy cold hot (draws r.1) steps) D) X) (hX : Done X) (r : Rank np) :
    ∃ τ, (X.loc r).mem = .ok ⟨τ, 0⟩ ∧ ∀ x, (w.shape r.1).IsNode x → cellAt (w.shape r.1) (τ 0) x = cellAt (w.shape r.1) (D r.1 0) x := by
  obtain ⟨-, hr⟩ := zener_ends hc h hgh energy cold hot draws steps hv hrun hX
  obtain ⟨τ, e1, h1, h2⟩ := hr r
  refine ⟨τ, e1, fun x hx => ?_⟩
  have hb := Shape.rawOffset_bounds (shape_wf h r.2) (isCell_of_isNode (shape_wf h r.2).ghosts hx)
  obtain ⟨s, hs, y, hy, e2⟩ := h1 _ hb.1 hb.2
  have e2 : cellAt (w.shape r.1) (τ 0) x = cellAt (w.shape s) (D s 0) y := e2
  have h3 := h2 x hx
  rcases ha r.1 r.2 x hx with h4 | h4
  · rw [h4]; exact h3.2 h4
  · by_cases ha0 : a = 0
    · rw [h4, ha0]; exact h3.2 (by rw [h4, ha0])
    · rcases ha s hs y hy with h5 | h5
      · exact absurd (h3.1 (e2.trans h5)) (by rw [h4]; exact ha0)
      · rw [e2, h5, h4]

end

/-! ## Instances -/

open Classical in
/-- Particles on every eighth line, elsewhere grain 1; the ghosts are not yet set. -/
noncomputable def lines (r : Int) : Grids Int :=
  fun _ o => if ∃ x, ((generated 2 plane 4).shape r).IsNode x ∧ ((generated 2 plane 4).shape r).rawOffset x = o ∧ x 0 % 8 ≠ 0 then 1 else 0

theorem lines_two (r : Int) (k : Nat) (o : Int) : lines r k o = 0 ∨ lines r k o = 1 := by
  unfold lines
  split_ifs
  · exact Or.inr rfl
  · exact Or.inl rfl

theorem lines_valid (r : Int) (k : Nat) (o : Int) : MonteCarlo.intCell.Valid (lines r k o) := by
  show -2 ^ 31 ≤ lines r k o ∧ lines r k o < 2 ^ 31
  rcases lines_two r k o with h | h <;> rw [h] <;> decide

-- 512×256 nodes on four ranks: every run can be completed, and a completed run leaves the grid as it was
example (draws : Int → Nat → Nat → Nat × Nat × Nat) : Returns (fun _ => MonteCarlo.intCell) plane4_ok (fun r : Rank 4 => zenerProgram ((generated 2 plane 4).shape r.1)
    (fun a b => if a = b then (0 : ℚ) else 1) (fun _ _ _ => true) (fun _ _ _ _ => true) (draws r.1) 1000) lines := zener_always_returns _ _ _ draws 1000 lines

example (draws : Int → Nat → Nat → Nat × Nat × Nat) {e : Bool} {n : Nat} {X : State Int 4}
    (hrun : Run (fun _ => MonteCarlo.intCell) plane4_ok e n (startEach (fun r : Rank 4 => zenerProgram ((generated 2 plane 4).shape r.1) (fun a b => if a = b then (0 : ℚ) else 1)
      (fun _ _ _ => true) (fun _ _ _ _ => true) (draws r.1) 1000) lines) X) (hX : Done X) : X.net = [] :=
  (zener_ends MonteCarlo.intCell_roundTrips plane4_ok (by decide) _ _ _ draws 1000 (fun r _ o _ _ => lines_valid r 0 o) hrun hX).1

example (draws : Int → Nat → Nat → Nat × Nat × Nat) {e : Bool} {n : Nat} {X : State Int 4}
    (hrun : Run (fun _ => MonteCarlo.intCell) plane4_ok e n (startEach (fun r : Rank 4 => zenerProgram ((generated 2 plane 4).shape r.1) (fun a b => if a = b then (0 : ℚ) else 1)
      (fun _ _ _ => true) (fun _ _ _ _ => true) (draws r.1) 1000) lines) X) (hX : Done X) (r : Rank 4) :=
  single_grain_ranks MonteCarlo.intCell_roundTrips plane4_ok (by decide) _ _ _ draws 1000 (D := lines) (fun r _ o _ _ => lines_valid r 0 o) (a := 1) (fun r _ x _ => lines_two r 0 (((generated 2 plane 4).shape r).rawOffset x)) hrun hX r

end MMSP.ZenerRanks
