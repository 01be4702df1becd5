import Verif.EachRun
import Verif.SpinScheduleProps
import Verif.MonteCarloRanksProps
/-!
# Property C102: what the parallel spin models compute

Whatever the speeds of the ranks and of the messages, a parallel run of a spin model that returns ends with the result of lock-step execution; no rank has undefined behaviour, and every spin,
ghosts included, is one of the states of the model.
-/

namespace MMSP.Async

open ParallelRun Ghost SpinSchedule

variable {V : Type} {np : Nat} {w : World} {c : Nat → Cell V}

/-- All calls of `ghostswap` are for grid `a`. -/
def OnlyCalls (a : Nat) (p : List (Stmt V)) : Prop := ∀ b, Stmt.ghostswap b ∈ p → b = a

theorem eagerRun_eq (g : Shape) : ∀ (p : List (Stmt V)) (o : Outcome (Grids V)), eagerRun g p (fresh o) = fresh (runLocal g (untilCall p) o)
  | [], o => rfl
  | .ghostswap _ :: _, o => rfl
  | .loop dst kern :: p, o => by
    rw [eagerRun, untilCall, runLocal, List.foldl_cons, ← runLocal, ← eagerRun_eq g p]
    congr 1
    cases o <;> rfl
  | .swap a b :: p, o => by
    rw [eagerRun, untilCall, runLocal, List.foldl_cons, ← runLocal, ← eagerRun_eq g p]
    congr 1
    cases o <;> rfl

theorem segs_after {a N : Nat} : ∀ {p : List (Stmt V)}, (segs p).length = N + 1 → OnlyCalls a p → segs p = (a, afterCall p) :: segs (afterCall p) ∧ (segs (afterCall p)).length = N ∧
    OnlyCalls a (afterCall p)
  | [], hl, _ => by simp [segs] at hl
  | .ghostswap b :: p, hl, ho => by
    refine ⟨by rw [segs, afterCall, ho b (List.mem_cons_self ..)], by simpa [segs, afterCall] using hl, fun x hx => ho x (List.mem_cons_of_mem _ hx)⟩
  | .loop dst kern :: p, hl, ho => segs_after (p := p) hl fun x hx => ho x (List.mem_cons_of_mem _ hx)
  | .swap _ _ :: p, hl, ho => segs_after (p := p) hl fun x hx => ho x (List.mem_cons_of_mem _ hx)

theorem whole_each (c : Nat → Cell V) (h : w.Ok np) (a : Nat) : ∀ (N : Nat) (p : Int → List (Stmt V)) (S : Int → Outcome (Grids V)), (∀ r : Rank np, (segs (p r.1)).length = N) →
    (∀ r : Rank np, OnlyCalls a (p r.1)) → ∀ r : Rank np,
    Rounds.sync (whole c h N fun r => p r.1) (fun r => eagerRun (w.shape r.1) (p r.1) (fresh (S r.1))) (4 * w.d * N) r = fresh (eachRun c w a N p S r.1)
  | 0, p, S, _, _, r => eagerRun_eq _ _ _
  | N + 1, p, S, hN, ho, r => by
    have hd := h.setup.dim
    have hd' : 0 < 4 * w.d := by have : 0 < w.d := hd; omega
    have hs := fun r : Rank np => segs_after (hN r) (ho r)
    have el : 4 * w.d * (N + 1) = 4 * w.d + 4 * w.d * N := by ring
    have ew : whole c h (N + 1) (fun r => p r.1) = whole c h (N + 1) fun r => .ghostswap a :: afterCall (p r.1) := by
      unfold whole
      congr 1
      · funext k r st; simp only [(hs r).1, segs]
      · funext k r st m; simp only [(hs r).1, segs]
    have es : (fun r : Rank np => eagerRun (w.shape r.1) (p r.1) (fresh (S r.1))) = fun r => fresh ((fun i => runLocal (w.shape i) (untilCall (p i)) (S i)) r.1) := funext fun r => eagerRun_eq _ _ _
    rw [el, ew, es, sync_add, sync_congr (Q := whole c h N fun r => afterCall (p r.1))]
    · have e1 : Rounds.sync (whole c h (N + 1) fun r => .ghostswap a :: afterCall (p r.1)) (fun r => fresh ((fun i => runLocal (w.shape i) (untilCall (p i)) (S i)) r.1)) (4 * w.d) =
          fun r => eagerRun (w.shape r.1) (afterCall (p r.1)) (fresh (mpiStmt c w (.ghostswap a) (fun i => runLocal (w.shape i) (untilCall (p i)) (S i)) r.1)) :=
        funext fun r => first_call c h a (N + 1) (fun r => afterCall (p r.1)) (fun i => runLocal (w.shape i) (untilCall (p i)) (S i)) r
      rw [e1]
      exact whole_each c h a N (fun r => afterCall (p r)) _ (fun r => (hs r).2.1) (fun r => (hs r).2.2) r
    · intro i _
      simp only [shift, whole, Nat.add_mod_left, Nat.add_div_left _ hd', segs, List.getElem?_cons_succ, and_self]

/-- **C102, one result.** If all ranks get to the end of their programs, they have called `ghostswap` equally often, hold what lock-step execution gives, and no message is left. -/
theorem each_result {h : w.Ok np} {a : Nat} {p : Int → List (Stmt V)} (ho : ∀ r : Rank np, OnlyCalls a (p r.1)) {D : Int → Grids V} {e : Bool} {n : Nat} {X : State V np}
    (hrun : Run c h e n (startEach (fun r => p r.1) D) X) (hX : Done X) : ∃ N, (∀ r : Rank np, calls (p r.1) = N) ∧
      (∀ r, (X.loc r).mem = (eachRun c w a N p (fun r => .ok (D r)) r.1).bind fun σ => .ok ⟨σ, 0⟩) ∧ X.net = [] := by
  have hnp : 0 < np := by
    have := h.setup.grid.2
    have h2 : 0 < ∏ j ∈ Finset.range w.d, w.p j := Finset.prod_pos fun j hj => by have := h.setup.grid.1 j (Finset.mem_range.1 hj); omega
    omega
  let r0 : Rank np := ⟨0, le_refl _, by exact_mod_cast hnp⟩
  have hN : ∀ r : Rank np, (segs (p r.1)).length = (segs (p r0.1)).length := fun r => finished_calls (Run.free c h hrun) hX r r0
  obtain ⟨h1, h2⟩ := each_agree (N := (segs (p r0.1)).length) hN hrun hX
  refine ⟨(segs (p r0.1)).length, fun r => by rw [← calls_segs]; exact hN r, fun r => ?_, h2⟩
  rw [h1 r]
  exact whole_each c h a _ p (fun r => .ok (D r)) hN ho r

/-! ## Invariants -/

/-- All cells of grid 0 satisfy `P`. -/
def Cells (g : Shape) (P : V → Prop) (σ : Grids V) : Prop := ∀ o, 0 ≤ o → o < g.cells → P (σ 0 o)

/-- A statement that never fails and keeps `P`. -/
def Keeps (g : Shape) (P : V → Prop) (s : Stmt V) : Prop := ∀ σ, Cells g P σ → ∃ σ', gridStmt g s σ = .ok σ' ∧ Cells g P σ'

theorem runLocal_keeps {g : Shape} {P : V → Prop} : ∀ {p : List (Stmt V)}, (∀ s ∈ p, Keeps g P s) → ∀ {σ : Grids V}, Cells g P σ → ∃ σ', runLocal g p (.ok σ) = .ok σ' ∧ Cells g P σ'
  | [], _, σ, hσ => ⟨σ, rfl, hσ⟩
  | s :: p, hp, σ, hσ => by
    obtain ⟨σ1, e1, h1⟩ := hp s (List.mem_cons_self ..) σ hσ
    obtain ⟨σ2, e2, h2⟩ := runLocal_keeps (fun t ht => hp t (List.mem_cons_of_mem _ ht)) h1
    exact ⟨σ2, by rw [runLocal, List.foldl_cons, Outcome.ok_bind, e1]; exact e2, h2⟩

theorem ghostswap_keeps (hc : RoundTrips (c 0)) (h : w.Ok np) {P : V → Prop} {S : Int → Outcome (Grids V)} {D : Int → Grids V}
    (hS : ∀ r, IsRank np r → S r = .ok (D r)) (hv : ∀ r, IsRank np r → Cells (w.shape r) (c 0).Valid (D r))
    (hn : ∀ r, IsRank np r → ∀ x, (w.shape r).IsNode x → P (cellAt (w.shape r) (D r 0) x)) :
    ∃ D' : Int → Grids V, (∀ r, IsRank np r → mpiStmt c w (.ghostswap 0) S r = .ok (D' r)) ∧ ∀ r, IsRank np r → Cells (w.shape r) P (D' r) := by
  obtain ⟨E, hR, hG⟩ := ghostswap_correct (c := c 0) (su := w.toSetup) hc h.setup (S := fun r => (S r).bind fun σ => .ok ⟨σ 0, 0⟩) (D0 := fun r => D r 0)
    (fun r hr => ⟨0, by show (S r).bind _ = _; rw [hS r hr]; rfl⟩) (fun r hr o h0 h1 => hv r hr o h0 h1)
  refine ⟨fun r => Function.update (D r) 0 (E r), fun r hr => ?_, fun r hr o h0 h1 => ?_⟩
  · obtain ⟨n, e⟩ := hR r hr
    show (S r).bind _ = _
    rw [hS r hr, Outcome.ok_bind, e, Outcome.ok_bind]
  · show P (Function.update (D r) 0 (E r) 0 o)
    rw [Function.update_self]
    obtain ⟨x, hx, ex⟩ := Shape.rawOffset_surj (shape_wf h hr) h0 h1
    obtain ⟨s, hs, y, hy, hw⟩ := owner_exists h.setup x
    have := hG r hr x hx s hs y hy hw
    have e2 : E r o = cellAt (w.shape r) (E r) x := by unfold cellAt; rw [ex]
    rw [e2]
    exact this ▸ hn s hs y hy

theorem eachRun_keeps (hc : RoundTrips (c 0)) (h : w.Ok np) {P : V → Prop} (hP : ∀ v, P v → (c 0).Valid v) : ∀ (N : Nat) {p : Int → List (Stmt V)},
    (∀ r, IsRank np r → ∀ s ∈ p r, IsLocal s → Keeps (w.shape r) P s) → ∀ {S : Int → Outcome (Grids V)} {D : Int → Grids V}, (∀ r, IsRank np r → S r = .ok (D r)) →
    (∀ r, IsRank np r → Cells (w.shape r) P (D r)) → ∀ r, IsRank np r → ∃ σ, eachRun c w 0 N p S r = .ok σ ∧ Cells (w.shape r) P σ := by
  have hun : ∀ {p : List (Stmt V)} {s : Stmt V}, s ∈ untilCall p → s ∈ p ∧ IsLocal s := fun {p s} => by
    induction p with
    | nil => intro hs; cases hs
    | cons t p ih =>
      cases t with
      | ghostswap b => intro hs; cases hs
      | loop dst kern =>
        intro hs
        rcases List.mem_cons.1 hs with rfl | hs
        · exact ⟨List.mem_cons_self .., trivial⟩
        · exact ⟨List.mem_cons_of_mem _ (ih hs).1, (ih hs).2⟩
      | swap a b =>
        intro hs
        rcases List.mem_cons.1 hs with rfl | hs
        · exact ⟨List.mem_cons_self .., trivial⟩
        · exact ⟨List.mem_cons_of_mem _ (ih hs).1, (ih hs).2⟩
  have haf : ∀ {p : List (Stmt V)} {s : Stmt V}, s ∈ afterCall p → s ∈ p := fun {p s} => by
    induction p with
    | nil => intro hs; cases hs
    | cons t p ih =>
      cases t with
      | ghostswap b => exact fun hs => List.mem_cons_of_mem _ hs
      | loop dst kern => exact fun hs => List.mem_cons_of_mem _ (ih hs)
      | swap a b => exact fun hs => List.mem_cons_of_mem _ (ih hs)
  have hloc : ∀ {p : Int → List (Stmt V)}, (∀ r, IsRank np r → ∀ s ∈ p r, IsLocal s → Keeps (w.shape r) P s) → ∀ {S : Int → Outcome (Grids V)} {D : Int → Grids V},
      (∀ r, IsRank np r → S r = .ok (D r)) → (∀ r, IsRank np r → Cells (w.shape r) P (D r)) → ∀ r, IsRank np r →
      ∃ σ, runLocal (w.shape r) (untilCall (p r)) (S r) = .ok σ ∧ Cells (w.shape r) P σ := fun {p} hp {S D} hS hD r hr => by
    rw [hS r hr]
    exact runLocal_keeps (fun s hs => hp r hr s (hun hs).1 (hun hs).2) (hD r hr)
  intro N
  induction N with
  | zero => intro p hp S D hS hD r hr; exact hloc hp hS hD r hr
  | succ N ih =>
    intro p hp S D hS hD r hr
    have hex : ∀ r, ∃ σ, IsRank np r → runLocal (w.shape r) (untilCall (p r)) (S r) = .ok σ ∧ Cells (w.shape r) P σ := fun r => by
      by_cases hr : IsRank np r
      · obtain ⟨σ, h1⟩ := hloc hp hS hD r hr
        exact ⟨σ, fun _ => h1⟩
      · exact ⟨D r, fun hh => absurd hh hr⟩
    choose D1 hD1 using hex
    obtain ⟨D2, e2, h2⟩ := ghostswap_keeps (P := P) hc h (fun r hr => (hD1 r hr).1) (fun r hr o h0 h1 => hP _ ((hD1 r hr).2 o h0 h1)) (fun r hr x hx => by
      have hb := Shape.rawOffset_bounds (shape_wf h hr) (isCell_of_isNode (shape_wf h hr).ghosts hx)
      exact (hD1 r hr).2 _ hb.1 hb.2)
    exact ih (fun r hr s hs => hp r hr s (haf hs)) e2 h2 r hr

end MMSP.Async

namespace MMSP.SpinSchedule

open ParallelRun Ghost Async Stencil Spin

variable {V : Type} {np : Nat} {w : World}

/-! ## Attempts -/

theorem assign_keeps {g : Shape} (hg : g.Wf) {P : V → Prop} {m : Nat} (hm : m < g.nodes.toNat) {f : ((Nat → Int) → Outcome V) → Outcome V}
    (hf : ∀ d : Int → V, (∀ o, 0 ≤ o → o < g.cells → P (d o)) → ∃ v, f (gridAt .mpi g d) = .ok v ∧ P v) : Keeps g P (assign g.dim (g.position m) f) := by
  intro σ hσ
  obtain ⟨v, ev, hv⟩ := hf (σ 0) hσ
  have h1 := assign_run (k := 0) hg hm f σ
  rw [ev, Outcome.ok_bind] at h1
  have h2 : localStmt g (assign g.dim (g.position m) f) ⟨σ, 0⟩ = (gridStmt g (assign g.dim (g.position m) f) σ).bind fun σ' => .ok ⟨σ', 0⟩ := rfl
  rw [h2] at h1
  cases e : gridStmt g (assign g.dim (g.position m) f) σ with
  | ok σ' =>
    rw [e, Outcome.ok_bind] at h1
    have h3 : σ' = Function.update σ 0 (Function.update (σ 0) (g.atNode .mpi m) v) := by simpa using h1
    refine ⟨σ', rfl, fun o h0 h4 => ?_⟩
    rw [h3, Function.update_self]
    by_cases eo : o = g.atNode .mpi m
    · rw [eo, Function.update_self]; exact hv
    · rw [Function.update_of_ne eo]; exact hσ o h0 h4
  | ub => rw [e] at h1; cases h1
  | abort z => rw [e] at h1; cases h1

/-- The states of an Ising spin. -/
def UpDown (v : Int) : Prop := v = 1 ∨ v = -1

/-- The states of a Potts spin, `Q = 20`. -/
def OneOf20 (v : Int) : Prop := 0 ≤ v ∧ v < 20

theorem ising_keeps {g : Shape} (hg : g.Wf) (hr : BoxReach .mpi g) (hn : 0 < g.nodes.toNat) (hot : ℚ → Nat → Bool) (r : Nat × Nat) : Keeps g UpDown (isingAttempt g hot r) := by
  have hm := Nat.mod_lt r.1 hn
  unfold isingAttempt
  refine assign_keeps hg hm fun d hd => ?_
  obtain ⟨s, hs⟩ := energySum_total hr d (axes := List.range g.dim) List.nodup_range hm (d (g.atNode .mpi (r.1 % g.nodes.toNat : Nat))) (-d (g.atNode .mpi (r.1 % g.nodes.toNat : Nat)))
  have hc := node_cell hg hm
  have h1 := hd _ hc.1 hc.2
  rw [read_node hg hm, Outcome.ok_bind]
  unfold energySum at hs
  unfold nearSum
  rw [hs, Outcome.ok_bind]
  refine ⟨_, rfl, ?_⟩
  unfold UpDown at h1 ⊢
  split_ifs <;> omega

theorem potts_keeps {g : Shape} (hg : g.Wf) (hr : BoxReach .mpi g) (hn : 0 < g.nodes.toNat) (hot : ℚ → Nat → Bool) (r : Nat × Nat × Nat) : Keeps g OneOf20 (pottsAttempt g hot r) := by
  have hm := Nat.mod_lt r.1 hn
  unfold pottsAttempt
  refine assign_keeps hg hm fun d hd => ?_
  have hc := node_cell hg hm
  have h1 := hd _ hc.1 hc.2
  have hs : ∀ axes : List Nat, axes.Nodup → ∃ s, nearSum (gridAt .mpi g d) axes (g.position (r.1 % g.nodes.toNat : Nat)) (d (g.atNode .mpi (r.1 % g.nodes.toNat : Nat))) (r.2.1 % 20 : Nat) = .ok s :=
    fun axes ha => energySum_total hr d ha hm _ _
  rw [read_node hg hm, Outcome.ok_bind]
  have hs' : ∃ s, (if g.dim = 2 then nearSum (gridAt .mpi g d) [0] (g.position (r.1 % g.nodes.toNat : Nat)) (d (g.atNode .mpi (r.1 % g.nodes.toNat : Nat))) (r.2.1 % 20 : Nat)
      else if g.dim = 2 then nearSum (gridAt .mpi g d) [0, 1] (g.position (r.1 % g.nodes.toNat : Nat)) (d (g.atNode .mpi (r.1 % g.nodes.toNat : Nat))) (r.2.1 % 20 : Nat)
      else if g.dim = 3 then nearSum (gridAt .mpi g d) [0, 1, 2] (g.position (r.1 % g.nodes.toNat : Nat)) (d (g.atNode .mpi (r.1 % g.nodes.toNat : Nat))) (r.2.1 % 20 : Nat) else .ok (-1)) = Outcome.ok s := by
    split_ifs
    · exact hs _ (by decide)
    · exact hs _ (by decide)
    · exact ⟨_, rfl⟩
  obtain ⟨s, hs'⟩ := hs'
  rw [hs', Outcome.ok_bind]
  refine ⟨_, rfl, ?_⟩
  have h2 : OneOf20 ((r.2.1 % 20 : Nat) : Int) := by unfold OneOf20; omega
  split_ifs
  · exact h2
  · exact h2
  · exact h1

section
variable {α : Type} [Field α] [LinearOrder α]

omit [LinearOrder α] in
theorem turnSum_total {bd : Build} {g : Shape} (hr : BoxReach bd g) (d : Int → Dir α) {axes : List Nat} (hn : axes.Nodup) {m : Nat} (hm : m < g.nodes.toNat) (a b : Dir α) :
    ∃ s, turnSum bd g d axes (g.position m) a b = .ok s := by
  unfold turnSum
  rw [boxFold_eq _ hn]
  have h : ∀ o ∈ offsets axes, gridAt bd g d (Spin.shift (g.position m) o) = .ok (view bd g d (Spin.shift (g.position m) o)) :=
    fun o ho => gridAt_ok (hr m hm o ((mem_offsets hn).1 ho).1) d
  have := fold_sum (offsets axes) (fun o => (gridAt bd g d (Spin.shift (g.position m) o)).bind fun s => Outcome.ok (turn a b s))
    (fun o => turn a b (view bd g d (Spin.shift (g.position m) o))) (fun o ho => by rw [h o ho]; rfl) (-1)
  refine ⟨_, Eq.trans ?_ this⟩
  congr 1
  funext c o
  by_cases hh : Touches bd g (Spin.shift (g.position m) o)
  · rw [gridAt_ok hh]; rfl
  · rw [gridAt_ub hh]; rfl

theorem heisenberg_keeps {g : Shape} (hg : g.Wf) (hr : BoxReach .mpi g) (hn : 0 < g.nodes.toNat) {dir : Nat → Nat → Dir α} {P : Dir α → Prop} (hdir : ∀ a b, P (dir a b)) (hot : α → Nat → Bool)
    (r : Nat × Nat × Nat × Nat) : Keeps g P (heisenbergAttempt g dir hot r) := by
  have hm := Nat.mod_lt r.1 hn
  unfold heisenbergAttempt
  refine assign_keeps hg hm fun d hd => ?_
  have hc := node_cell hg hm
  have h1 := hd _ hc.1 hc.2
  obtain ⟨s, hs⟩ := turnSum_total hr d (axes := List.range g.dim) List.nodup_range hm (d (g.atNode .mpi (r.1 % g.nodes.toNat : Nat))) (dir r.2.1 r.2.2.1)
  rw [read_node hg hm, Outcome.ok_bind]
  unfold turnSum at hs
  rw [hs, Outcome.ok_bind]
  refine ⟨_, rfl, ?_⟩
  split_ifs
  · exact hdir _ _
  · exact hdir _ _
  · exact h1

end

/-! ## The programs -/

/-- Whenever all ranks are done, no message is left, no rank has failed, and all spins, ghosts included, satisfy `P`. -/
def EndsWith (c : Nat → Cell V) (h : w.Ok np) (p : Rank np → List (Stmt V)) (D : Int → Grids V) (P : V → Prop) : Prop :=
  ∀ e n X, Run c h e n (startEach p D) X → Done X →
    X.net = [] ∧ ∀ r, ∃ τ, (X.loc r).mem = .ok ⟨τ, 0⟩ ∧ ∀ o, 0 ≤ o → o < (w.shape r.1).cells → P (τ 0 o)

theorem reach {h : w.Ok np} (hgh : 1 ≤ w.ghosts) (r : Rank np) : BoxReach .mpi (w.shape r.1) :=
  boxReach_mpi (shape_wf h r.2) hgh fun j hj hm => h.mirror j hj (by
    have h1 : (w.shape r.1).b0 j = .mirror → w.B0 j = .mirror := fun e => by
      have : (if (w.shape r.1).x0 j ≠ w.g0 j then .parallel else w.B0 j) = BC.mirror := e
      split_ifs at this; exact this
    have h2 : (w.shape r.1).b1 j = .mirror → w.B1 j = .mirror := fun e => by
      have : (if (w.shape r.1).x1 j ≠ w.g1 j then .parallel else w.B1 j) = BC.mirror := e
      split_ifs at this; exact this
    exact hm.imp h1 h2) r.1 r.2

theorem update_calls_zero {attempt : Nat → Nat → Stmt V} (ha : ∀ s i, IsLocal (attempt s i)) (n g steps : Nat) : OnlyCalls 0 (update attempt n g steps) := by
  intro b hb
  unfold update at hb
  rcases List.mem_cons.1 hb with e | hb
  · cases e; rfl
  · obtain ⟨step, -, hb⟩ := List.mem_flatMap.1 hb
    obtain ⟨i, -, hb⟩ := List.mem_flatMap.1 hb
    rcases List.mem_cons.1 hb with e | hb
    · have := ha step i
      rw [← e] at this
      exact this.elim
    · split_ifs at hb
      · rw [List.mem_singleton] at hb; cases hb; rfl
      · cases hb

theorem update_ends {c : Nat → Cell V} (hc : RoundTrips (c 0)) (h : w.Ok np) {P : V → Prop} (hP : ∀ v, P v → (c 0).Valid v) {attempt : Int → Nat → Nat → Stmt V}
    (ha : ∀ r s i, IsLocal (attempt r s i)) (hk : ∀ r, IsRank np r → ∀ s i, Keeps (w.shape r) P (attempt r s i)) (g : Int → Nat) (steps : Nat) {D : Int → Grids V}
    (hv : ∀ r, IsRank np r → ∀ o, 0 ≤ o → o < (w.shape r).cells → (c 0).Valid (D r 0 o)) (hn : ∀ r, IsRank np r → ∀ x, (w.shape r).IsNode x → P (cellAt (w.shape r) (D r 0) x)) :
    EndsWith c h (fun r => update (attempt r.1) (w.shape r.1).nodes.toNat (g r.1) steps) D P := by
  intro e n X hrun hX
  let p : Int → List (Stmt V) := fun r => update (attempt r) (w.shape r).nodes.toNat (g r) steps
  obtain ⟨N, hN, hm, hnet⟩ := each_result (p := p) (fun r => update_calls_zero (ha r.1) _ _ _) hrun hX
  refine ⟨hnet, fun r => ?_⟩
  obtain ⟨D1, e1, h1⟩ := ghostswap_keeps (P := P) hc h (S := fun r => .ok (D r)) (D := D) (fun _ _ => rfl) hv hn
  have hN' := hN r
  obtain ⟨M, rfl⟩ : ∃ M, N = M + 1 := ⟨N - 1, by
    have : calls (p r.1) ≠ 0 := by rw [← calls_segs]; simp [p, update, segs]
    omega⟩
  obtain ⟨σ, e2, h2⟩ := eachRun_keeps hc h hP M (p := fun r => afterCall (p r)) (fun r hr s hs hl => by
    have hs : s ∈ (List.range steps).flatMap fun step => sweep (attempt r step) (w.shape r).nodes.toNat (g r) := hs
    obtain ⟨step, -, hs⟩ := List.mem_flatMap.1 hs
    obtain ⟨i, -, hs⟩ := List.mem_flatMap.1 hs
    rcases List.mem_cons.1 hs with rfl | hs
    · exact hk r hr step i
    · split_ifs at hs
      · rw [List.mem_singleton] at hs; subst hs; exact hl.elim
      · cases hs) e1 h1 r.1 r.2
  refine ⟨σ, ?_, h2⟩
  rw [hm r]
  have e3 : eachRun c w 0 (M + 1) p (fun r => .ok (D r)) r.1 = eachRun c w 0 M (fun r => afterCall (p r)) (mpiStmt c w (.ghostswap 0) fun r => .ok (D r)) r.1 := rfl
  rw [e3, e2]; rfl

/-- **C102, Ising.** If all nodes are up or down at the start, then whatever the ranks draw and whatever the schedule, a run that returns has defined behaviour and leaves all spins up or down. -/
theorem ising_ends {c : Nat → Cell Int} (hc : RoundTrips (c 0)) (hP : ∀ v, UpDown v → (c 0).Valid v) (h : w.Ok np) (hgh : 1 ≤ w.ghosts) (hot : ℚ → Nat → Bool) (draws : Int → Nat → Nat → Nat × Nat)
    (steps : Nat) {D : Int → Grids Int} (hv : ∀ r, IsRank np r → ∀ o, 0 ≤ o → o < (w.shape r).cells → (c 0).Valid (D r 0 o))
    (hn : ∀ r, IsRank np r → ∀ x, (w.shape r).IsNode x → UpDown (cellAt (w.shape r) (D r 0) x)) : EndsWith c h (fun r => isingRank (w.shape r.1) hot (draws r.1) steps) D UpDown :=
  update_ends hc h hP (attempt := fun r step i => isingAttempt (w.shape r) hot (draws r step i)) (fun _ _ _ => trivial)
    (fun r hr _ _ => ising_keeps (shape_wf h hr) (reach (h := h) hgh ⟨r, hr⟩) (rank_nodes h ⟨r, hr⟩) hot _) (fun r => gss w.d (w.shape r).nodes.toNat) steps hv hn

/-- **C102, Potts.** The same with the twenty states of the Potts model, -/
theorem potts_ends {c : Nat → Cell Int} (hc : RoundTrips (c 0)) (hP : ∀ v, OneOf20 v → (c 0).Valid v) (h : w.Ok np) (hgh : 1 ≤ w.ghosts) (hot : ℚ → Nat → Bool)
    (draws : Int → Nat → Nat → Nat × Nat × Nat) (steps : Nat) {D : Int → Grids Int} (hv : ∀ r, IsRank np r → ∀ o, 0 ≤ o → o < (w.shape r).cells → (c 0).Valid (D r 0 o))
    (hn : ∀ r, IsRank np r → ∀ x, (w.shape r).IsNode x → OneOf20 (cellAt (w.shape r) (D r 0) x)) : EndsWith c h (fun r => pottsRank (w.shape r.1) hot (draws r.1) steps) D OneOf20 :=
  update_ends hc h hP (attempt := fun r step i => pottsAttempt (w.shape r) hot (draws r step i)) (fun _ _ _ => trivial)
    (fun r hr _ _ => potts_keeps (shape_wf h hr) (reach (h := h) hgh ⟨r, hr⟩) (rank_nodes h ⟨r, hr⟩) hot _) (fun r => gss w.d (w.shape r).nodes.toNat) steps hv hn

/-- **C102, Heisenberg.** and with the unit vectors of the Heisenberg model, if all directions drawn are unit vectors. -/
theorem heisenberg_ends {α : Type} [Field α] [LinearOrder α] {c : Nat → Cell (Dir α)} (hc : RoundTrips (c 0)) (hP : ∀ v : Dir α, dot v v = 1 → (c 0).Valid v) (h : w.Ok np) (hgh : 1 ≤ w.ghosts)
    {dir : Nat → Nat → Dir α} (hdir : ∀ a b, dot (dir a b) (dir a b) = 1) (hot : α → Nat → Bool) (draws : Int → Nat → Nat → Nat × Nat × Nat × Nat) (steps : Nat) {D : Int → Grids (Dir α)}
    (hv : ∀ r, IsRank np r → ∀ o, 0 ≤ o → o < (w.shape r).cells → (c 0).Valid (D r 0 o))
    (hn : ∀ r, IsRank np r → ∀ x, (w.shape r).IsNode x → dot (cellAt (w.shape r) (D r 0) x) (cellAt (w.shape r) (D r 0) x) = 1) :
    EndsWith c h (fun r => heisenbergRank (w.shape r.1) dir hot (draws r.1) steps) D fun v => dot v v = 1 :=
  update_ends hc h hP (attempt := fun r step i => heisenbergAttempt (w.shape r) dir hot (draws r step i)) (fun _ _ _ => trivial)
    (fun r hr _ _ => heisenberg_keeps (P := fun v => dot v v = 1) (shape_wf h hr) (reach (h := h) hgh ⟨r, hr⟩) (rank_nodes h ⟨r, hr⟩) hdir hot _) (fun r => gss w.d (w.shape r).nodes.toNat) steps hv hn

/-! ## Examples -/

open Classical in
-- the grid of `generate(2)` on four ranks, all spins up, the ghosts not yet set
example (hot : ℚ → Nat → Bool) (draws : Int → Nat → Nat → Nat × Nat) : EndsWith (fun _ => MonteCarlo.intCell) plane4_ok
    (fun r => isingRank ((generated 2 plane 4).shape r.1) hot (draws r.1) 1000) (fun r _ o => if ∃ x, ((generated 2 plane 4).shape r).IsNode x ∧ ((generated 2 plane 4).shape r).rawOffset x = o then 1 else 77) UpDown := by
  refine ising_ends MonteCarlo.intCell_roundTrips (fun v hv => ?_) plane4_ok (by decide) hot draws 1000 (fun r hr o h0 h1 => ?_) fun r hr x hx => Or.inl ?_
  · show -2 ^ 31 ≤ v ∧ v < 2 ^ 31
    rcases hv with rfl | rfl <;> decide
  · show -2 ^ 31 ≤ (if _ then (1 : Int) else 77) ∧ (if _ then (1 : Int) else 77) < 2 ^ 31
    split_ifs <;> decide
  · exact if_pos ⟨x, hx, rfl⟩

end MMSP.SpinSchedule
