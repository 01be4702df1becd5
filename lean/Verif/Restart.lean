import Verif.ParallelExamplesLink
/-!
# Runs in several calls

`MMSP.main.hpp` (lines 275-294, 301-320, 327-346) calls `update(grid, increment)` again and again and writes a checkpoint after every call; a run may also be continued from a
checkpoint, by a serial or a parallel program on another number of processes. Between two calls only `oldGrid` survives: `newGrid` and scratch grids are constructed anew in every
call of `update` and hold whatever the memory held (C48); the ghosts of a grid that was read are whatever the constructor left.
-/

namespace MMSP.ParallelRun

open Ghost (IsRank isNode_global)

variable {V : Type}

/-! ## Specification -/

/-- The nodes of a process hold the field `F`. -/
def Holds (g : Shape) (data : Int → V) (F : (Nat → Int) → V) : Prop := ∀ x, g.IsNode x → cellAt g data x = F x

/-- An `update` function whose time loop has the statements `body`: `ghostswap(oldGrid)` and `n` times the body (allen-cahn.cpp 54, 62-73, cahn-hilliard.cpp 54, 62-78 and those cited for
`evolveUpdate`, `ostwaldUpdate`). -/
def updateOf (body : List (Stmt V)) (n : Nat) : List (Stmt V) := .ghostswap 0 :: repeatProg body n

/-- One call of a program on a given global grid: it finds the field `F` in `oldGrid` and leaves `F'` there. The other grids and all ghosts hold any values of their type. The call may be
one of a serial program or of a parallel one, on any decomposition of the grid. -/
inductive Call (w0 : World) (P : Nat → V → Prop) (prog : List (Stmt V)) (F F' : (Nat → Int) → V) : Prop
  | serial (σ σ' : Grids V) (valid : ∀ k o, 0 ≤ o → o < w0.serial.cells → P k (σ k o)) (before : Holds w0.serial (σ 0) F) (run : serialRun w0.serial prog σ = .ok σ')
      (after : Holds w0.serial (σ' 0) F')
  | parallel (w : World) (np : Nat) (c : Nat → Cell V) (D D' : Int → Grids V) (same : w.serial = w0.serial) (ok : w.Ok np) (ghosts : 1 ≤ w.ghosts) (buffers : ∀ k, RoundTrips (c k))
      (fits : ∀ k v, P k v → (c k).Valid v) (valid : ∀ k r, IsRank np r → ∀ o, 0 ≤ o → o < (w.shape r).cells → P k (D r k o)) (before : ∀ r, IsRank np r → Holds (w.shape r) (D r 0) F)
      (run : Finished np (mpiRun c w prog fun r => .ok (D r)) D') (after : ∀ r, IsRank np r → Holds (w.shape r) (D' r 0) F')

/-- Calls of `update` one after the other with the given numbers of steps; `update n` are the statements of a call with `n` steps. -/
def Calls (w0 : World) (P : Nat → V → Prop) (update : Nat → List (Stmt V)) : List Nat → ((Nat → Int) → V) → ((Nat → Int) → V) → Prop
  | [], F, F' => ∀ x, w0.serial.IsNode x → F x = F' x
  | n :: ns, F, F' => ∃ F1, Call w0 P (update n) F F1 ∧ Calls w0 P update ns F1 F'

/-! ## Helper lemmas -/

section
variable {w w0 : World} {np np0 : Nat} {P : Nat → V → Prop}

/-- A valid serial state can be distributed. -/
theorem distribute (h : w.Ok np) (σ : Grids V) (hσ : ∀ k o, 0 ≤ o → o < w.serial.cells → P k (σ k o)) :
    ∃ D : Int → Grids V, SameField w np σ D 0 ∧ AllCells w np P σ D := by
  classical
  have hcell : ∀ x, w.serial.IsNode x → 0 ≤ w.serial.rawOffset x ∧ w.serial.rawOffset x < w.serial.cells := fun x hx =>
    Shape.rawOffset_bounds (serial_wf h) (isCell_of_isNode (le_refl _) hx)
  have h00 := hcell w.serial.x0 fun j hj => ⟨le_refl _, (serial_wf h).side j hj⟩
  let src : Int → Int → Int := fun r o => if hx : ∃ x, (w.shape r).IsNode x ∧ (w.shape r).rawOffset x = o then w.serial.rawOffset hx.choose else w.serial.rawOffset w.serial.x0
  refine ⟨fun r k o => σ k (src r o), ?_, fun k => ⟨hσ k, fun r hr o _ _ => ?_⟩⟩
  · intro r hr x hx
    have hex : ∃ y, (w.shape r).IsNode y ∧ (w.shape r).rawOffset y = (w.shape r).rawOffset x := ⟨x, hx, rfl⟩
    have e : src r ((w.shape r).rawOffset x) = w.serial.rawOffset x := by
      simp only [src]
      rw [dif_pos hex]
      have hp := Shape.rawOffset_inj (isCell_of_isNode (shape_wf h hr).ghosts hex.choose_spec.1) (isCell_of_isNode (shape_wf h hr).ghosts hx) hex.choose_spec.2
      exact rawOffset_congr fun j hj => hp j hj
    show σ 0 (src r ((w.shape r).rawOffset x)) = σ 0 (w.serial.rawOffset x)
    rw [e]
  · simp only [src]
    split_ifs with hx
    · exact hσ k _ (hcell _ (isNode_global h.setup hr hx.choose_spec.1)).1 (hcell _ (isNode_global h.setup hr hx.choose_spec.1)).2
    · exact hσ k _ h00.1 h00.2

theorem updateOf_disciplined {d : Nat} {gh : Int} {body : List (Stmt V)} (hd : Disciplined d gh P oldKnown body oldKnown) (n : Nat) :
    Disciplined d gh P ⟨fun k => k = 0, fun _ => False⟩ (updateOf body n) oldKnown :=
  .ghostswap rfl ((hd.steps n).mono ⟨fun _ => id, fun _ hk => Or.inr hk⟩)

theorem updateOf_add {g : Shape} (body : List (Stmt V)) (m n : Nat) (σ : Grids V) :
    serialRun g (updateOf body (m + n)) σ = (serialRun g (updateOf body m) σ).bind (serialRun g (updateOf body n)) := by
  have e : ∀ k τ, serialRun g (updateOf body k) τ = serialRun g (repeatProg body k) τ := fun k τ => by
    unfold updateOf serialRun; rw [List.foldlM_cons]; rfl
  have : repeatProg body (m + n) = repeatProg body m ++ repeatProg body n := by
    unfold repeatProg; rw [← List.replicate_append_replicate, List.flatten_append]
  rw [e, e, this, serialRun_append]
  congr 1

/-- One call leaves what a serial call on any other valid state with the same field leaves. -/
theorem call_serial {c0 : Nat → Cell V} (hc0 : ∀ k, RoundTrips (c0 k)) (hPc0 : ∀ k v, P k v → (c0 k).Valid v) (h0 : w0.Ok np0) (hg0 : 1 ≤ w0.ghosts) {body : List (Stmt V)}
    (hd : ∀ gh, 1 ≤ gh → Disciplined w0.d gh P oldKnown body oldKnown) {n : Nat} {F F' : (Nat → Int) → V} (hcall : Call w0 P (updateOf body n) F F') {σ : Grids V}
    (hv : ∀ k o, 0 ≤ o → o < w0.serial.cells → P k (σ k o)) (hF : Holds w0.serial (σ 0) F) :
    ∃ σ', serialRun w0.serial (updateOf body n) σ = .ok σ' ∧ Holds w0.serial (σ' 0) F' ∧ ∀ k o, 0 ≤ o → o < w0.serial.cells → P k (σ' k o) := by
  have hprog : ∀ gh, 1 ≤ gh → Disciplined w0.d gh P ⟨fun k => k = 0, fun _ => False⟩ (updateOf body n) oldKnown := fun gh hgh => updateOf_disciplined (hd gh hgh) n
  cases hcall with
  | serial τ τ' valid before run after =>
    obtain ⟨D, hD, hA⟩ := distribute h0 σ hv
    have hA' : AllCells w0 np0 P τ D := fun k => ⟨valid k, (hA k).2⟩
    have hD' : SameField w0 np0 τ D 0 := fun r hr x hx => by
      rw [hD r hr x hx, hF x (isNode_global h0.setup hr hx), before x (isNode_global h0.setup hr hx)]
    obtain ⟨σ', E, e1, e2, e3, e4⟩ := parallel_eq_serial hc0 hPc0 h0 (hprog _ hg0) (σ := σ) (D := D) (S := fun r => .ok (D r)) (fun _ _ => rfl)
      ⟨fun k hk => hk ▸ hD, fun _ hk => hk.elim⟩ hA
    obtain ⟨τ'', E', f1, f2, f3, f4⟩ := parallel_eq_serial hc0 hPc0 h0 (hprog _ hg0) (σ := τ) (D := D) (S := fun r => .ok (D r)) (fun _ _ => rfl)
      ⟨fun k hk => hk ▸ hD', fun _ hk => hk.elim⟩ hA'
    rw [run] at f1
    cases f1
    refine ⟨σ', e1, fun x hx => ?_, fun k => (e4 k).1⟩
    obtain ⟨r, hr, hxr⟩ := owner h0 hx
    have : E r = E' r := Outcome.ok.inj ((e2 r hr).symm.trans (f2 r hr))
    rw [← e3.same 0 rfl r hr x hxr, this, f3.same 0 rfl r hr x hxr, after x hx]
  | parallel w np c D D' same ok ghosts buffers fits valid before run after =>
    have hdim : w.d = w0.d := congrArg Shape.dim same
    have hA : AllCells w np P σ D := fun k => ⟨by rw [same]; exact hv k, valid k⟩
    have hD : SameField w np σ D 0 := fun r hr x hx => by
      have hx0 := isNode_global ok.setup hr hx
      rw [before r hr x hx, same]
      exact (hF x (same ▸ (hx0 : w.serial.IsNode x))).symm
    have hp : Disciplined w.d w.ghosts P ⟨fun k => k = 0, fun _ => False⟩ (updateOf body n) oldKnown := hdim ▸ hprog _ ghosts
    obtain ⟨σ', E, e1, e2, e3, e4⟩ := parallel_eq_serial buffers fits ok hp (σ := σ) (D := D) (S := fun r => .ok (D r)) (fun _ _ => rfl)
      ⟨fun k hk => hk ▸ hD, fun _ hk => hk.elim⟩ hA
    refine ⟨σ', same ▸ e1, fun x hx => ?_, fun k => same ▸ (e4 k).1⟩
    obtain ⟨r, hr, hxr⟩ := owner ok (same.symm ▸ hx : w.serial.IsNode x)
    have : E r = D' r := Outcome.ok.inj ((e2 r hr).symm.trans (run r hr))
    have e5 := e3.same 0 rfl r hr x hxr
    rw [this, after r hr x hxr, same] at e5
    exact e5.symm

theorem calls_serial {c0 : Nat → Cell V} (hc0 : ∀ k, RoundTrips (c0 k)) (hPc0 : ∀ k v, P k v → (c0 k).Valid v) (h0 : w0.Ok np0) (hg0 : 1 ≤ w0.ghosts) {body : List (Stmt V)}
    (hd : ∀ gh, 1 ≤ gh → Disciplined w0.d gh P oldKnown body oldKnown) : ∀ {ns : List Nat} {F F' : (Nat → Int) → V}, Calls w0 P (updateOf body) ns F F' → ∀ {σ : Grids V},
    (∀ k o, 0 ≤ o → o < w0.serial.cells → P k (σ k o)) → Holds w0.serial (σ 0) F → ∃ σ', serialRun w0.serial (updateOf body ns.sum) σ = .ok σ' ∧ Holds w0.serial (σ' 0) F' := by
  intro ns
  induction ns with
  | nil => intro F F' h σ _ hF; exact ⟨σ, rfl, fun x hx => (hF x hx).trans (h x hx)⟩
  | cons n ns ih =>
    rintro F F' ⟨F1, h1, h2⟩ σ hv hF
    obtain ⟨σ1, e1, hF1, hv1⟩ := call_serial hc0 hPc0 h0 hg0 hd h1 hv hF
    obtain ⟨σ', e2, hF'⟩ := ih h2 hv1 hF1
    refine ⟨σ', ?_, hF'⟩
    rw [List.sum_cons, updateOf_add, e1, Outcome.ok_bind, e2]

/-! ## C88 -/

/-- **C88.** The result does not depend on the way in which the steps are divided into calls, nor on which programs make the calls: if two sequences of calls with the same number of
steps altogether begin with the same field, they end with the same field. -/
theorem restart {c0 : Nat → Cell V} (hc0 : ∀ k, RoundTrips (c0 k)) (hPc0 : ∀ k v, P k v → (c0 k).Valid v) (h0 : w0.Ok np0) (hg0 : 1 ≤ w0.ghosts) {body : List (Stmt V)}
    (hd : ∀ gh, 1 ≤ gh → Disciplined w0.d gh P oldKnown body oldKnown) {ns ms : List Nat} (hsum : ns.sum = ms.sum) {F F' F'' : (Nat → Int) → V} {σ : Grids V}
    (hv : ∀ k o, 0 ≤ o → o < w0.serial.cells → P k (σ k o)) (hF : Holds w0.serial (σ 0) F) (h1 : Calls w0 P (updateOf body) ns F F') (h2 : Calls w0 P (updateOf body) ms F F'') :
    ∀ x, w0.serial.IsNode x → F' x = F'' x := by
  obtain ⟨σ1, e1, r1⟩ := calls_serial hc0 hPc0 h0 hg0 hd h1 hv hF
  obtain ⟨σ2, e2, r2⟩ := calls_serial hc0 hPc0 h0 hg0 hd h2 hv hF
  rw [hsum, e2] at e1
  cases e1
  exact fun x hx => (r1 x hx).symm.trans (r2 x hx)

/-- **C88.** Every call on a field of valid values comes to an end. -/
theorem call_ends {c : Nat → Cell V} (hc : ∀ k, RoundTrips (c k)) (hPc : ∀ k v, P k v → (c k).Valid v) (h : w.Ok np) {body : List (Stmt V)}
    (hd : Disciplined w.d w.ghosts P oldKnown body oldKnown) (n : Nat) {σ : Grids V} {D : Int → Grids V} {F : (Nat → Int) → V} (hA : AllCells w np P σ D) (hs : Holds w.serial (σ 0) F)
    (hD : ∀ r, IsRank np r → Holds (w.shape r) (D r 0) F) :
    ∃ σ' D' F', serialRun w.serial (updateOf body n) σ = .ok σ' ∧ Finished np (mpiRun c w (updateOf body n) fun r => .ok (D r)) D' ∧ Holds w.serial (σ' 0) F' ∧
      ∀ r, IsRank np r → Holds (w.shape r) (D' r 0) F' := by
  obtain ⟨σ', D', e1, e2, e3, -⟩ := parallel_eq_serial hc hPc h (updateOf_disciplined hd n) (σ := σ) (D := D) (S := fun r => .ok (D r)) (fun _ _ => rfl)
    ⟨fun k hk => hk ▸ fun r hr x hx => (hD r hr x hx).trans (hs x (isNode_global h.setup hr hx)).symm, fun _ hk => hk.elim⟩ hA
  exact ⟨σ', D', cellAt w.serial (σ' 0), e1, e2, fun _ _ => rfl, fun r hr x hx => e3.same 0 rfl r hr x hx⟩

/-- **C88.** On a field of valid values calls with any numbers of steps are possible, serial ones for instance. -/
theorem calls_exist {c0 : Nat → Cell V} (hc0 : ∀ k, RoundTrips (c0 k)) (hPc0 : ∀ k v, P k v → (c0 k).Valid v) (h0 : w0.Ok np0) (hg0 : 1 ≤ w0.ghosts) {body : List (Stmt V)}
    (hd : ∀ gh, 1 ≤ gh → Disciplined w0.d gh P oldKnown body oldKnown) : ∀ (ns : List Nat) {F : (Nat → Int) → V} {σ : Grids V}, (∀ k o, 0 ≤ o → o < w0.serial.cells → P k (σ k o)) →
    Holds w0.serial (σ 0) F → ∃ F', Calls w0 P (updateOf body) ns F F'
  | [], F, _, _, _ => ⟨F, fun _ _ => rfl⟩
  | n :: ns, F, σ, hv, hF => by
    obtain ⟨D, hD, hA⟩ := distribute h0 σ hv
    obtain ⟨σ', _, e1, _, _, e4⟩ := parallel_eq_serial hc0 hPc0 h0 (updateOf_disciplined (hd _ hg0) n) (σ := σ) (D := D) (S := fun r => .ok (D r)) (fun _ _ => rfl)
      ⟨fun k hk => hk ▸ hD, fun _ hk => hk.elim⟩ hA
    obtain ⟨F', h⟩ := calls_exist hc0 hPc0 h0 hg0 hd ns (F := cellAt w0.serial (σ' 0)) (fun k => (e4 k).1) fun _ _ => rfl
    exact ⟨F', _, .serial σ σ' hv hF e1 fun _ _ => rfl, h⟩

/-! ### The examples -/

section Examples
variable {ns ms : List Nat} (hsum : ns.sum = ms.sum) (h0 : w0.Ok np0) (hg0 : 1 ≤ w0.ghosts)
include hsum h0 hg0

/-- **C88, Allen-Cahn.** -/
theorem allenCahn_restart {T : Type} [Zero T] [One T] [Add T] [Sub T] [Mul T] [Div T] {c : Nat → Cell T} (hc : ∀ k, RoundTrips (c k)) (hall : ∀ k v, (c k).Valid v) (dx : Nat → T)
    (f : T → T → T) {F F' F'' : (Nat → Int) → T} {σ : Grids T} (hF : Holds w0.serial (σ 0) F) (h1 : Calls w0 (fun _ _ => True) (allenCahnUpdate w0.d dx f) ns F F')
    (h2 : Calls w0 (fun _ _ => True) (allenCahnUpdate w0.d dx f) ms F F'') : ∀ x, w0.serial.IsNode x → F' x = F'' x :=
  restart hc (fun k v _ => hall k v) h0 hg0 (fun _ hgh => allenCahn_disciplined w0.d hgh dx f) hsum (fun _ _ _ _ => trivial) hF h1 h2

/-- **C88, Cahn-Hilliard.** -/
theorem cahnHilliard_restart {T : Type} [Zero T] [One T] [Add T] [Sub T] [Mul T] [Div T] {c : Nat → Cell T} (hc : ∀ k, RoundTrips (c k)) (hall : ∀ k v, (c k).Valid v) (dx : Nat → T)
    (mu f : T → T → T) {F F' F'' : (Nat → Int) → T} {σ : Grids T} (hF : Holds w0.serial (σ 0) F) (h1 : Calls w0 (fun _ _ => True) (cahnHilliardUpdate w0.d dx mu f) ns F F')
    (h2 : Calls w0 (fun _ _ => True) (cahnHilliardUpdate w0.d dx mu f) ms F F'') : ∀ x, w0.serial.IsNode x → F' x = F'' x :=
  restart hc (fun k v _ => hall k v) h0 hg0 (fun _ hgh => cahnHilliard_disciplined w0.d hgh dx mu f) hsum (fun _ _ _ _ => trivial) hF h1 h2

variable {α : Type} [Field α] {c : Nat → Cell (List α)} {n : Nat} {F F' F'' : (Nat → Int) → List α} {σ : Grids (List α)}

/-- **C88, isotropic phase field** (grain growth and Zener pinning). -/
theorem isoDense_restart (hc : ∀ k, RoundTrips (c k)) (hPc : ∀ k v, Entries α n k v → (c k).Valid v) (dx : Nat → α) (value : List α → List α → Nat → α)
    (hv : ∀ k o, 0 ≤ o → o < w0.serial.cells → (σ k o).length = n) (hF : Holds w0.serial (σ 0) F)
    (h1 : Calls w0 (Entries α n) (evolveUpdate (isoKernel w0.d n dx value)) ns F F') (h2 : Calls w0 (Entries α n) (evolveUpdate (isoKernel w0.d n dx value)) ms F F'') :
    ∀ x, w0.serial.IsNode x → F' x = F'' x :=
  restart hc hPc h0 hg0 (fun _ hgh => evolve_disciplined hgh rfl (isoKernel_reads dx value) (isoKernel_keeps dx value)) hsum hv hF h1 h2

/-- **C88, anisotropic phase field** (grain growth and Zener pinning). -/
theorem anisoDense_restart (hc : ∀ k, RoundTrips (c k)) (hPc : ∀ k v, Entries α n k v → (c k).Valid v) (pos : α → Bool) (dx : Nat → α) (value : List Int → List α → List α → Nat → α)
    (hv : ∀ k o, 0 ≤ o → o < w0.serial.cells → (σ k o).length = n) (hF : Holds w0.serial (σ 0) F)
    (h1 : Calls w0 (Entries α n) (evolveUpdate (anisoKernel pos w0.d n dx value)) ns F F')
    (h2 : Calls w0 (Entries α n) (evolveUpdate (anisoKernel pos w0.d n dx value)) ms F F'') : ∀ x, w0.serial.IsNode x → F' x = F'' x :=
  restart hc hPc h0 hg0 (fun _ hgh => evolve_disciplined hgh rfl (anisoKernel_reads pos dx value) (anisoKernel_keeps pos dx value)) hsum hv hF h1 h2

/-- **C88, Ostwald ripening.** -/
theorem ostwald_restart (hc : ∀ k, RoundTrips (c k)) (hPc : ∀ k v, Sizes α n 2 k v → (c k).Valid v) (hn : 0 < n) (pow2 : α → α) (dx : Nat → α) (pot : List α → α → α)
    (value : List α → List α → α → Nat → α) (hv : ∀ k o, 0 ≤ o → o < w0.serial.cells → Sizes α n 2 k (σ k o)) (hF : Holds w0.serial (σ 0) F)
    (h1 : Calls w0 (Sizes α n 2) (ostwaldUpdate w0.d n pow2 dx pot value) ns F F') (h2 : Calls w0 (Sizes α n 2) (ostwaldUpdate w0.d n pow2 dx pot value) ms F F'') :
    ∀ x, w0.serial.IsNode x → F' x = F'' x :=
  restart hc hPc h0 hg0 (fun _ hgh => ostwald_disciplined hgh hn pow2 dx pot value) hsum hv hF h1 h2

end Examples

end

/-- **C88.** The sparse phase field depends on the division into calls: `newGrid` is made anew, with empty cells, by every call, while within a call it holds the fields of two steps
before, and a value that falls below the limit is not assigned. Here a field decays from 1.015e-8; after two steps in one call the node still has its initial value, after two
calls it does not have the field. -/
theorem sparse_split_differs :
    let data : Int → Sparse.Cell ℚ := fun _ => [(0, 1015 / 10 ^ 11), (1, 1)]
    ((SparsePF.isoRun (SparsePF.line 2) (fun _ => 1) (1 / 100) 2 data).bind fun s => .ok (decide (Sparse.get (s.1 0) 0 = 1015 / 10 ^ 11))) = .ok true ∧
    ((SparsePF.isoRun (SparsePF.line 2) (fun _ => 1) (1 / 100) 1 data).bind fun s => (SparsePF.isoRun (SparsePF.line 2) (fun _ => 1) (1 / 100) 1 s.1).bind fun s =>
      .ok (decide (Sparse.get (s.1 0) 0 = 0))) = .ok true := by
  decide +kernel

/-- Two ranks, four nodes with stale ghosts: all steps in one parallel call, or in three serial calls. -/
example (m k : Nat) : let F : (Nat → Int) → ℚ := fun x => 1 / ((x 0 : ℚ) + 5)
    let update := allenCahnUpdate 1 (fun _ => (1 : ℚ)) fun a l => a + l
    ∃ F' F'', Calls smallWorld (fun _ _ => True) update [m + k] F F' ∧ Calls smallWorld (fun _ _ => True) update [m, 0, k] F F'' ∧ ∀ x, smallWorld.serial.IsNode x → F' x = F'' x := by
  intro F update
  let G : Int → ℚ := fun o => 1 / ((o : ℚ) + 5)
  let σ : Grids ℚ := fun _ => G
  let D : Int → Grids ℚ := fun r _ => shared G 99 r
  have hd : ∀ gh : Int, 1 ≤ gh → Disciplined smallWorld.d gh (fun _ (_ : ℚ) => True) oldKnown (allenCahn 1 (fun _ => (1 : ℚ)) fun a l => a + l) oldKnown :=
    fun _ hgh => allenCahn_disciplined 1 hgh _ _
  have hσ : Holds smallWorld.serial (σ 0) F := fun x _ => by
    show G (smallWorld.serial.rawOffset x) = F x
    rw [show smallWorld.serial.rawOffset x = x 0 by simp [smallWorld, World.serial, FileIO.serialShape, Shape.rawOffset, encode, Shape.s0, Shape.sx, slice]]
  have hD : ∀ r, IsRank 2 r → Holds (smallWorld.shape r) (D r 0) F := fun r hr x hx =>
    (shared_same G 99 (σ := σ) (D := D) rfl (fun _ => rfl) r hr x hx).trans (hσ x (isNode_global smallWorld_ok.setup hr hx))
  obtain ⟨_, D', F', -, run, -, after⟩ := call_ends (c := fun _ => unaryCell ℚ) (fun _ => unaryCell_roundTrips _) (fun _ _ _ => trivial) smallWorld_ok (hd 1 le_rfl) (m + k) (σ := σ) (D := D)
    (fun _ => ⟨fun _ _ _ => trivial, fun _ _ _ _ _ => trivial⟩) hσ hD
  obtain ⟨F'', h2⟩ := calls_exist (c0 := fun _ => unaryCell ℚ) (P := fun _ _ => True) (fun _ => unaryCell_roundTrips _) (fun _ _ _ => trivial) smallWorld_ok (by decide) hd [m, 0, k]
    (fun _ _ _ _ => trivial) hσ
  have h1 : Calls smallWorld (fun _ _ => True) update [m + k] F F' :=
    ⟨F', .parallel smallWorld 2 _ D D' rfl smallWorld_ok (by decide) (fun _ => unaryCell_roundTrips _) (fun _ _ _ => trivial) (fun _ _ _ _ _ _ => trivial) hD run after, fun _ _ => rfl⟩
  exact ⟨F', F'', h1, h2, allenCahn_restart (by simp) smallWorld_ok (by decide) (c := fun _ => unaryCell ℚ) (fun _ => unaryCell_roundTrips _) (fun _ _ => trivial) _ _ hσ h1 h2⟩

end MMSP.ParallelRun
