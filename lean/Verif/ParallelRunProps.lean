import Verif.ParallelRun
import Verif.GhostProps
import Verif.StencilProps
/-!
# A parallel run computes what the serial run computes
-/

namespace MMSP.ParallelRun

open MMSP.Stencil MMSP.Ghost Decomp

variable {V : Type}

/-! ## Specification -/

/-- A usable parallel grid whose outer faces carry one of the four physical conditions; mirror axes need one layer more than
the ghost width on every rank. -/
structure World.Ok (w : World) (np : Nat) : Prop where
  setup : w.toSetup.Ok np
  outer : ∀ j, j < w.d → w.B0 j ≠ .parallel ∧ w.B1 j ≠ .parallel
  mirror : ∀ j, j < w.d → w.B0 j = .mirror ∨ w.B1 j = .mirror →
    ∀ r, IsRank np r → w.ghosts < (w.shape r).x1 j - (w.shape r).x0 j

/-- `y` is at distance at most `ρ` from `x` on every axis. -/
def Near (d : Nat) (ρ : Int) (x y : Nat → Int) : Prop := ∀ j, j < d → x j - ρ ≤ y j ∧ y j ≤ x j + ρ

/-- The right-hand side reads only the listed grids, each up to the listed distance from the node. -/
def ReadsOnly (d : Nat) (reads : List (Nat × Int)) (kern : Kernel V) : Prop :=
  ∀ A B x x', (∀ j, j < d → x j = x' j) →
    (∀ q ∈ reads, ∀ y y', (∀ j, j < d → y j = y' j) → Near d q.2 x y → A q.1 y = B q.1 y') → kern A x = kern B x'

/-- The right-hand side returns a value satisfying `P dst` if everything it reads from grid `k` satisfies `P k`. -/
def Keeps (d : Nat) (P : Nat → V → Prop) (reads : List (Nat × Int)) (dst : Nat) (kern : Kernel V) : Prop :=
  ∀ A x, (∀ q ∈ reads, ∀ y, Near d q.2 x y → ∃ v, P q.1 v ∧ A q.1 y = .ok v) → ∃ v, P dst v ∧ kern A x = .ok v

/-- What is known about the grids: `f k` that grid `k` holds the same field in both programs (`newGrid` is uninitialised at first,
C48), `s k` that in addition its ghosts are up to date. -/
structure Known where
  f : Nat → Prop
  s : Nat → Prop

def Known.afterLoop (K : Known) (dst : Nat) : Known := ⟨fun k => K.f k ∨ k = dst, fun k => K.s k ∧ k ≠ dst⟩
def Known.afterSwap (K : Known) (a b : Nat) : Known :=
  ⟨fun k => if k = a then K.f b else if k = b then K.f a else K.f k, fun k => if k = a then K.s b else if k = b then K.s a else K.s k⟩
def Known.afterGhostswap (K : Known) (a : Nat) : Known := ⟨K.f, fun k => K.s k ∨ k = a⟩
def Known.le (K K' : Known) : Prop := (∀ k, K.f k → K'.f k) ∧ ∀ k, K.s k → K'.s k

/-- The discipline of the examples. `Disciplined K prog K'`: starting with the knowledge `K`, every loop of `prog` reads its
neighbours only from grids whose ghosts are up to date, reads at its own node only grids with known fields, and reads the grid it
writes only at the node that it is about to write; afterwards `K'` is known. -/
inductive Disciplined (d : Nat) (ghosts : Int) (P : Nat → V → Prop) : Known → List (Stmt V) → Known → Prop
  | nil {K K' : Known} (le : K'.le K) : Disciplined d ghosts P K [] K'
  | loop {K K' : Known} {dst : Nat} {kern : Kernel V} {rest : List (Stmt V)} (reads : List (Nat × Int))
      (only : ReadsOnly d reads kern) (keeps : Keeps d P reads dst kern) (ownDst : ∀ q ∈ reads, q.1 = dst → q.2 = 0)
      (range : ∀ q ∈ reads, (q.2 = 0 ∧ K.f q.1) ∨ (q.2 ≤ ghosts ∧ K.s q.1))
      (tail : Disciplined d ghosts P (K.afterLoop dst) rest K') : Disciplined d ghosts P K (.loop dst kern :: rest) K'
  | swap {K K' : Known} {a b : Nat} {rest : List (Stmt V)} (alike : P a = P b) (tail : Disciplined d ghosts P (K.afterSwap a b) rest K') :
      Disciplined d ghosts P K (.swap a b :: rest) K'
  | ghostswap {K K' : Known} {a : Nat} {rest : List (Stmt V)} (known : K.f a)
      (tail : Disciplined d ghosts P (K.afterGhostswap a) rest K') : Disciplined d ghosts P K (.ghostswap a :: rest) K'

/-- The parallel state `D` (array of grid `k` on rank `r`) holds the same field `k` as the serial state `σ`. -/
def SameField (w : World) (np : Nat) (σ : Grids V) (D : Int → Grids V) (k : Nat) : Prop :=
  ∀ r, IsRank np r → ∀ x, (w.shape r).IsNode x → cellAt (w.shape r) (D r k) x = cellAt w.serial (σ k) x

/-- The ghosts of grid `k` hold the values of the nodes they wrap to. -/
def Synced (w : World) (np : Nat) (σ : Grids V) (D : Int → Grids V) (k : Nat) : Prop :=
  ∀ r, IsRank np r → ∀ x, (w.shape r).IsCell x → ∀ y, w.serial.IsNode y → Wraps w.toSetup x y →
    cellAt (w.shape r) (D r k) x = cellAt w.serial (σ k) y

/-- The two states agree as far as `K` says. -/
structure Agree (w : World) (np : Nat) (K : Known) (σ : Grids V) (D : Int → Grids V) : Prop where
  same : ∀ k, K.f k → SameField w np σ D k
  synced : ∀ k, K.s k → Synced w np σ D k

/-- All cells of grid `k` satisfy `P k`. -/
def AllCells (w : World) (np : Nat) (P : Nat → V → Prop) (σ : Grids V) (D : Int → Grids V) : Prop :=
  ∀ k, (∀ o, 0 ≤ o → o < w.serial.cells → P k (σ k o)) ∧
    ∀ r, IsRank np r → ∀ o, 0 ≤ o → o < (w.shape r).cells → P k (D r k o)

/-! ## Boundary handling -/

theorem axis_agree {x x0 x1 g0 g1 gh : Int} {b0 b1 B0 B1 : BC} (h0 : g0 ≤ x0) (h1 : x1 ≤ g1)
    (hb0 : b0 = if x0 ≠ g0 then .parallel else B0) (hb1 : b1 = if x1 ≠ g1 then .parallel else B1)
    (hB0 : B0 ≠ .parallel) (hB1 : B1 ≠ .parallel) (hgh : 0 ≤ gh) (hw : gh ≤ x1 - x0) (hne : x0 < x1)
    (hlo : x0 ≠ g0 → g0 ≤ x0 - gh) (hhi : x1 ≠ g1 → x1 + gh ≤ g1) (hm : B0 = .mirror ∨ B1 = .mirror → gh < x1 - x0)
    (hx : x0 - gh ≤ x ∧ x < x1 + gh) :
    let m := checkBoundary .mpi x x0 x1 b0 b1
    let s := checkBoundary .serial x g0 g1 B0 B1
    (x0 - gh ≤ m ∧ m < x1 + gh) ∧ (g0 ≤ s ∧ s < g1) ∧ (m = s ∨ m = s - (g1 - g0) ∨ m = s + (g1 - g0)) := by
  intro m s
  rcases Int.lt_or_le x x0 with hl | hl
  · have hm' : m = if b0 = .neumann ∨ b0 = .dirichlet then x0 else if b0 = .mirror then 2 * x0 - x else x := by
      simp only [m, checkBoundary, if_pos hl]; simp
    by_cases e : x0 = g0
    · have hbB : b0 = B0 := by rw [hb0, if_neg (not_not_intro e)]
      have hs' : s = if B0 = .neumann ∨ B0 = .dirichlet then g0 else if B0 = .periodic then g1 - (g0 - x)
          else if B0 = .mirror then 2 * g0 - x else x := by
        simp only [s, checkBoundary, if_pos (show x < g0 by omega)]; simp
      rw [hm', hs', hbB]
      cases B0 <;> simp at hB0 hm ⊢ <;> omega
    · have hbB : b0 = .parallel := by rw [hb0, if_pos e]
      have := hlo e
      have hs' : s = x := by
        simp only [s, checkBoundary, if_neg (show ¬ x < g0 by omega), if_neg (show ¬ x ≥ g1 by omega)]
      rw [hm', hs', hbB]
      simp; omega
  · rcases Int.lt_or_le x x1 with hr | hr
    · have hm' : m = x := by
        simp only [m, checkBoundary, if_neg (show ¬ x < x0 by omega), if_neg (show ¬ x ≥ x1 by omega)]
      have hs' : s = x := by
        simp only [s, checkBoundary, if_neg (show ¬ x < g0 by omega), if_neg (show ¬ x ≥ g1 by omega)]
      rw [hm', hs']; omega
    · have hm' : m = if b1 = .neumann ∨ b1 = .dirichlet then x1 - 1 else if b1 = .mirror then 2 * (x1 - 1) - x else x := by
        simp only [m, checkBoundary, if_neg (show ¬ x < x0 by omega), if_pos (show x ≥ x1 from hr)]; simp
      by_cases e : x1 = g1
      · have hbB : b1 = B1 := by rw [hb1, if_neg (not_not_intro e)]
        have hs' : s = if B1 = .neumann ∨ B1 = .dirichlet then g1 - 1 else if B1 = .periodic then g0 + (x - g1)
            else if B1 = .mirror then 2 * (g1 - 1) - x else x := by
          simp only [s, checkBoundary, if_neg (show ¬ x < g0 by omega), if_pos (show x ≥ g1 by omega)]; simp
        rw [hm', hs', hbB]
        cases B1 <;> simp at hB1 hm ⊢ <;> omega
      · have hbB : b1 = .parallel := by rw [hb1, if_pos e]
        have := hhi e
        have hs' : s = x := by
          simp only [s, checkBoundary, if_neg (show ¬ x < g0 by omega), if_neg (show ¬ x ≥ g1 by omega)]
        rw [hm', hs', hbB]
        simp; omega

section
variable {w : World} {np : Nat}

theorem shape_wf (h : w.Ok np) {r : Int} (hr : IsRank np r) : (w.shape r).Wf :=
  ⟨h.setup.dim, (h.setup.wf hr).side, h.setup.ghosts⟩

theorem serial_wf (h : w.Ok np) : w.serial.Wf :=
  ⟨h.setup.dim, fun j hj => by
    have := h.setup.fits j hj; have := h.setup.grid.1 j hj
    show w.g0 j < w.g1 j; omega, le_refl _⟩

theorem rank_room (h : w.Ok np) {r : Int} (hr : IsRank np r) {j : Nat} (hj : j < w.d) :
    w.g0 j ≤ (w.shape r).x0 j ∧ (w.shape r).x1 j ≤ w.g1 j ∧
    ((w.shape r).x0 j ≠ w.g0 j → w.g0 j ≤ (w.shape r).x0 j - w.ghosts) ∧
    ((w.shape r).x1 j ≠ w.g1 j → (w.shape r).x1 j + w.ghosts ≤ w.g1 j) := by
  have hl := FileIO.lim_range h.setup.grid h.setup.box hr.1 hr.2 hj
  refine ⟨hl.1.1, hl.2.2, ?_, ?_⟩
  · intro hne
    have hb := below_spec h.setup.grid hr.1 hr.2 hj
    have ht := h.setup.thick _ hb.1 hb.2.1 j hj
    have hl' := FileIO.lim_range h.setup.grid h.setup.box hb.1 hb.2.1 hj
    rcases (below_adjacent (g0 := w.g0) (g1 := w.g1) h.setup.grid h.setup.box hr.1 hr.2 hj).1 with ⟨_, e⟩ | ⟨_, _, e⟩
    · have e' : (w.shape r).x0 j = (lim w.d w.g0 w.g1 w.p r j).1 := rfl
      have e1 : (w.toSetup.shape (below w.d w.p r j)).x0 j = (lim w.d w.g0 w.g1 w.p (below w.d w.p r j) j).1 := rfl
      have e2 : (w.toSetup.shape (below w.d w.p r j)).x1 j = (lim w.d w.g0 w.g1 w.p (below w.d w.p r j) j).2 := rfl
      omega
    · exact absurd e hne
  · intro hne
    have hb := above_spec h.setup.grid hr.1 hr.2 hj
    have ht := h.setup.thick _ hb.1 hb.2.1 j hj
    have hl' := FileIO.lim_range h.setup.grid h.setup.box hb.1 hb.2.1 hj
    rcases (above_adjacent (g0 := w.g0) (g1 := w.g1) h.setup.grid h.setup.box hr.1 hr.2 hj).1 with ⟨_, e⟩ | ⟨_, _, e⟩
    · have e' : (w.shape r).x1 j = (lim w.d w.g0 w.g1 w.p r j).2 := rfl
      have e1 : (w.toSetup.shape (above w.d w.p r j)).x0 j = (lim w.d w.g0 w.g1 w.p (above w.d w.p r j) j).1 := rfl
      have e2 : (w.toSetup.shape (above w.d w.p r j)).x1 j = (lim w.d w.g0 w.g1 w.p (above w.d w.p r j) j).2 := rfl
      omega
    · exact absurd e hne

/-- What an access within the ghost range reaches in the two builds: a cell of the rank, a node of the serial grid, and the first
wraps to the second. -/
theorem access_agree (h : w.Ok np) {r : Int} (hr : IsRank np r) {x : Nat → Int} (hx : (w.shape r).IsCell x) :
    ∃ m s, (w.shape r).IsCell m ∧ w.serial.IsNode s ∧ Wraps w.toSetup m s ∧
      (w.shape r).atVec .mpi x = (w.shape r).rawOffset m ∧ w.serial.atVec .serial x = w.serial.rawOffset s := by
  have key := fun j (hj : j < w.d) =>
    axis_agree (x := x j) (rank_room h hr hj).1 (rank_room h hr hj).2.1 (b0 := (w.shape r).b0 j) (b1 := (w.shape r).b1 j)
      rfl rfl (h.outer j hj).1 (h.outer j hj).2 h.setup.ghosts (h.setup.thick r hr.1 hr.2 j hj) ((shape_wf h hr).side j hj)
      (rank_room h hr hj).2.2.1 (rank_room h hr hj).2.2.2 (fun hm => h.mirror j hj hm r hr) (hx j hj)
  refine ⟨fun j => checkBoundary .mpi (x j) ((w.shape r).x0 j) ((w.shape r).x1 j) ((w.shape r).b0 j) ((w.shape r).b1 j),
    fun j => checkBoundary .serial (x j) (w.g0 j) (w.g1 j) (w.B0 j) (w.B1 j), fun j hj => (key j hj).1, fun j hj => (key j hj).2.1,
    ?_, Shape.atVec_eq_raw _ fun _ _ => rfl, Shape.atVec_eq_raw (g := w.serial) _ fun _ _ => rfl⟩
  intro j hj
  rcases (key j hj).2.2 with e | e | e <;> beta_reduce at e ⊢ <;> rw [e]
  · simp
  · exact ⟨-1, by ring⟩
  · exact ⟨1, by ring⟩

theorem isCell_of_isNode {g : Shape} (hg : 0 ≤ g.ghosts) {x : Nat → Int} (hx : g.IsNode x) : g.IsCell x := by
  intro j hj; have := hx j hj; omega

/-- Accesses to an up-to-date grid give the same value in both builds. -/
theorem gridAt_synced (h : w.Ok np) {σ : Grids V} {D : Int → Grids V} {k : Nat} (hs : Synced w np σ D k) {r : Int}
    (hr : IsRank np r) {x : Nat → Int} (hx : (w.shape r).IsCell x) :
    gridAt .mpi (w.shape r) (D r k) x = gridAt .serial w.serial (σ k) x := by
  obtain ⟨m, s, hm, hsn, hw, e1, e2⟩ := access_agree h hr hx
  have b1 := Shape.rawOffset_bounds (shape_wf h hr) hm
  have b2 := Shape.rawOffset_bounds (serial_wf h) (isCell_of_isNode (le_refl _) hsn)
  unfold gridAt deref
  rw [e1, e2, if_pos b1, if_pos b2]
  exact congrArg _ (hs r hr m hm s hsn hw)

/-- Accesses to own nodes give the same value in both builds whether or not the ghosts are up to date. -/
theorem gridAt_node (h : w.Ok np) {σ : Grids V} {D : Int → Grids V} {k : Nat} (hs : SameField w np σ D k) {r : Int}
    (hr : IsRank np r) {x : Nat → Int} (hx : (w.shape r).IsNode x) :
    gridAt .mpi (w.shape r) (D r k) x = gridAt .serial w.serial (σ k) x := by
  have hn : w.serial.IsNode x := isNode_global h.setup hr hx
  have b1 := Shape.rawOffset_bounds (shape_wf h hr) (isCell_of_isNode (shape_wf h hr).ghosts hx)
  have b2 := Shape.rawOffset_bounds (serial_wf h) (isCell_of_isNode (le_refl _) hn)
  have e1 : (w.shape r).atVec .mpi x = (w.shape r).rawOffset x :=
    Shape.atVec_eq_raw _ fun j hj => checkBoundary_inside _ _ _ _ _ _ (hx j hj)
  have e2 : w.serial.atVec .serial x = w.serial.rawOffset x :=
    Shape.atVec_eq_raw _ fun j hj => checkBoundary_inside _ _ _ _ _ _ (hn j hj)
  unfold gridAt deref
  rw [e1, e2, if_pos b1, if_pos b2]
  exact congrArg _ (hs r hr x hx)

end

/-! ## Loops -/

theorem atNode_inj {bd : Build} {g : Shape} (hg : g.Wf) (hser : bd = .serial → g.ghosts = 0) {i j : Int} (h0 : 0 ≤ i)
    (h1 : i < g.nodes) (h0' : 0 ≤ j) (h1' : j < g.nodes) (e : g.atNode bd i = g.atNode bd j) : i = j := by
  rw [Shape.atNode_eq_atVec hg bd hser h0 h1, Shape.atNode_eq_atVec hg bd hser h0' h1'] at e
  have hp := Shape.position_isNode hg h0 h1
  have hp' := Shape.position_isNode hg h0' h1'
  exact Shape.position_inj hg h0 h1 h0' h1' (Shape.atVec_inj bd (fun _ hk => checkBoundary_inside _ _ _ _ _ _ (hp _ hk))
    (fun _ hk => checkBoundary_inside _ _ _ _ _ _ (hp' _ hk)) (isCell_of_isNode hg.ghosts hp) (isCell_of_isNode hg.ghosts hp') e)

theorem atNode_raw {bd : Build} {g : Shape} (hg : g.Wf) (hser : bd = .serial → g.ghosts = 0) {i : Int} (h0 : 0 ≤ i)
    (h1 : i < g.nodes) : g.atNode bd i = g.rawOffset (g.position i) := by
  rw [Shape.atNode_eq_atVec hg bd hser h0 h1]
  exact Shape.atVec_eq_raw bd fun _ hk => checkBoundary_inside _ _ _ _ _ _ (Shape.position_isNode hg h0 h1 _ hk)

theorem runLoop_spec {bd : Build} {g : Shape} (hg : g.Wf) (hser : bd = .serial → g.ghosts = 0) {dst : Nat} {kern : Kernel V}
    {σ : Grids V} {val : Int → V}
    (hk : ∀ σ' : Grids V, (∀ k, k ≠ dst → σ' k = σ k) → ∀ i, 0 ≤ i → i < g.nodes → σ' dst (g.atNode bd i) = σ dst (g.atNode bd i) →
      kern (fun k => gridAt bd g (σ' k)) (g.position i) = .ok (val i)) :
    ∃ σ', runLoop bd g dst kern σ = .ok σ' ∧ (∀ k, k ≠ dst → σ' k = σ k) ∧
      (∀ i, 0 ≤ i → i < g.nodes → σ' dst (g.atNode bd i) = val i) ∧
      (∀ p, (∀ i, 0 ≤ i → i < g.nodes → g.atNode bd i ≠ p) → σ' dst p = σ dst p) := by
  have key : ∀ n : Nat, (n : Int) ≤ g.nodes → ∃ σ', (List.range n).foldlM (fun (σ : Grids V) (i : Nat) =>
      (kern (fun k => gridAt bd g (σ k)) (g.position i)).bind fun v =>
      (store g (σ dst) (g.atNode bd i) v).bind fun a => .ok (Function.update σ dst a)) σ = .ok σ' ∧
      (∀ k, k ≠ dst → σ' k = σ k) ∧ (∀ i : Int, 0 ≤ i → i < n → σ' dst (g.atNode bd i) = val i) ∧
      (∀ p, (∀ i : Int, 0 ≤ i → i < n → g.atNode bd i ≠ p) → σ' dst p = σ dst p) := by
    intro n
    induction n with
    | zero => intro _; exact ⟨σ, rfl, fun _ _ => rfl, fun i h0 h1 => absurd h1 (by omega), fun _ _ => rfl⟩
    | succ n ih =>
      intro hn
      obtain ⟨σ', e, ho, hv, hp⟩ := ih (by omega)
      have hb : 0 ≤ g.atNode bd n ∧ g.atNode bd n < g.cells := by
        rw [atNode_raw hg hser (by omega) (by omega)]
        exact Shape.rawOffset_bounds hg (isCell_of_isNode hg.ghosts (Shape.position_isNode hg (by omega) (by omega)))
      have hst : store g (σ' dst) (g.atNode bd n) (val n) = .ok (Function.update (σ' dst) (g.atNode bd n) (val n)) := by
        unfold store; exact if_pos hb
      refine ⟨Function.update σ' dst (Function.update (σ' dst) (g.atNode bd n) (val n)), ?_, ?_, ?_, ?_⟩
      · rw [List.range_succ, List.foldlM_append, e]
        simp only [List.foldlM_cons, List.foldlM_nil, Outcome.bind_eq, Outcome.ok_bind, Outcome.pure_eq,
          hk σ' ho n (by omega) (by omega) (hp _ fun i h0 h1 e => by
            have := atNode_inj hg hser h0 (by omega) (by omega) (by omega) e
            omega), hst]
      · intro k hkd; rw [Function.update_of_ne hkd]; exact ho k hkd
      · intro i h0 h1
        rw [Function.update_self]
        by_cases ei : i = n
        · subst ei; rw [Function.update_self]
        · rw [Function.update_of_ne fun e => ei (atNode_inj hg hser h0 (by omega) (by omega) (by omega) e)]
          exact hv i h0 (by omega)
      · intro p hp'
        rw [Function.update_self, Function.update_of_ne fun e => hp' n (by omega) (by omega) e.symm]
        exact hp p fun i h0 h1 => hp' i h0 (by omega)
  have hnn : 0 ≤ g.nodes := by
    rw [Shape.nodes_eq hg]; exact Finset.prod_nonneg fun k hk => by have := hg.side k (Finset.mem_range.mp hk); omega
  obtain ⟨σ', e, ho, hv, hp⟩ := key g.nodes.toNat (by omega)
  have ht : ((g.nodes.toNat : Nat) : Int) = g.nodes := Int.toNat_of_nonneg hnn
  rw [ht] at hv hp
  exact ⟨σ', e, ho, hv, hp⟩

/-- A grid other than the one written is read as before, and so is the cell that is about to be written. -/
theorem reread {bd : Build} {g : Shape} {dst : Nat} {σ τ : Grids V} (hτ : ∀ k, k ≠ dst → τ k = σ k) {x : Nat → Int} (hx : g.IsNode x)
    (hown : τ dst (g.rawOffset x) = σ dst (g.rawOffset x)) {k : Nat} {ρ : Int} (hk : k = dst → ρ = 0) {y : Nat → Int} (hy : Near g.dim ρ x y) :
    gridAt bd g (τ k) y = gridAt bd g (σ k) y := by
  by_cases e : k = dst
  · subst e
    have hyx : ∀ j, j < g.dim → y j = x j := by intro j hj; have := hy j hj; have := hk rfl; omega
    have hyn : g.IsNode y := by intro j hj; rw [hyx j hj]; exact hx j hj
    have ha : g.atVec bd y = g.rawOffset x := by
      rw [Shape.atVec_eq_raw bd fun _ hk => checkBoundary_inside _ _ _ _ _ _ (hyn _ hk)]
      exact rawOffset_congr hyx
    unfold gridAt deref
    rw [ha, hown]
  · rw [hτ k e]

/-- The loop seen through coordinates: on own nodes the new value, elsewhere nothing changes. -/
theorem runLoop_cells {bd : Build} {g : Shape} (hg : g.Wf) (hser : bd = .serial → g.ghosts = 0) {dst : Nat} {kern : Kernel V}
    {σ : Grids V} {val : (Nat → Int) → V} (hval : ∀ x y, g.SamePoint x y → val x = val y)
    (hk : ∀ σ' : Grids V, (∀ k, k ≠ dst → σ' k = σ k) → ∀ x, g.IsNode x → σ' dst (g.rawOffset x) = σ dst (g.rawOffset x) → kern (fun k => gridAt bd g (σ' k)) x = .ok (val x))
    {P : V → Prop} (hP : ∀ o, 0 ≤ o → o < g.cells → P (σ dst o)) (hPv : ∀ x, g.IsNode x → P (val x)) :
    ∃ σ', runLoop bd g dst kern σ = .ok σ' ∧ (∀ k, k ≠ dst → σ' k = σ k) ∧
      (∀ x, g.IsNode x → cellAt g (σ' dst) x = val x) ∧ (∀ o, 0 ≤ o → o < g.cells → P (σ' dst o)) := by
  obtain ⟨σ', e, ho, hv, hp⟩ := runLoop_spec hg hser (dst := dst) (kern := kern) (σ := σ) (val := fun i => val (g.position i))
    fun σ' h i h0 h1 e => hk σ' h _ (Shape.position_isNode hg h0 h1) (by rwa [atNode_raw hg hser h0 h1] at e)
  refine ⟨σ', e, ho, ?_, ?_⟩
  · intro x hx
    obtain ⟨i, ⟨h0, h1, hs⟩, _⟩ := Shape.position_surj hg hx
    unfold cellAt
    rw [← rawOffset_congr hs, ← atNode_raw hg hser h0 h1, hv i h0 h1]
    exact hval _ _ hs
  · intro o h0 h1
    by_cases hex : ∃ i, 0 ≤ i ∧ i < g.nodes ∧ g.atNode bd i = o
    · obtain ⟨i, a, b, rfl⟩ := hex
      rw [hv i a b]; exact hPv _ (Shape.position_isNode hg a b)
    · rw [hp o fun i a b e => hex ⟨i, a, b, e⟩]; exact hP o h0 h1

/-! ## Statements -/

section
variable {w : World} {np : Nat} {P : Nat → V → Prop} {c : Nat → Cell V}

/-- Nodes of the serial grid are own nodes of some rank. -/
theorem owner (h : w.Ok np) {y : Nat → Int} (hy : w.serial.IsNode y) : ∃ r, IsRank np r ∧ (w.shape r).IsNode y := by
  obtain ⟨r, ⟨a, b, e⟩, _⟩ := partition (np := np) h.setup.grid h.setup.box (x := y) hy
  exact ⟨r, ⟨a, b⟩, e⟩

theorem near_cell {r : Int} {x y : Nat → Int} {ρ : Int} (hx : (w.shape r).IsNode x) (h : Near w.d ρ x y)
    (hρ : ρ ≤ w.ghosts) : (w.shape r).IsCell y := by
  intro j hj
  have h1 := hx j hj
  have h2 := h j hj
  have h3 : (w.shape r).ghosts = w.ghosts := rfl
  omega

theorem near_zero {d : Nat} {x y : Nat → Int} (h : Near d 0 x y) : ∀ j, j < d → y j = x j := by
  intro j hj; have := h j hj; omega

theorem gridAt_congr {bd : Build} {g : Shape} (data : Int → V) {x y : Nat → Int} (h : ∀ j, j < g.dim → x j = y j) :
    gridAt bd g data x = gridAt bd g data y := by
  have : g.atVec bd x = g.atVec bd y := by
    unfold Shape.atVec
    exact Finset.sum_congr rfl fun j hj => by rw [h j (Finset.mem_range.mp hj)]
  unfold gridAt; rw [this]

/-- Every access within the ghost range of an own node returns a value satisfying `P` (serial grid). -/
theorem serial_access (h : w.Ok np) {σ : Grids V} {D : Int → Grids V} (hP : AllCells w np P σ D) (k : Nat) {r : Int}
    (hr : IsRank np r) {x : Nat → Int} (hx : (w.shape r).IsCell x) : ∃ v, P k v ∧ gridAt .serial w.serial (σ k) x = .ok v := by
  obtain ⟨m, s, _, hsn, _, _, e2⟩ := access_agree h hr hx
  have b2 := Shape.rawOffset_bounds (serial_wf h) (isCell_of_isNode (le_refl _) hsn)
  refine ⟨σ k (w.serial.rawOffset s), (hP k).1 _ b2.1 b2.2, ?_⟩
  unfold gridAt deref
  rw [e2, if_pos b2]

theorem stmt_agree_loop (h : w.Ok np) {K : Known} {dst : Nat} {kern : Kernel V} {reads : List (Nat × Int)}
    (only : ReadsOnly w.d reads kern) (keeps : Keeps w.d P reads dst kern) (ownDst : ∀ q ∈ reads, q.1 = dst → q.2 = 0)
    (range : ∀ q ∈ reads, (q.2 = 0 ∧ K.f q.1) ∨ (q.2 ≤ w.ghosts ∧ K.s q.1)) {σ : Grids V} {D : Int → Grids V}
    (hA : Agree w np K σ D) (hP : AllCells w np P σ D) :
    ∃ σ' D', serialStmt w.serial (.loop dst kern) σ = .ok σ' ∧
      (∀ r, IsRank np r → runLoop .mpi (w.shape r) dst kern (D r) = .ok (D' r)) ∧
      Agree w np (K.afterLoop dst) σ' D' ∧ AllCells w np P σ' D' := by
  -- the value assigned at a node
  have hex : ∀ x, ∃ v, w.serial.IsNode x → P dst v ∧ kern (fun k => gridAt .serial w.serial (σ k)) x = .ok v := by
    intro x
    by_cases hx : w.serial.IsNode x
    · obtain ⟨r, hr, hxr⟩ := owner h hx
      obtain ⟨v, hv⟩ := keeps (fun k => gridAt .serial w.serial (σ k)) x (by
        intro q hq y hy
        refine serial_access h hP q.1 hr (near_cell hxr hy ?_)
        have := h.setup.ghosts
        rcases range q hq with ⟨e, _⟩ | ⟨e, _⟩ <;> omega)
      exact ⟨v, fun _ => hv⟩
    · obtain ⟨r, hr, hxr⟩ := owner h (y := w.serial.x0) (fun j hj => ⟨le_refl _, (serial_wf h).side j hj⟩)
      obtain ⟨v, _⟩ := serial_access h hP 0 hr (isCell_of_isNode (shape_wf h hr).ghosts hxr)
      exact ⟨v, fun hx' => absurd hx' hx⟩
  obtain ⟨val, hval⟩ := Classical.axiomOfChoice hex
  have hcongr : ∀ x y, w.serial.IsNode x → (∀ j, j < w.d → x j = y j) → val x = val y := by
    intro x y hx hxy
    have hy : w.serial.IsNode y := by intro j hj; rw [← hxy j hj]; exact hx j hj
    have h1 := (hval x hx).2
    have h2 := (hval y hy).2
    have : kern (fun k => gridAt .serial w.serial (σ k)) x = kern (fun k => gridAt .serial w.serial (σ k)) y :=
      only _ _ _ _ hxy fun q _ z z' hz _ => gridAt_congr _ hz
    rw [this, h2] at h1
    exact (Outcome.ok.inj h1).symm
  -- make the value independent of coordinates that do not exist
  let cut : (Nat → Int) → Nat → Int := fun x j => if j < w.d then x j else 0
  have hcut : ∀ x, ∀ j, j < w.d → cut x j = x j := fun x j hj => if_pos hj
  have hcutN : ∀ {g : Shape}, g.dim = w.d → ∀ {x}, g.IsNode x → g.IsNode (cut x) := by
    intro g hg x hx j hj; rw [hcut x j (by omega)]; exact hx j hj
  have hcut' : ∀ x y, (∀ j, j < w.d → x j = y j) → cut x = cut y := by
    intro x y hxy; funext j; simp only [cut]; split
    · exact hxy j ‹_›
    · rfl
  obtain ⟨σ', e1, o1, v1, p1⟩ := runLoop_cells (bd := .serial) (g := w.serial) (serial_wf h) (fun _ => rfl) (dst := dst)
    (kern := kern) (σ := σ) (val := fun x => val (cut x)) (fun x y hxy => by rw [hcut' x y hxy])
    (by
      intro τ hτ x hx hown
      have hx' := hcutN (g := w.serial) rfl hx
      rw [← (hval _ hx').2]
      exact only _ _ _ _ (fun j hj => (hcut x j hj).symm) fun q hq y y' hy hn => by
        rw [reread hτ hx hown (ownDst q hq) hn]; exact gridAt_congr _ hy)
    (P := P dst) (hP dst).1 (fun x hx => (hval _ (hcutN (g := w.serial) rfl hx)).1)
  have hranks : ∀ r, ∃ τ, IsRank np r → runLoop .mpi (w.shape r) dst kern (D r) = .ok τ ∧ (∀ k, k ≠ dst → τ k = D r k) ∧
      (∀ x, (w.shape r).IsNode x → cellAt (w.shape r) (τ dst) x = val (cut x)) ∧
      (∀ o, 0 ≤ o → o < (w.shape r).cells → P dst (τ dst o)) := by
    intro r
    by_cases hr : IsRank np r
    · obtain ⟨τ, hτ⟩ := runLoop_cells (bd := .mpi) (g := w.shape r) (shape_wf h hr) (fun hh => by cases hh) (dst := dst)
        (kern := kern) (σ := D r) (val := fun x => val (cut x)) (fun x y hxy => by rw [hcut' x y hxy])
        (by
          intro τ hτ x hx hown
          have hxs : w.serial.IsNode x := isNode_global h.setup hr hx
          have hx' := hcutN (g := w.serial) rfl hxs
          rw [← (hval _ hx').2]
          refine only _ _ _ _ (fun j hj => (hcut x j hj).symm) fun q hq y y' hy hn => ?_
          rw [reread hτ hx hown (ownDst q hq) hn]
          rcases range q hq with ⟨e, hf⟩ | ⟨hg, hs⟩
          · rw [e] at hn
            have hyx := near_zero hn
            have hyN : (w.shape r).IsNode y := by intro j hj; rw [hyx j hj]; exact hx j hj
            rw [gridAt_node h (hA.same _ hf) hr hyN]
            exact gridAt_congr _ hy
          · rw [gridAt_synced h (hA.synced _ hs) hr (near_cell hx hn hg)]
            exact gridAt_congr _ hy)
        (P := P dst) ((hP dst).2 r hr) (fun x hx => (hval _ (hcutN (g := w.serial) rfl (isNode_global h.setup hr hx))).1)
      exact ⟨τ, fun _ => hτ⟩
    · exact ⟨D r, fun hr' => absurd hr' hr⟩
  obtain ⟨D', hD'⟩ := Classical.axiomOfChoice hranks
  refine ⟨σ', D', e1, fun r hr => (hD' r hr).1, ⟨?_, ?_⟩, ?_⟩
  · intro k hf r hr x hx
    by_cases hk : k = dst
    · subst hk
      rw [(hD' r hr).2.2.1 x hx, v1 x (isNode_global h.setup hr hx)]
    · rw [(hD' r hr).2.1 k hk, o1 k hk]; exact hA.same k (hf.resolve_right hk) r hr x hx
  · intro k hk r hr x hx y hy hxy
    rw [(hD' r hr).2.1 k hk.2, o1 k hk.2]; exact hA.synced k hk.1 r hr x hx y hy hxy
  · intro k
    by_cases hk : k = dst
    · subst hk; exact ⟨p1, fun r hr => (hD' r hr).2.2.2⟩
    · rw [o1 k hk]
      refine ⟨(hP k).1, fun r hr => ?_⟩
      rw [(hD' r hr).2.1 k hk]; exact (hP k).2 r hr

/-- The result of all ranks. -/
def Finished (np : Nat) (S : Int → Outcome (Grids V)) (D : Int → Grids V) : Prop := ∀ r, IsRank np r → S r = .ok (D r)

theorem stmt_agree_swap {K : Known} {a b : Nat} (alike : P a = P b) {σ : Grids V} {D : Int → Grids V}
    (hA : Agree w np K σ D) (hP : AllCells w np P σ D) :
    Agree w np (K.afterSwap a b) (swapGrids a b σ) (fun r => swapGrids a b (D r)) ∧
    AllCells w np P (swapGrids a b σ) (fun r => swapGrids a b (D r)) := by
  have e : ∀ (τ : Grids V) k, swapGrids a b τ k = τ (if k = a then b else if k = b then a else k) := by
    intro τ k; unfold swapGrids; split_ifs <;> rfl
  refine ⟨⟨?_, ?_⟩, ?_⟩
  · intro k hk r hr x hx
    simp only [e]
    refine hA.same _ ?_ r hr x hx
    simp only [Known.afterSwap] at hk
    split_ifs at hk ⊢ <;> exact hk
  · intro k hk r hr x hx y hy hxy
    simp only [e]
    refine hA.synced _ ?_ r hr x hx y hy hxy
    simp only [Known.afterSwap] at hk
    split_ifs at hk ⊢ <;> exact hk
  · intro k; simp only [e]
    have : P k = P (if k = a then b else if k = b then a else k) := by split_ifs <;> simp_all
    rw [this]; exact hP _

theorem stmt_agree_ghostswap (hc : ∀ k, RoundTrips (c k)) (hPc : ∀ k v, P k v → (c k).Valid v) (h : w.Ok np) {K : Known} {a : Nat}
    (hf : K.f a) {σ : Grids V} {D : Int → Grids V} {S : Int → Outcome (Grids V)} (hD : Finished np S D)
    (hA : Agree w np K σ D) (hP : AllCells w np P σ D) :
    ∃ D', Finished np (mpiStmt c w (.ghostswap a) S) D' ∧ 
      Agree w np (K.afterGhostswap a) σ D' ∧ AllCells w np P σ D' := by
  obtain ⟨E, hR, hE⟩ := ghostswap_correct (hc a) h.setup (S := fun r => (S r).bind fun τ => .ok ⟨τ a, 0⟩) (D0 := fun r => D r a)
    (fun r hr => ⟨0, by beta_reduce; rw [hD r hr]; rfl⟩) (fun r hr o h0 h1 => hPc _ _ ((hP a).2 r hr o h0 h1))
  have hEs : Synced w np σ (fun r => Function.update (D r) a (E r)) a := by
    intro r hr x hx y hy hxy
    obtain ⟨q, hq, hyq⟩ := owner h hy
    have := hE r hr x hx q hq y hyq hxy
    beta_reduce; rw [Function.update_self]
    exact this.trans (hA.same a hf q hq y hyq)
  have hself : ∀ x : Nat → Int, Wraps w.toSetup x x := fun x j _ => by rw [sub_self]; exact dvd_zero _
  refine ⟨fun r => Function.update (D r) a (E r), ?_, ⟨?_, ?_⟩, ?_⟩
  · intro r hr
    obtain ⟨n, hn⟩ := hR r hr
    simp only [mpiStmt]
    rw [hD r hr, Outcome.ok_bind, hn, Outcome.ok_bind]
  · intro k hkf r hr x hx
    by_cases hk : k = a
    · subst hk
      exact hEs r hr x (isCell_of_isNode (shape_wf h hr).ghosts hx) x (isNode_global h.setup hr hx) (hself x)
    · beta_reduce; rw [Function.update_of_ne hk]; exact hA.same k hkf r hr x hx
  · intro k hk
    by_cases hka : k = a
    · subst hka; exact hEs
    · intro r hr x hx y hy hxy
      beta_reduce; rw [Function.update_of_ne hka]
      exact hA.synced k (hk.resolve_right hka) r hr x hx y hy hxy
  · intro k
    by_cases hka : k = a
    · subst hka
      refine ⟨(hP k).1, fun r hr o h0 h1 => ?_⟩
      beta_reduce; rw [Function.update_self]
      obtain ⟨x, hx, rfl⟩ := Shape.rawOffset_surj (shape_wf h hr) h0 h1
      obtain ⟨q, hq, y, hy, hxy⟩ := owner_exists h.setup x
      have hys : w.serial.IsNode y := isNode_global h.setup hq hy
      have := hEs r hr x hx y hys hxy
      beta_reduce at this; rw [Function.update_self] at this
      unfold cellAt at this
      rw [this]
      have b := Shape.rawOffset_bounds (serial_wf h) (isCell_of_isNode (le_refl _) hys)
      exact (hP k).1 _ b.1 b.2
    · refine ⟨(hP k).1, fun r hr => ?_⟩
      beta_reduce; rw [Function.update_of_ne hka]; exact (hP k).2 r hr

/-! ## C50 -/

/-- **C50.** A program that keeps the discipline computes the same fields on any number of ranks as the serial program does, and
neither run fails. Nothing is assumed about the arithmetic: the results are equal bit for bit. -/
theorem parallel_eq_serial (hc : ∀ k, RoundTrips (c k)) (hPc : ∀ k v, P k v → (c k).Valid v) (h : w.Ok np) {K K' : Known}
    {prog : List (Stmt V)} (hp : Disciplined w.d w.ghosts P K prog K') {σ : Grids V} {D : Int → Grids V}
    {S : Int → Outcome (Grids V)} (hD : Finished np S D) (hA : Agree w np K σ D) (hP : AllCells w np P σ D) :
    ∃ σ' D', serialRun w.serial prog σ = .ok σ' ∧ Finished np (mpiRun c w prog S) D' ∧ Agree w np K' σ' D' ∧
      AllCells w np P σ' D' := by
  induction hp generalizing σ D S with
  | nil le => exact ⟨σ, D, rfl, hD, ⟨fun k hk => hA.same k (le.1 k hk), fun k hk => hA.synced k (le.2 k hk)⟩, hP⟩
  | loop reads only keeps ownDst range tail ih =>
    obtain ⟨σ1, D1, e1, e2, hA1, hP1⟩ := stmt_agree_loop h only keeps ownDst range hA hP
    obtain ⟨σ', D', f1, f2, r⟩ := ih (S := mpiStmt c w (.loop _ _) S) (fun r hr => by
      simp only [mpiStmt]; rw [hD r hr, Outcome.ok_bind, e2 r hr]) hA1 hP1
    refine ⟨σ', D', ?_, f2, r⟩
    unfold serialRun at f1 ⊢
    rw [List.foldlM_cons, e1]; exact f1
  | swap alike tail ih =>
    obtain ⟨hA1, hP1⟩ := stmt_agree_swap alike hA hP
    obtain ⟨σ', D', f1, f2, r⟩ := ih (S := mpiStmt c w (.swap _ _) S) (fun r hr => by
      simp only [mpiStmt]; rw [hD r hr, Outcome.ok_bind]) hA1 hP1
    exact ⟨σ', D', f1, f2, r⟩
  | ghostswap known tail ih =>
    obtain ⟨D1, e1, hA1, hP1⟩ := stmt_agree_ghostswap hc hPc h known hD hA hP
    obtain ⟨σ', D', f1, f2, r⟩ := ih e1 hA1 hP1
    exact ⟨σ', D', f1, f2, r⟩

end

/-! ## Time loops -/

theorem Disciplined.mono {d : Nat} {gh : Int} {P : Nat → V → Prop} {K K' : Known} {prog : List (Stmt V)}
    (h : Disciplined d gh P K prog K') {L : Known} (hL : K.le L) : Disciplined d gh P L prog K' := by
  induction h generalizing L with
  | nil le => exact .nil ⟨fun k hk => hL.1 k (le.1 k hk), fun k hk => hL.2 k (le.2 k hk)⟩
  | loop reads only keeps ownDst range tail ih =>
    refine .loop reads only keeps ownDst ?_ (ih ⟨?_, ?_⟩)
    · intro q hq
      exact (range q hq).imp (fun e => ⟨e.1, hL.1 _ e.2⟩) fun e => ⟨e.1, hL.2 _ e.2⟩
    · exact fun k hk => hk.imp (hL.1 k) id
    · exact fun k hk => ⟨hL.2 k hk.1, hk.2⟩
  | swap alike tail ih =>
    refine .swap alike (ih ⟨fun k hk => ?_, fun k hk => ?_⟩) <;> simp only [Known.afterSwap] at hk ⊢ <;> split_ifs at hk ⊢ <;>
      first | exact hL.1 _ hk | exact hL.2 _ hk
  | ghostswap known tail ih => exact .ghostswap (hL.1 _ known) (ih ⟨hL.1, fun k hk => hk.imp (hL.2 k) id⟩)

theorem Disciplined.append {d : Nat} {gh : Int} {P : Nat → V → Prop} {K K' K'' : Known} {p q : List (Stmt V)}
    (h : Disciplined d gh P K p K') (h' : Disciplined d gh P K' q K'') : Disciplined d gh P K (p ++ q) K'' := by
  induction h with
  | nil le => exact h'.mono le
  | loop reads only keeps ownDst range tail ih => exact .loop reads only keeps ownDst range (ih h')
  | swap alike tail ih => exact .swap alike (ih h')
  | ghostswap known tail ih => exact .ghostswap known (ih h')

theorem Disciplined.steps {d : Nat} {gh : Int} {P : Nat → V → Prop} {K : Known} {p : List (Stmt V)}
    (h : Disciplined d gh P K p K) (n : Nat) : Disciplined d gh P K (repeatProg p n) K := by
  induction n with
  | zero => exact .nil ⟨fun _ => id, fun _ => id⟩
  | succ n ih =>
    have : repeatProg p (n + 1) = p ++ repeatProg p n := by simp [repeatProg, List.replicate_succ]
    rw [this]; exact h.append ih

/-! ## Right-hand sides made of values and laplacians -/

section Kernels
variable {T : Type} [Zero T] [One T] [Add T] [Sub T] [Mul T] [Div T]

omit [Zero T] [Div T] in
theorem lapLoop_congr {A B : (Nat → Int) → Outcome T} (wt : Nat → T) (y : T) (x x' : Nat → Int) :
    ∀ (is : List Nat) (acc : T), (∀ i ∈ is, A (bump x i 1) = B (bump x' i 1) ∧ A (bump x i (-1)) = B (bump x' i (-1))) →
      lapLoop A wt y is x acc = lapLoop B wt y is x' acc := by
  intro is
  induction is with
  | nil => intro _ _; rfl
  | cons i is ih =>
    intro acc h
    obtain ⟨h1, h2⟩ := h i (by simp)
    simp only [lapLoop, neighbours_eq, h1, h2]
    cases B (bump x' i 1) <;> simp only [Outcome.ok_bind, Outcome.ub_bind, Outcome.abort_bind]
    cases B (bump x' i (-1)) <;> simp only [Outcome.ok_bind, Outcome.ub_bind, Outcome.abort_bind]
    exact ih _ fun j hj => h j (by simp [hj])

theorem near_bump {d : Nat} (x : Nat → Int) (i : Nat) {k : Int} (hk : k = 1 ∨ k = -1) : Near d 1 x (bump x i k) := by
  intro j _
  by_cases e : j = i
  · subst e; simp only [bump, Function.update_self]; omega
  · simp only [bump, Function.update_of_ne e]; omega

theorem near_self {d : Nat} {ρ : Int} (h : 0 ≤ ρ) (x : Nat → Int) : Near d ρ x x := fun j _ => by omega

theorem bump_same {d : Nat} {x x' : Nat → Int} (h : ∀ j, j < d → x j = x' j) (i : Nat) (k : Int) :
    ∀ j, j < d → bump x i k j = bump x' i k j := by
  intro j hj
  by_cases e : j = i
  · subst e; simp only [bump, Function.update_self, h j hj]
  · simp only [bump, Function.update_of_ne e, h j hj]

theorem pointKernel_reads (d : Nat) (dx : Nat → T) (k l : Nat) (f : (Nat → Int) → T → T → T)
    (hf : ∀ x x', (∀ j, j < d → x j = x' j) → f x = f x') : ReadsOnly d [(k, 0), (l, 1)] (pointKernel d dx k l f) := by
  intro A B x x' hx h
  have h0 := h (k, 0) (by simp) x x' hx (near_self (le_refl _) x)
  have h1 := h (l, 1) (by simp) x x' hx (near_self (show (0:Int) ≤ 1 by decide) x)
  have h2 : ∀ i v, (v = 1 ∨ v = -1) → A l (bump x i v) = B l (bump x' i v) :=
    fun i v hv => h (l, 1) (by simp) _ _ (bump_same hx i v) (near_bump x i hv)
  simp only [pointKernel, lapKernel] at h0 h1 ⊢
  rw [h0, h1, hf x x' hx]
  cases B k x' <;> simp only [Outcome.ok_bind, Outcome.ub_bind, Outcome.abort_bind]
  cases B l x' <;> simp only [Outcome.ok_bind, Outcome.ub_bind, Outcome.abort_bind]
  rw [lapLoop_congr _ _ _ x' _ _ fun i _ => ⟨h2 i 1 (Or.inl rfl), h2 i (-1) (Or.inr rfl)⟩]

theorem pointKernel_keeps (d : Nat) (dx : Nat → T) (k l dst : Nat) (f : (Nat → Int) → T → T → T) :
    Keeps d (fun _ _ => True) [(k, 0), (l, 1)] dst (pointKernel d dx k l f) := by
  intro A x h
  obtain ⟨phi, _, e0⟩ := h (k, 0) (by simp) x (near_self (le_refl _) x)
  obtain ⟨y, _, e1⟩ := h (l, 1) (by simp) x (near_self (show (0:Int) ≤ 1 by decide) x)
  have hex : ∀ z, ∃ v, Near d 1 x z → A l z = .ok v := by
    intro z
    by_cases hz : Near d 1 x z
    · obtain ⟨v, _, e⟩ := h (l, 1) (by simp) z hz; exact ⟨v, fun _ => e⟩
    · exact ⟨y, fun hz' => absurd hz' hz⟩
  obtain ⟨F, hF⟩ := Classical.axiomOfChoice hex
  have hL := lapLoop_eq (at' := A l) (F := F) (fun i => lapWeight (dx i)) y x (List.range d) 0
    (fun i _ => ⟨hF _ (near_bump x i (Or.inl rfl)), hF _ (near_bump x i (Or.inr rfl))⟩)
  have e : ∃ v, pointKernel d dx k l f A x = .ok v := by
    simp only [pointKernel, lapKernel] at e0 e1 ⊢
    rw [e0, Outcome.ok_bind, e1, Outcome.ok_bind, hL, Outcome.ok_bind]
    exact ⟨_, rfl⟩
  exact e.imp fun _ e => ⟨trivial, e⟩

/-! ## The programs -/

/-- What is known at the top of the time loop: `oldGrid` and its ghosts. -/
def oldKnown : Known := ⟨fun k => k = 0, fun k => k = 0⟩

theorem allenCahn_disciplined (d : Nat) {gh : Int} (hgh : 1 ≤ gh) (dx : Nat → T) (f : T → T → T) :
    Disciplined d gh (fun _ _ => True) oldKnown (allenCahn d dx f) oldKnown := by
  refine .loop [(0, 0), (0, 1)] (pointKernel_reads d dx 0 0 _ fun _ _ _ => rfl) (pointKernel_keeps d dx 0 0 _ _) (by simp) ?_
    (.swap rfl (.ghostswap ?_ (.nil ⟨?_, ?_⟩)))
  · intro q hq; simp at hq; rcases hq with rfl | rfl
    · exact Or.inl ⟨rfl, rfl⟩
    · exact Or.inr ⟨hgh, rfl⟩
  · exact Or.inr rfl
  · rintro k rfl; exact Or.inr rfl
  · rintro k rfl; exact Or.inr rfl

theorem cahnHilliard_disciplined (d : Nat) {gh : Int} (hgh : 1 ≤ gh) (dx : Nat → T) (mu f : T → T → T) :
    Disciplined d gh (fun _ _ => True) oldKnown (cahnHilliard d dx mu f) oldKnown := by
  refine .loop [(0, 0), (0, 1)] (pointKernel_reads d dx 0 0 _ fun _ _ _ => rfl) (pointKernel_keeps d dx 0 0 _ _) (by simp) ?_
    (.ghostswap (Or.inr rfl) (.loop [(0, 0), (2, 1)] (pointKernel_reads d dx 0 2 _ fun _ _ _ => rfl)
      (pointKernel_keeps d dx 0 2 _ _) (by simp) ?_ (.swap rfl (.ghostswap ?_ (.nil ⟨?_, ?_⟩)))))
  · intro q hq; simp at hq; rcases hq with rfl | rfl
    · exact Or.inl ⟨rfl, rfl⟩
    · exact Or.inr ⟨hgh, rfl⟩
  · intro q hq; simp at hq; rcases hq with rfl | rfl
    · exact Or.inl ⟨rfl, Or.inl rfl⟩
    · exact Or.inr ⟨hgh, Or.inr rfl⟩
  · exact Or.inr rfl
  · rintro k rfl; exact Or.inr rfl
  · rintro k rfl; exact Or.inr rfl

variable {c : Codec T} {w : World} {np : Nat}

/-- **C50, Allen-Cahn.** After any number of steps on any number of ranks `oldGrid` holds, node by node, what the serial program
computes, with any of the physical boundary conditions on the outer faces and whatever the other grid contained. -/
theorem allenCahn_parallel (h : w.Ok np) (hgh : 1 ≤ w.ghosts) (dx : Nat → T) (f : T → T → T) (steps : Nat) {σ : Grids T}
    {D : Int → Grids T} (hF : SameField w np σ D 0) :
    ∃ σ' D', serialRun w.serial (allenCahnUpdate w.d dx f steps) σ = .ok σ' ∧
      Finished np (mpiRun (fun _ => primCell c) w (allenCahnUpdate w.d dx f steps) fun r => .ok (D r)) D' ∧ SameField w np σ' D' 0 := by
  have hd : Disciplined w.d w.ghosts (fun _ (_ : T) => True) ⟨fun k => k = 0, fun _ => False⟩ (allenCahnUpdate w.d dx f steps) oldKnown :=
    .ghostswap rfl (((allenCahn_disciplined w.d hgh dx f).steps steps).mono ⟨fun _ => id, fun _ hk => Or.inr hk⟩)
  obtain ⟨σ', D', e1, e2, hA, _⟩ := parallel_eq_serial (fun _ => primCell_roundTrips c) (fun _ _ _ => trivial) h hd (σ := σ) (D := D)
    (S := fun r => .ok (D r)) (fun _ _ => rfl) ⟨fun k hk => hk ▸ hF, fun _ hk => hk.elim⟩
    (fun _ => ⟨fun _ _ _ => trivial, fun _ _ _ _ _ => trivial⟩)
  exact ⟨σ', D', e1, e2, hA.same 0 rfl⟩

/-- **C50, Cahn-Hilliard.** The same for the two-stage update with an auxiliary grid. -/
theorem cahnHilliard_parallel (h : w.Ok np) (hgh : 1 ≤ w.ghosts) (dx : Nat → T) (mu f : T → T → T) (steps : Nat) {σ : Grids T}
    {D : Int → Grids T} (hF : SameField w np σ D 0) :
    ∃ σ' D', serialRun w.serial (cahnHilliardUpdate w.d dx mu f steps) σ = .ok σ' ∧
      Finished np (mpiRun (fun _ => primCell c) w (cahnHilliardUpdate w.d dx mu f steps) fun r => .ok (D r)) D' ∧
      SameField w np σ' D' 0 := by
  have hd : Disciplined w.d w.ghosts (fun _ (_ : T) => True) ⟨fun k => k = 0, fun _ => False⟩
      (cahnHilliardUpdate w.d dx mu f steps) oldKnown :=
    .ghostswap rfl (((cahnHilliard_disciplined w.d hgh dx mu f).steps steps).mono ⟨fun _ => id, fun _ hk => Or.inr hk⟩)
  obtain ⟨σ', D', e1, e2, hA, _⟩ := parallel_eq_serial (fun _ => primCell_roundTrips c) (fun _ _ _ => trivial) h hd (σ := σ) (D := D)
    (S := fun r => .ok (D r)) (fun _ _ => rfl) ⟨fun k hk => hk ▸ hF, fun _ hk => hk.elim⟩
    (fun _ => ⟨fun _ _ _ => trivial, fun _ _ _ _ _ => trivial⟩)
  exact ⟨σ', D', e1, e2, hA.same 0 rfl⟩

end Kernels

/-! ## Examples and the role of the hypotheses -/

/-- 6 ranks (2 × 3) on an 8 × 9 grid with 2 ghost layers, mirror and Neumann faces on the first axis, periodic second axis. -/
def sampleWorld : World :=
  { sampleSetup with
    B0 := fun j => if j = 0 then .mirror else .periodic
    B1 := fun j => if j = 0 then .neumann else .periodic }

theorem sampleWorld_ok : sampleWorld.Ok 6 := by
  refine ⟨sampleSetup_ok, fun j _ => ?_, fun j hj hm r hr => ?_⟩
  · simp only [sampleWorld]; split <;> decide
  · have hj0 : j = 0 := by
      by_contra hne
      simp only [sampleWorld, if_neg hne] at hm
      rcases hm with h | h <;> cases h
    subst hj0
    have hr' : r = 0 ∨ r = 1 ∨ r = 2 ∨ r = 3 ∨ r = 4 ∨ r = 5 := by have := hr.1; have := hr.2; omega
    rcases hr' with rfl | rfl | rfl | rfl | rfl | rfl <;> decide +kernel

example : sampleWorld.Ok 6 ∧ 1 ≤ sampleWorld.ghosts ∧ (primCell byteCodec).Valid 7 ∧
    SameField sampleWorld 6 (fun _ _ => (7 : Byte)) (fun _ _ _ => 7) 0 :=
  ⟨sampleWorld_ok, by decide, trivial, fun _ _ _ _ => rfl⟩

/-- Two ranks with two nodes each. -/
def smallWorld : World :=
  { d := 1, g0 := fun _ => 0, g1 := fun _ => 4, ghosts := 1, p := fun _ => 2, B0 := fun _ => .periodic, B1 := fun _ => .periodic }

/-- **C50, necessity.** The same time loop without `ghostswap(oldGrid)` after the swap: from equal fields with up-to-date ghosts, the
parallel program has a different value at node 1 after two steps. -/
theorem missing_ghostswap_differs :
    let prog : List (Stmt Byte) := repeatProg [.loop 1 (pointKernel 1 (fun _ => 1) 0 0 fun _ a l => a + l), .swap 0 1] 2
    let F : Int → Byte := fun x => if x = 2 then 1 else 0
    let σ : Grids Byte := fun _ o => F o
    let D : Int → Grids Byte := fun r _ o => F ((2 * r + o - 1) % 4)
    (serialRun smallWorld.serial prog σ).bind (fun σ => .ok (cellAt smallWorld.serial (σ 0) fun _ => 1)) = .ok 254 ∧
    (mpiRun (fun _ => primCell byteCodec) smallWorld prog (fun r => .ok (D r)) 0).bind
      (fun τ => .ok (cellAt (smallWorld.shape 0) (τ 0) fun _ => 1)) = .ok 0 := by
  decide +kernel

end MMSP.ParallelRun
