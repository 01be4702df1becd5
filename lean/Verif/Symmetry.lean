import Verif.ParallelExamplesProps
/-!
# Symmetries of the update programs

How the update loops of `Verif.ParallelRun` and `Verif.ParallelExamples` behave when the initial field is moved: shifted on periodic axes, moved to other coordinates, reflected, with
axes exchanged, or with another value in every cell (a change of sign). The programs are those of C50; there is no new model here.
-/

namespace MMSP.Symmetry

open MMSP.Stencil MMSP.ParallelRun

variable {V : Type}

/-! ## Specification -/

/-- A way to move the nodes of a grid `g'` to those of a grid `g`: axis `j` of `g` is axis `axis j` of `g'`, run in the same direction (`sign j = 1`) or in the opposite one, and
`map j` moves the coordinates. -/
structure Motion where
  axis : Equiv.Perm Nat
  sign : Nat → Int
  map : Nat → Int → Int

namespace Motion

/-- Where a node goes. -/
def pt (m : Motion) (x : Nat → Int) : Nat → Int := fun j => m.map j (x (m.axis j))

/-- Neighbours up to the distance `ρ` of a node go to the neighbours of its image, also across the boundary. -/
structure Ok (m : Motion) (ρ : Int) (g g' : Shape) : Prop where
  dim : g'.dim = g.dim
  axes : ∀ j, m.axis j < g.dim ↔ j < g.dim
  sign : ∀ j, m.sign j = 1 ∨ m.sign j = -1
  node : ∀ j, j < g.dim → ∀ a, OnAxis (g'.x0 (m.axis j)) (g'.x1 (m.axis j)) a → OnAxis (g.x0 j) (g.x1 j) (m.map j a)
  step : ∀ j, j < g.dim → ∀ a, OnAxis (g'.x0 (m.axis j)) (g'.x1 (m.axis j)) a → ∀ t, -ρ ≤ t → t ≤ ρ →
    checkBoundary .serial (m.map j a + m.sign j * t) (g.x0 j) (g.x1 j) (g.b0 j) (g.b1 j) =
      m.map j (checkBoundary .serial (a + t) (g'.x0 (m.axis j)) (g'.x1 (m.axis j)) (g'.b0 (m.axis j)) (g'.b1 (m.axis j)))

/-- The affine maps with the directions of the motion. -/
def affine (m : Motion) (c : Nat → Int) (y : Nat → Int) : Nat → Int := fun j => c j + m.sign j * y (m.axis j)

end Motion

/-- A grid of a serial program whose accesses up to the distance `ρ` from a node reach nodes. -/
structure Reach (ρ : Int) (g : Shape) : Prop where
  wf : g.Wf
  ghosts : g.ghosts = 0
  pos : 0 ≤ ρ
  step : ∀ j, j < g.dim → ∀ a, OnAxis (g.x0 j) (g.x1 j) a → ∀ t, -ρ ≤ t → t ≤ ρ →
    OnAxis (g.x0 j) (g.x1 j) (checkBoundary .serial (a + t) (g.x0 j) (g.x1 j) (g.b0 j) (g.b1 j))

/-- The right-hand side `kern'` returns the changed value of what `kern` returns, if it reads at the moved places the changed values. -/
def Follows (m : Motion) (T : V → V) (kern kern' : Kernel V) : Prop :=
  ∀ c (F : Nat → (Nat → Int) → V) x, kern' (fun k y => .ok (T (F k (m.affine c y)))) x = (kern (fun k y => .ok (F k y)) (m.affine c x)).bind fun v => .ok (T v)

/-- Statements that differ only in that the right-hand side of the second follows that of the first. -/
inductive Twin (m : Motion) (T : V → V) : Stmt V → Stmt V → Prop
  | loop (dst : Nat) {kern kern' : Kernel V} (h : Follows m T kern kern') : Twin m T (.loop dst kern) (.loop dst kern')
  | swap (a b : Nat) : Twin m T (.swap a b) (.swap a b)
  | ghostswap (a : Nat) : Twin m T (.ghostswap a) (.ghostswap a)

/-- The array `b` on `g'` holds, node by node, the changed value that the array `a` on `g` holds at the moved place. -/
def Moved (m : Motion) (T : V → V) (g g' : Shape) (a b : Int → V) : Prop := ∀ x, g'.IsNode x → cellAt g' b x = T (cellAt g a (m.pt x))

/-! ## Accesses -/

section
variable {m : Motion} {T : V → V} {ρ : Int} {g g' : Shape}

theorem pt_isNode (h : m.Ok ρ g g') {x : Nat → Int} (hx : g'.IsNode x) : g.IsNode (m.pt x) :=
  fun j hj => h.node j hj _ (hx _ (h.dim ▸ (h.axes j).mpr hj))

theorem gridAt_ok (hg : Reach ρ g) (data : Int → V) {x y : Nat → Int} (hx : g.IsNode x)
    (h : ∀ j, j < g.dim → checkBoundary .serial (y j) (g.x0 j) (g.x1 j) (g.b0 j) (g.b1 j) = x j) : gridAt .serial g data y = .ok (cellAt g data x) := by
  have b := Shape.rawOffset_bounds hg.wf (isCell_of_isNode hg.wf.ghosts hx)
  unfold gridAt deref cellAt
  rw [Shape.atVec_eq_raw .serial h, if_pos b]

/-- What an access at `y` reaches. -/
def wrap (g : Shape) (y : Nat → Int) : Nat → Int := fun j => checkBoundary .serial (y j) (g.x0 j) (g.x1 j) (g.b0 j) (g.b1 j)

theorem near_reach (hg : Reach ρ g) {x y : Nat → Int} (hx : g.IsNode x) (hy : Near g.dim ρ x y) :
    g.IsNode (wrap g y) := by
  intro j hj
  have h1 := hy j hj
  have := hg.step j hj (x j) (hx j hj) (y j - x j) (by omega) (by omega)
  rwa [show x j + (y j - x j) = y j by omega] at this

/-- The affine map that takes `x` to its image. -/
def centre (m : Motion) (x : Nat → Int) : Nat → Int := fun j => m.pt x j - m.sign j * x (m.axis j)

theorem affine_centre (m : Motion) (x : Nat → Int) : m.affine (centre m x) x = m.pt x := by
  funext j; simp only [Motion.affine, centre]; omega

/-- What is reached from near `x` on `g'` goes to what is reached from the corresponding place near the image of `x` on `g`. -/
theorem wrap_moved (h : m.Ok ρ g g') {x : Nat → Int} (hx : g'.IsNode x) {y : Nat → Int} (hn : Near g.dim ρ x y) :
    ∀ j, j < g.dim → wrap g (m.affine (centre m x) y) j = m.pt (wrap g' y) j := by
  intro j hj
  have hj' := (h.axes j).mpr hj
  have h1 := hn _ hj'
  have := h.step j hj _ (hx _ (h.dim ▸ hj')) (y (m.axis j) - x (m.axis j)) (by omega) (by omega)
  simp only [wrap, Motion.pt, Motion.affine, centre]
  rw [show x (m.axis j) + (y (m.axis j) - x (m.axis j)) = y (m.axis j) by omega] at this
  rw [← this, Int.mul_sub]
  congr 1
  omega

/-- A right-hand side that follows another one does so as soon as what is read corresponds. -/
theorem follows_near {d : Nat} {reads reads' : List (Nat × Int)} {kern kern' : Kernel V} (only : ReadsOnly d reads kern) (only' : ReadsOnly d reads' kern') (hf : Follows m T kern kern')
    {A B : Nat → (Nat → Int) → Outcome V} {F : Nat → (Nat → Int) → V} {x : Nat → Int}
    (h : ∀ q ∈ reads, ∀ z z', (∀ j, j < d → z j = z' j) → Near d q.2 (m.pt x) z → B q.1 z = .ok (F q.1 z'))
    (h' : ∀ q ∈ reads', ∀ y y', (∀ j, j < d → y j = y' j) → Near d q.2 x y → A q.1 y = .ok (T (F q.1 (m.affine (centre m x) y')))) :
    kern' A x = (kern B (m.pt x)).bind fun v => .ok (T v) := by
  rw [only' A (fun k y => .ok (T (F k (m.affine (centre m x) y)))) x x (fun _ _ => rfl) h', hf, affine_centre,
    only B (fun k y => .ok (F k y)) (m.pt x) (m.pt x) (fun _ _ => rfl) h]

/-! ## Runs -/

variable {P : Nat → V → Prop}

theorem loop_moves (h : m.Ok ρ g g') (hg : Reach ρ g) (hg' : Reach ρ g') {K : Known} {dst : Nat} {kern kern' : Kernel V} {reads : List (Nat × Int)} (only : ReadsOnly g.dim reads kern)
    (keeps : Keeps g.dim P reads dst kern) (ownDst : ∀ q ∈ reads, q.1 = dst → q.2 = 0) (range : ∀ q ∈ reads, (q.2 = 0 ∧ K.f q.1) ∨ (q.2 ≤ ρ ∧ K.s q.1))
    {reads' : List (Nat × Int)} (only' : ReadsOnly g.dim reads' kern') (ownDst' : ∀ q ∈ reads', q.1 = dst → q.2 = 0)
    (range' : ∀ q ∈ reads', (q.2 = 0 ∧ K.f q.1) ∨ (q.2 ≤ ρ ∧ K.s q.1)) (hf : Follows m T kern kern')
    {σ τ : Grids V} (hP : ∀ k o, 0 ≤ o → o < g.cells → P k (σ k o)) (hM : ∀ k, K.f k ∨ K.s k → Moved m T g g' (σ k) (τ k)) :
    ∃ σ' τ', runLoop .serial g dst kern σ = .ok σ' ∧ runLoop .serial g' dst kern' τ = .ok τ' ∧ (∀ k o, 0 ≤ o → o < g.cells → P k (σ' k o)) ∧
      ∀ k, (K.afterLoop dst).f k ∨ (K.afterLoop dst).s k → Moved m T g g' (σ' k) (τ' k) := by
  have hρ : ∀ q ∈ reads, q.2 ≤ ρ := fun q hq => by
    have := hg.pos
    rcases range q hq with ⟨e, _⟩ | ⟨e, _⟩ <;> omega
  have hρ' : ∀ q ∈ reads', q.2 ≤ ρ := fun q hq => by
    have := hg.pos
    rcases range' q hq with ⟨e, _⟩ | ⟨e, _⟩ <;> omega
  have hK : ∀ q ∈ reads', K.f q.1 ∨ K.s q.1 := fun q hq => (range' q hq).imp And.right And.right
  let cut : (Nat → Int) → Nat → Int := fun x j => if j < g.dim then x j else 0
  have hcut : ∀ x, ∀ j, j < g.dim → cut x j = x j := fun x j hj => if_pos hj
  have hcutN : ∀ {x}, g.IsNode x → g.IsNode (cut x) := fun {x} hx j hj => by rw [hcut x j hj]; exact hx j hj
  have hcut' : ∀ x y, (∀ j, j < g.dim → x j = y j) → cut x = cut y := by
    intro x y hxy; funext j; simp only [cut]; split
    · exact hxy j ‹_›
    · rfl
  have hex : ∀ x, ∃ v, g.IsNode x → P dst v ∧ kern (fun k => gridAt .serial g (σ k)) x = .ok v := by
    intro x
    by_cases hx : g.IsNode x
    · obtain ⟨v, hv⟩ := keeps (fun k => gridAt .serial g (σ k)) x (by
        intro q hq y hy
        have hN := near_reach hg hx (y := y) fun j hj => by have := hy j hj; have := hρ q hq; omega
        have b := Shape.rawOffset_bounds hg.wf (isCell_of_isNode hg.wf.ghosts hN)
        exact ⟨_, hP q.1 _ b.1 b.2, gridAt_ok hg (σ q.1) hN fun _ _ => rfl⟩)
      exact ⟨v, fun _ => hv⟩
    · exact ⟨σ 0 0, fun hx' => absurd hx' hx⟩
  obtain ⟨val, hval⟩ := Classical.axiomOfChoice hex
  obtain ⟨σ', e1, o1, v1, p1⟩ := runLoop_cells (bd := .serial) hg.wf (fun _ => hg.ghosts) (dst := dst) (kern := kern) (σ := σ) (val := fun x => val (cut x))
    (fun x y hxy => by rw [hcut' x y hxy])
    (by
      intro τ hτ x hx hown
      rw [← (hval _ (hcutN hx)).2]
      exact only _ _ _ _ (fun j hj => (hcut x j hj).symm) fun q hq y y' hy hn => by
        rw [reread hτ hx hown (ownDst q hq) hn]; exact gridAt_congr _ hy)
    (P := P dst) (hP dst) (fun x hx => (hval _ (hcutN hx)).1)
  have hpt : ∀ x y, g'.SamePoint x y → cut (m.pt x) = cut (m.pt y) := fun x y hxy => hcut' _ _ fun j hj => by
    simp only [Motion.pt]; rw [hxy _ (h.dim ▸ (h.axes j).mpr hj)]
  obtain ⟨τ', e2, o2, v2, _⟩ := runLoop_cells (bd := .serial) hg'.wf (fun _ => hg'.ghosts) (dst := dst) (kern := kern') (σ := τ) (val := fun x => T (val (cut (m.pt x))))
    (fun x y hxy => by rw [hpt x y hxy])
    (by
      intro τ1 hτ x hx hown
      have e : kern (fun k => gridAt .serial g (σ k)) (m.pt x) = .ok (val (cut (m.pt x))) := by
        rw [← (hval _ (hcutN (pt_isNode h hx))).2]
        exact only _ _ _ _ (fun j hj => (hcut _ j hj).symm) fun q hq y y' hy hn => gridAt_congr _ hy
      rw [follows_near only only' hf (B := fun k => gridAt .serial g (σ k)) (F := fun k z => cellAt g (σ k) (wrap g z)) ?_ ?_, e, Outcome.ok_bind]
      · intro q hq z z' hz hn
        have hn' : Near g.dim ρ (m.pt x) z' := fun j hj => by have := hn j hj; have := hρ q hq; have := hz j hj; omega
        refine gridAt_ok hg (σ q.1) (near_reach hg (pt_isNode h hx) hn') fun j hj => by rw [hz j hj]; rfl
      · intro q hq y y' hy hn
        beta_reduce
        rw [reread hτ hx hown (ownDst' q hq) (ρ := q.2) (h.dim ▸ hn)]
        have hn' : Near g.dim ρ x y' := fun j hj => by have := hn j hj; have := hρ' q hq; have := hy j hj; omega
        have hN := near_reach hg' hx (y := y') (h.dim ▸ hn')
        rw [gridAt_ok hg' (τ q.1) hN fun j hj => by rw [hy j (h.dim ▸ hj)]; rfl, hM _ (hK q hq) _ hN]
        unfold cellAt
        rw [rawOffset_congr fun j hj => (wrap_moved h hx hn' j hj).symm])
    (P := fun _ => True) (fun _ _ _ => trivial) (fun _ _ => trivial)
  refine ⟨σ', τ', e1, e2, ?_, ?_⟩
  · intro k
    by_cases hk : k = dst
    · subst hk; exact p1
    · rw [o1 k hk]; exact hP k
  · intro k hk x hx
    by_cases e : k = dst
    · subst e; rw [v2 x hx, v1 _ (pt_isNode h hx)]
    · rw [o1 k e, o2 k e]
      exact hM k (hk.imp (fun hk => hk.resolve_right e) And.left) x hx

/-- **C108.** A program that keeps the discipline of C50 and its twin: from initial fields that correspond under the motion, the two runs return fields that correspond, and neither run
fails. Nothing is assumed about the arithmetic. -/
theorem run_moves (h : m.Ok ρ g g') (hg : Reach ρ g) (hg' : Reach ρ g') {K K' K'' : Known} {P' : Nat → V → Prop} {prog prog' : List (Stmt V)} (hp : Disciplined g.dim ρ P K prog K')
    (hp' : Disciplined g.dim ρ P' K prog' K'') (ht : List.Forall₂ (Twin m T) prog prog') {σ τ : Grids V} (hP : ∀ k o, 0 ≤ o → o < g.cells → P k (σ k o)) (hM : ∀ k, K.f k ∨ K.s k → Moved m T g g' (σ k) (τ k)) :
    ∃ σ' τ', serialRun g prog σ = .ok σ' ∧ serialRun g' prog' τ = .ok τ' ∧ (∀ k o, 0 ≤ o → o < g.cells → P k (σ' k o)) ∧
      ∀ k, K'.f k ∨ K'.s k → Moved m T g g' (σ' k) (τ' k) := by
  induction hp generalizing σ τ prog' K'' with
  | nil le =>
    cases ht
    exact ⟨σ, τ, rfl, rfl, hP, fun k hk => hM k (hk.imp (le.1 k) (le.2 k))⟩
  | loop reads only keeps ownDst range tail ih =>
    cases ht with
    | cons a t =>
      cases a with
      | loop _ hf =>
        cases hp' with
        | loop reads' only' keeps' ownDst' range' tail' =>
          obtain ⟨σ1, τ1, e1, e2, hP1, hM1⟩ := loop_moves h hg hg' only keeps ownDst range only' ownDst' range' hf hP hM
          obtain ⟨σ', τ', f1, f2, r⟩ := ih tail' t hP1 hM1
          refine ⟨σ', τ', ?_, ?_, r⟩
          · unfold serialRun at f1 ⊢; rw [List.foldlM_cons, serialStmt, e1]; exact f1
          · unfold serialRun at f2 ⊢; rw [List.foldlM_cons, serialStmt, e2]; exact f2
  | swap alike tail ih =>
    rename_i K0 K0' a b rest
    cases ht with
    | cons s t =>
      cases s with
      | swap _ _ =>
        have e : ∀ (τ : Grids V) k, swapGrids a b τ k = τ (if k = a then b else if k = b then a else k) := by
          intro τ k; unfold swapGrids; split_ifs <;> rfl
        obtain ⟨tail'⟩ : Nonempty (Disciplined g.dim ρ P' (K0.afterSwap a b) _ K'') := by cases hp' with | swap _ t => exact ⟨t⟩
        refine ih tail' t (σ := swapGrids a b σ) (τ := swapGrids a b τ) ?_ ?_
        · intro k; rw [e]
          have : P k = P (if k = a then b else if k = b then a else k) := by split_ifs <;> simp_all
          rw [this]; exact hP _
        · intro k hk; rw [e, e]
          refine hM _ ?_
          simp only [Known.afterSwap] at hk
          split_ifs at hk ⊢ <;> exact hk
  | ghostswap known tail ih =>
    cases ht with
    | cons s t =>
      cases s with
      | ghostswap _ =>
        cases hp' with
        | ghostswap _ tail' => exact ih tail' t hP fun k hk => hk.elim (fun hk => hM k (Or.inl hk)) fun hk => hk.elim (fun hk => hM k (Or.inr hk)) fun e => hM k (Or.inl (e ▸ known))

end

end MMSP.Symmetry
