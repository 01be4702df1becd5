import Verif.Symmetry
import Mathlib.Tactic.Ring
/-!
# Moving the initial field moves the result

The update programs of the deterministic examples on periodic axes: no node is special.
-/

namespace MMSP.Symmetry

open MMSP.Stencil MMSP.ParallelRun MMSP.Ghost

variable {V : Type}

/-! ## Specification -/

/-- The node of `g` from which node `x` of `g'` takes its value: `v` nodes further on, counted from the first node of the grid and round the axis. -/
def shiftPt (g g' : Shape) (v : Nat → Int) (x : Nat → Int) : Nat → Int := fun j => g.x0 j + (x j - g'.x0 j + v j) % (g.x1 j - g.x0 j)

/-- The array `b` on `g'` holds the field of the array `a` on `g`, shifted by `v`. -/
def Shifted (g g' : Shape) (v : Nat → Int) (a b : Int → V) : Prop := ∀ x, g'.IsNode x → cellAt g' b x = cellAt g a (shiftPt g g' v x)

/-- A grid of a serial program whose sides are not shorter than the stencil (longer, on axes with a mirror). -/
structure Room (ρ : Int) (g : Shape) : Prop where
  wf : g.Wf
  ghosts : g.ghosts = 0
  pos : 0 ≤ ρ
  outer : ∀ j, j < g.dim → g.b0 j ≠ .parallel ∧ g.b1 j ≠ .parallel
  side : ∀ j, j < g.dim → ρ ≤ g.x1 j - g.x0 j
  mirror : ∀ j, j < g.dim → g.b0 j = .mirror ∨ g.b1 j = .mirror → ρ < g.x1 j - g.x0 j

/-- `g'` is `g` at other coordinates; the shift moves along periodic axes only. -/
structure ShiftOk (g g' : Shape) (v : Nat → Int) : Prop where
  dim : g'.dim = g.dim
  side : ∀ j, j < g.dim → g'.x1 j - g'.x0 j = g.x1 j - g.x0 j
  lower : ∀ j, j < g.dim → g'.b0 j = g.b0 j
  upper : ∀ j, j < g.dim → g'.b1 j = g.b1 j
  periodic : ∀ j, j < g.dim → v j = 0 ∨ (g.b0 j = .periodic ∧ g.b1 j = .periodic)

/-- A part of a right-hand side that depends on the node only through what it reads around it. -/
def Shifts {W : Type} (F : (Nat → Access V) → (Nat → Int) → Outcome W) : Prop := ∀ (c : Nat → Int) A x, F (fun k y => A k fun j => c j + y j) x = F A fun j => c j + x j

/-- Every loop of the program is such. -/
def Homogeneous (prog : List (Stmt V)) : Prop := ∀ dst kern, Stmt.loop dst kern ∈ prog → Shifts kern

/-! ## Grids -/

theorem axis_inside {x0 x1 : Int} {b0 b1 : BC} (h0 : b0 ≠ .parallel) (h1 : b1 ≠ .parallel) {ρ : Int} (hne : x0 < x1) (hρ : ρ ≤ x1 - x0)
    (hm : b0 = .mirror ∨ b1 = .mirror → ρ < x1 - x0) {a : Int} (ha : OnAxis x0 x1 a) {t : Int} (ht0 : -ρ ≤ t) (ht1 : t ≤ ρ) :
    OnAxis x0 x1 (checkBoundary .serial (a + t) x0 x1 b0 b1) := by
  unfold OnAxis at ha ⊢
  unfold checkBoundary
  cases b0 <;> cases b1 <;> simp at h0 h1 hm ⊢ <;> split_ifs <;> omega

theorem Room.reach {ρ : Int} {g : Shape} (h : Room ρ g) : Reach ρ g where
  wf := h.wf
  ghosts := h.ghosts
  pos := h.pos
  step := fun j hj _ ha _ ht0 ht1 => axis_inside (h.outer j hj).1 (h.outer j hj).2 (h.wf.side j hj) (h.side j hj) (h.mirror j hj) ha ht0 ht1

theorem ShiftOk.room {ρ : Int} {g g' : Shape} {v : Nat → Int} (h : ShiftOk g g' v) (hg : Room ρ g) (h0 : g'.ghosts = 0) : Room ρ g' where
  wf := ⟨h.dim ▸ hg.wf.dim_pos, fun j hj => by have := h.side j (h.dim ▸ hj); have := hg.wf.side j (h.dim ▸ hj); omega, by omega⟩
  ghosts := h0
  pos := hg.pos
  outer := fun j hj => by rw [h.lower j (h.dim ▸ hj), h.upper j (h.dim ▸ hj)]; exact hg.outer j (h.dim ▸ hj)
  side := fun j hj => by rw [h.side j (h.dim ▸ hj)]; exact hg.side j (h.dim ▸ hj)
  mirror := fun j hj => by rw [h.side j (h.dim ▸ hj), h.lower j (h.dim ▸ hj), h.upper j (h.dim ▸ hj)]; exact hg.mirror j (h.dim ▸ hj)

theorem emod_of {u n q r : Int} (e : u = r + n * q) (h0 : 0 ≤ r) (h1 : r < n) : u % n = r := by
  rw [e, Int.add_mul_emod_self_left, Int.emod_eq_of_lt h0 h1]

theorem axis_shift {x0 x1 y0 y1 : Int} {b0 b1 : BC} (h0 : b0 ≠ .parallel) (h1 : b1 ≠ .parallel) {ρ : Int} (hne : x0 < x1) (hρ : ρ ≤ x1 - x0)
    (hm : b0 = .mirror ∨ b1 = .mirror → ρ < x1 - x0) (hs : y1 - y0 = x1 - x0) {v : Int} (hv : v = 0 ∨ (b0 = .periodic ∧ b1 = .periodic)) {a : Int} (ha : OnAxis y0 y1 a) {t : Int}
    (ht0 : -ρ ≤ t) (ht1 : t ≤ ρ) :
    checkBoundary .serial (x0 + (a - y0 + v) % (x1 - x0) + 1 * t) x0 x1 b0 b1 = x0 + (checkBoundary .serial (a + t) y0 y1 b0 b1 - y0 + v) % (x1 - x0) := by
  have hin := axis_inside h0 h1 (show y0 < y1 by omega) (by omega : ρ ≤ y1 - y0) (fun h => by have := hm h; omega) ha ht0 ht1
  unfold OnAxis at ha hin
  rcases hv with rfl | ⟨rfl, rfl⟩
  · rw [emod_of (q := 0) (r := a - y0) (by ring) (by omega) (by omega), emod_of (q := 0) (r := checkBoundary .serial (a + t) y0 y1 b0 b1 - y0) (by ring) (by omega) (by omega)]
    unfold checkBoundary
    cases b0 <;> cases b1 <;> simp at h0 h1 hm ⊢ <;> split_ifs <;> omega
  · obtain ⟨n, hn⟩ : ∃ n, n = x1 - x0 := ⟨_, rfl⟩
    rw [← hn]
    have hn0 : n ≠ 0 := by omega
    obtain ⟨r, hr⟩ : ∃ r, r = (a - y0 + v) % n := ⟨_, rfl⟩
    have hr0 : 0 ≤ r := hr ▸ Int.emod_nonneg _ hn0
    have hr1 : r < n := hr ▸ Int.emod_lt_of_pos _ (by omega)
    have hq : a - y0 + v = r + n * ((a - y0 + v) / n) := by rw [hr]; exact (Int.emod_add_mul_ediv _ _).symm
    generalize (a - y0 + v) / n = q at hq
    rw [← hr]
    have key : ∀ u e : Int, u = a + t + n * e → 0 ≤ r + t → r + t < n → x0 + (u - y0 + v) % n = x0 + (r + t) := fun u e hu h0 h1 => by
      rw [emod_of (q := q + e) (r := r + t) (by rw [hu, Int.mul_add]; omega) h0 h1]
    have key1 : ∀ u e : Int, u = a + t + n * e → r + t < 0 → x0 + (u - y0 + v) % n = x0 + (r + t) + n := fun u e hu h0 => by
      rw [emod_of (q := q + e - 1) (r := r + t + n) (by rw [hu, Int.mul_sub, Int.mul_add]; omega) (by omega) (by omega)]; omega
    have key2 : ∀ u e : Int, u = a + t + n * e → n ≤ r + t → x0 + (u - y0 + v) % n = x0 + (r + t) - n := fun u e hu h0 => by
      rw [emod_of (q := q + e + 1) (r := r + t - n) (by rw [hu, Int.mul_add, Int.mul_add]; omega) (by omega) (by omega)]; omega
    obtain ⟨e, he⟩ : ∃ e, checkBoundary .serial (a + t) y0 y1 .periodic .periodic = a + t + n * e := by
      unfold checkBoundary
      simp only [reduceCtorEq, or_self, if_false, if_true, and_self]
      split_ifs
      · exact ⟨1, by omega⟩
      · exact ⟨-1, by omega⟩
      · exact ⟨0, by omega⟩
    generalize checkBoundary .serial (a + t) y0 y1 .periodic .periodic = u at he
    unfold checkBoundary
    simp only [reduceCtorEq, or_self, if_false, if_true, and_self]
    split_ifs
    · rw [key1 u e he (by omega)]; omega
    · rw [key2 u e he (by omega)]; omega
    · rw [key u e he (by omega) (by omega)]; omega

/-- The shift as a motion. -/
def shiftMotion (g g' : Shape) (v : Nat → Int) : Motion := ⟨Equiv.refl _, fun _ => 1, fun j a => g.x0 j + (a - g'.x0 j + v j) % (g.x1 j - g.x0 j)⟩

theorem shiftMotion_ok {ρ : Int} {g g' : Shape} {v : Nat → Int} (h : ShiftOk g g' v) (hg : Room ρ g) : (shiftMotion g g' v).Ok ρ g g' where
  dim := h.dim
  axes := fun _ => Iff.rfl
  sign := fun _ => Or.inl rfl
  node := fun j hj a _ => by
    have := hg.wf.side j hj
    have h1 := Int.emod_nonneg (a - g'.x0 j + v j) (b := g.x1 j - g.x0 j) (by omega)
    have h2 := Int.emod_lt_of_pos (a - g'.x0 j + v j) (b := g.x1 j - g.x0 j) (by omega)
    show g.x0 j ≤ g.x0 j + _ ∧ g.x0 j + _ < g.x1 j
    omega
  step := fun j hj a ha t ht0 ht1 => by
    show checkBoundary .serial (g.x0 j + (a - g'.x0 j + v j) % (g.x1 j - g.x0 j) + 1 * t) _ _ _ _ = g.x0 j + (checkBoundary .serial (a + t) (g'.x0 j) (g'.x1 j) (g'.b0 j) (g'.b1 j) - g'.x0 j + v j) % (g.x1 j - g.x0 j)
    rw [h.lower j hj, h.upper j hj]
    exact axis_shift (hg.outer j hj).1 (hg.outer j hj).2 (hg.wf.side j hj) (hg.side j hj) (hg.mirror j hj) (h.side j hj) (h.periodic j hj) ha ht0 ht1

theorem twin_refl {m : Motion} (hm : ∀ c y, m.affine c y = fun j => c j + y j) {prog : List (Stmt V)} (h : Homogeneous prog) : List.Forall₂ (Twin m id) prog prog := by
  refine List.forall₂_same.mpr fun s hs => ?_
  cases s with
  | loop dst kern =>
    refine .loop dst fun c F x => ?_
    have := h dst kern hs c (fun k y => .ok (F k y)) x
    rw [hm]
    simp only [id, hm]
    rw [this]
    generalize kern _ _ = o
    cases o <;> rfl
  | swap a b => exact .swap a b
  | ghostswap a => exact .ghostswap a

/-! ## C108: runs -/

/-- **C108.** A program that keeps the discipline of C50 and whose right-hand sides depend on the node only through what they read: if the initial fields are shifted along periodic
axes, or the grid is placed at other coordinates, the fields returned are shifted in the same way, bit for bit. Neither run fails. -/
theorem shift_run {P : Nat → V → Prop} {ρ : Int} {g g' : Shape} {v : Nat → Int} (hg : Room ρ g) (h0 : g'.ghosts = 0) (h : ShiftOk g g' v) {K K' : Known} {prog : List (Stmt V)}
    (hp : Disciplined g.dim ρ P K prog K') (hh : Homogeneous prog) {σ τ : Grids V} (hP : ∀ k o, 0 ≤ o → o < g.cells → P k (σ k o))
    (hM : ∀ k, K.f k ∨ K.s k → Shifted g g' v (σ k) (τ k)) :
    ∃ σ' τ', serialRun g prog σ = .ok σ' ∧ serialRun g' prog τ = .ok τ' ∧ ∀ k, K'.f k ∨ K'.s k → Shifted g g' v (σ' k) (τ' k) := by
  have hm : ∀ c y, (shiftMotion g g' v).affine c y = fun j => c j + y j := fun c y => by
    funext j; simp [Motion.affine, shiftMotion]
  obtain ⟨σ', τ', e1, e2, _, hM'⟩ := run_moves (shiftMotion_ok h hg) hg.reach (h.room hg h0).reach hp hp (twin_refl hm hh) hP hM
  exact ⟨σ', τ', e1, e2, hM'⟩

/-- **C108, consequence.** A field that does not change along a periodic axis never begins to. -/
theorem uniform_run {P : Nat → V → Prop} {ρ : Int} {g : Shape} (hg : Room ρ g) {i : Nat} (hi : g.b0 i = .periodic ∧ g.b1 i = .periodic) {K K' : Known} {prog : List (Stmt V)}
    (hp : Disciplined g.dim ρ P K prog K') (hh : Homogeneous prog) {σ : Grids V} (hP : ∀ k o, 0 ≤ o → o < g.cells → P k (σ k o))
    (hU : ∀ k, K.f k ∨ K.s k → ∀ x y, g.IsNode x → g.IsNode y → (∀ j, j < g.dim → j ≠ i → x j = y j) → cellAt g (σ k) x = cellAt g (σ k) y) :
    ∃ σ', serialRun g prog σ = .ok σ' ∧
      ∀ k, K'.f k ∨ K'.s k → ∀ x y, g.IsNode x → g.IsNode y → (∀ j, j < g.dim → j ≠ i → x j = y j) → cellAt g (σ' k) x = cellAt g (σ' k) y := by
  have ok : ∀ s : Int, ShiftOk g g (fun j => if j = i then s else 0) := fun s =>
    ⟨rfl, fun _ _ => rfl, fun _ _ => rfl, fun _ _ => rfl, fun j _ => by
      by_cases e : j = i
      · exact Or.inr (e ▸ hi)
      · exact Or.inl (if_neg e)⟩
  have hpt : ∀ (s : Int) x, g.IsNode x → g.IsNode (shiftPt g g (fun j => if j = i then s else 0) x) := fun s x hx => pt_isNode (shiftMotion_ok (ok s) hg) hx
  have off : ∀ (s : Int) x, g.IsNode x → ∀ j, j < g.dim → j ≠ i → x j = shiftPt g g (fun j => if j = i then s else 0) x j := fun s x hx j hj hji => by
    have := hx j hj
    simp only [shiftPt, if_neg hji]
    rw [emod_of (q := 0) (r := x j - g.x0 j) (by ring) (by omega) (by omega)]; omega
  have base := fun s : Int => shift_run hg hg.ghosts (ok s) hp hh hP (τ := σ) fun k hk x hx => hU k hk x _ hx (hpt s x hx) (off s x hx)
  obtain ⟨σ', _, e, _⟩ := base 0
  refine ⟨σ', e, fun k hk x y hx hy hxy => ?_⟩
  obtain ⟨σ1, τ1, e1, e2, hS⟩ := base (y i - x i)
  rw [e] at e1 e2
  cases e1; cases e2
  rw [hS k hk x hx]
  unfold cellAt
  refine congrArg _ (rawOffset_congr fun j hj => ?_)
  by_cases hji : j = i
  · subst hji
    have := hy j hj
    simp only [shiftPt, if_true]
    rw [emod_of (q := 0) (r := y j - g.x0 j) (by ring) (by omega) (by omega)]; omega
  · rw [← off _ x hx j hj hji, hxy j hj hji]

/-! ## C108: ranks -/

theorem world_room {w : World} {np : Nat} (h : w.Ok np) : Room w.ghosts w.serial := by
  obtain ⟨r, hr, _⟩ := owner h (y := w.serial.x0) fun j hj => ⟨le_refl _, (serial_wf h).side j hj⟩
  refine ⟨serial_wf h, rfl, h.setup.ghosts, h.outer, fun j hj => ?_, fun j hj hm => ?_⟩
  · have h1 := rank_room h hr hj
    have h2 : w.ghosts ≤ (w.shape r).x1 j - (w.shape r).x0 j := h.setup.thick r hr.1 hr.2 j hj
    show w.ghosts ≤ w.g1 j - w.g0 j
    omega
  · have h1 := rank_room h hr hj
    have h2 := h.mirror j hj hm r hr
    show w.ghosts < w.g1 j - w.g0 j
    omega

/-- **C108, ranks.** The same on any two decompositions, that of the second run chosen independently of the first: the fields that the ranks of the second run hold are those that the
ranks of the first run hold, shifted. `σ` and `τ` are the two initial fields, `σ'` and `τ'` the final ones. -/
theorem shift_ranks {c c' : Nat → Cell V} {P P' : Nat → V → Prop} {w w' : World} {np np' : Nat} {v : Nat → Int} (hc : ∀ k, RoundTrips (c k)) (hc' : ∀ k, RoundTrips (c' k))
    (hPc : ∀ k x, P k x → (c k).Valid x) (hPc' : ∀ k x, P' k x → (c' k).Valid x) (hw : w.Ok np) (hw' : w'.Ok np') (h : ShiftOk w.serial w'.serial v) {K K' L L' : Known}
    {prog : List (Stmt V)} (hp : Disciplined w.d w.ghosts P K prog K') (hp' : Disciplined w'.d w'.ghosts P' L prog L') (hh : Homogeneous prog) {σ τ : Grids V} {D E : Int → Grids V}
    (hA : Agree w np K σ D) (hP : AllCells w np P σ D) (hA' : Agree w' np' L τ E) (hP' : AllCells w' np' P' τ E) (hM : ∀ k, K.f k ∨ K.s k → Shifted w.serial w'.serial v (σ k) (τ k)) :
    ∃ D' E', Finished np (mpiRun c w prog fun r => .ok (D r)) D' ∧ Finished np' (mpiRun c' w' prog fun r => .ok (E r)) E' ∧
      ∀ k, K'.f k → L'.f k → ∀ r', IsRank np' r' → ∀ x, (w'.shape r').IsNode x → ∀ r, IsRank np r → (w.shape r).IsNode (shiftPt w.serial w'.serial v x) →
        cellAt (w'.shape r') (E' r' k) x = cellAt (w.shape r) (D' r k) (shiftPt w.serial w'.serial v x) := by
  obtain ⟨σ', D', e1, e2, hA1, _⟩ := parallel_eq_serial hc hPc hw hp (S := fun r => .ok (D r)) (fun _ _ => rfl) hA hP
  obtain ⟨τ', E', f1, f2, hB1, _⟩ := parallel_eq_serial hc' hPc' hw' hp' (S := fun r => .ok (E r)) (fun _ _ => rfl) hA' hP'
  obtain ⟨σ1, τ1, g1, g2, hM1⟩ := shift_run (world_room hw) rfl h hp hh (fun k => (hP k).1) hM
  rw [e1] at g1; rw [f1] at g2
  cases g1; cases g2
  refine ⟨D', E', e2, f2, fun k hk hk' r' hr' x hx r hr hxr => ?_⟩
  rw [hB1.same k hk' r' hr' x hx, hA1.same k hk r hr _ hxr, hM1 k (Or.inl hk) x (isNode_global hw'.setup hr' hx)]

/-! ## Right-hand sides -/

section Parts
variable {W : Type}

theorem Shifts.const (o : Outcome W) : Shifts (V := V) fun _ _ => o := fun _ _ _ => rfl

theorem Shifts.bind {U : Type} {F : (Nat → Access V) → (Nat → Int) → Outcome U} {G : U → (Nat → Access V) → (Nat → Int) → Outcome W} (hF : Shifts F) (hG : ∀ u, Shifts (G u)) :
    Shifts fun A x => (F A x).bind fun u => G u A x := by
  intro c A x
  beta_reduce
  rw [hF c A x]
  cases F A fun j => c j + x j with
  | ok u => exact hG u c A x
  | ub => rfl
  | abort c => rfl

theorem Shifts.self (k : Nat) : Shifts (V := V) fun A x => A k x := fun _ _ _ => rfl

theorem Shifts.step (k i : Nat) (s : Int) : Shifts (V := V) fun A x => A k (bump x i s) := by
  intro c A x
  beta_reduce
  congr 1
  funext j
  by_cases e : j = i
  · subst e; simp only [bump, Function.update_self]; omega
  · simp only [bump, Function.update_of_ne e]

theorem Shifts.fold {β ι : Type} {f : β → ι → (Nat → Access V) → (Nat → Int) → Outcome β} (l : List ι) (hf : ∀ b i, Shifts (f b i)) (b : β) :
    Shifts fun A x => l.foldlM (fun b i => f b i A x) b := by
  induction l generalizing b with
  | nil => exact Shifts.const (.ok b)
  | cons i l ih =>
    intro c A x
    simp only [List.foldlM_cons, Outcome.bind_eq]
    rw [hf b i c A x]
    cases f b i A fun j => c j + x j with
    | ok u => exact ih u c A x
    | ub => rfl
    | abort c => rfl

end Parts

section Kernels
variable {α : Type}

theorem entryAt_shifts (k j : Nat) : Shifts (V := List α) fun A x => entryAt (A k) j x := (Shifts.self k).bind fun _ => Shifts.const _

theorem entryAt_step_shifts (k j i : Nat) (s : Int) : Shifts (V := List α) fun A x => entryAt (A k) j (bump x i s) := (Shifts.step k i s).bind fun _ => Shifts.const _

theorem fluxKernel_shifts (flux : α → α → α → α × α) : Shifts (fluxKernel flux) :=
  (entryAt_shifts 0 0).bind fun _ => (entryAt_step_shifts 0 0 0 1).bind fun _ => (entryAt_step_shifts 0 0 1 1).bind fun _ => Shifts.const _

theorem solidKernel_shifts (value : Around α → α × α) : Shifts (solidKernel value) :=
  (entryAt_shifts 0 0).bind fun _ => (entryAt_shifts 0 1).bind fun _ => (entryAt_shifts 2 0).bind fun _ => (entryAt_shifts 2 1).bind fun _ =>
    (entryAt_step_shifts 2 0 0 (-1)).bind fun _ => (entryAt_step_shifts 2 1 1 (-1)).bind fun _ => (entryAt_step_shifts 0 1 0 1).bind fun _ => (entryAt_step_shifts 0 1 0 (-1)).bind fun _ =>
    (entryAt_step_shifts 0 1 1 1).bind fun _ => (entryAt_step_shifts 0 1 1 (-1)).bind fun _ => (entryAt_shifts 3 0).bind fun _ => Shifts.const _

theorem keepKernel_shifts : Shifts (V := List α) keepKernel := (entryAt_shifts 0 0).bind fun _ => Shifts.const _

theorem nearAt_shifts (pos : α → Bool) (d h : Nat) : Shifts (V := List α) fun A x => nearAt pos d (A 0) x h := by
  refine Shifts.fold _ (fun b j => Shifts.fold _ (fun b k => ?_) b) false
  by_cases hb : b = true
  · simp only [hb, if_true]; exact Shifts.const _
  · simp only [hb]
    exact (Shifts.step 0 j k).bind fun _ => (Shifts.const _).bind fun _ => Shifts.const _

theorem markedAt_shifts (pos : α → Bool) (d n : Nat) : Shifts (V := List α) fun A x => markedAt pos d n (A 0) x :=
  Shifts.fold _ (fun _ h => (nearAt_shifts pos d h).bind fun _ => Shifts.const _) _

theorem nearbyAt_shifts (d : Nat) : Shifts (V := Sparse.Cell α) fun A x => nearbyAt d (A 0) x :=
  Shifts.fold _ (fun b j => Shifts.fold _ (fun b k => (Shifts.step 0 j k).bind fun _ => Shifts.const _) b) []

variable [Zero α] [One α] [Add α] [Sub α] [Mul α] [Div α]

theorem lapVecLoop_shifts (k : Nat) (w : Nat → α) (n : Nat) (y : List α) (is : List Nat) (acc : List α) : Shifts fun A x => lapVecLoop (A k) w n y is x acc := by
  induction is generalizing acc with
  | nil => exact Shifts.const (.ok acc)
  | cons i is ih =>
    simp only [lapVecLoop_cons]
    exact (Shifts.step k i 1).bind fun yh => (Shifts.step k i (-1)).bind fun yl => (Shifts.const _).bind fun acc => ih acc

theorem lapVec_shifts (k d n : Nat) (dx : Nat → α) : Shifts fun A x => lapVec d n dx (A k) x := (Shifts.self k).bind fun y => lapVecLoop_shifts k _ n y _ _

theorem entryLoop_shifts (k j : Nat) (w : Nat → α) (y : α) (is : List Nat) (acc : α) : Shifts fun A x => lapLoop (entryAt (A k) j) w y is x acc := by
  induction is generalizing acc with
  | nil => exact Shifts.const (.ok acc)
  | cons i is ih =>
    simp only [lapLoop_cons]
    exact (entryAt_step_shifts k j i 1).bind fun yh => (entryAt_step_shifts k j i (-1)).bind fun yl => ih _

theorem lapLoop_shifts (k : Nat) (w : Nat → α) (y : α) (is : List Nat) (acc : α) : Shifts fun (A : Nat → Access α) x => lapLoop (A k) w y is x acc := by
  induction is generalizing acc with
  | nil => exact Shifts.const (.ok acc)
  | cons i is ih =>
    simp only [lapLoop_cons]
    exact (Shifts.step k i 1).bind fun yh => (Shifts.step k i (-1)).bind fun yl => ih _

theorem lapSparseLoop_shifts (k : Nat) (w : Nat → α) (y : Sparse.Cell α) (is : List Nat) (acc : Sparse.Cell α) : Shifts fun A x => lapSparseLoop (A k) w y is x acc := by
  induction is generalizing acc with
  | nil => exact Shifts.const (.ok acc)
  | cons i is ih =>
    simp only [lapSparseLoop_cons]
    exact (Shifts.step k i 1).bind fun yh => (Shifts.step k i (-1)).bind fun yl => ih _

theorem pointKernel_shifts (d : Nat) (dx : Nat → α) (k l : Nat) (f : α → α → α) : Shifts (pointKernel d dx k l fun _ => f) :=
  (Shifts.self k).bind fun _ => ((Shifts.self l).bind fun y => lapLoop_shifts l _ y _ _).bind fun _ => Shifts.const _

theorem isoKernel_shifts (d n : Nat) (dx : Nat → α) (value : List α → List α → Nat → α) : Shifts (isoKernel d n dx value) :=
  (Shifts.self 0).bind fun _ => (lapVec_shifts 0 d n dx).bind fun _ => Shifts.const _

theorem anisoKernel_shifts (pos : α → Bool) (d n : Nat) (dx : Nat → α) (value : List Int → List α → List α → Nat → α) : Shifts (anisoKernel pos d n dx value) := by
  refine (markedAt_shifts pos d n).bind fun s => (Shifts.self 0).bind fun y => ?_
  by_cases hs : s.length < 2
  · simp only [hs, if_true]; exact Shifts.const _
  · simp only [hs, if_false]; exact (lapVec_shifts 0 d n dx).bind fun _ => Shifts.const _

theorem sparseKernel_shifts (d : Nat) (dx : Nat → α) (f : Sparse.Cell Int → Sparse.Cell α → Sparse.Cell α → Sparse.Cell α → Sparse.Cell α) : Shifts (sparseKernel d dx f) := by
  refine (nearbyAt_shifts d).bind fun s => (Shifts.self 0).bind fun y => (Shifts.self 1).bind fun z => ?_
  by_cases hs : s.length < 2
  · simp only [hs, if_true]; exact Shifts.const _
  · simp only [hs, if_false]; exact ((Shifts.self 0).bind fun y => lapSparseLoop_shifts 0 _ y _ _).bind fun _ => Shifts.const _

theorem potentialKernel_shifts (d : Nat) (pow2 : α → α) (dx : Nat → α) (pot : List α → α → α) : Shifts (potentialKernel d pow2 dx pot) :=
  (Shifts.self 0).bind fun _ => (entryAt_shifts 0 0).bind fun _ => (entryLoop_shifts 0 0 _ _ _ _).bind fun _ => Shifts.const _

theorem ostwaldKernel_shifts (d n : Nat) (dx : Nat → α) (value : List α → List α → α → Nat → α) : Shifts (ostwaldKernel d n dx value) :=
  (entryAt_shifts 2 0).bind fun _ => (entryLoop_shifts 2 0 _ _ _ _).bind fun _ => (Shifts.self 0).bind fun _ => (lapVec_shifts 0 d n dx).bind fun _ => Shifts.const _

end Kernels

/-! ## Programs -/

theorem Homogeneous.append {p q : List (Stmt V)} (hp : Homogeneous p) (hq : Homogeneous q) : Homogeneous (p ++ q) := fun dst kern h =>
  (List.mem_append.mp h).elim (hp dst kern) (hq dst kern)

theorem Homogeneous.repeat {p : List (Stmt V)} (hp : Homogeneous p) (steps : Nat) : Homogeneous (repeatProg p steps) := by
  intro dst kern h
  unfold repeatProg at h
  obtain ⟨l, hl, h⟩ := List.mem_flatten.mp h
  rw [List.eq_of_mem_replicate hl] at h
  exact hp dst kern h

theorem Homogeneous.ghostswap {p : List (Stmt V)} (a : Nat) (hp : Homogeneous p) : Homogeneous (.ghostswap a :: p) := fun dst kern h => by
  rcases List.mem_cons.mp h with h | h
  · cases h
  · exact hp dst kern h

theorem Homogeneous.swap {p : List (Stmt V)} (a b : Nat) (hp : Homogeneous p) : Homogeneous (.swap a b :: p) := fun dst kern h => by
  rcases List.mem_cons.mp h with h | h
  · cases h
  · exact hp dst kern h

theorem Homogeneous.loop {p : List (Stmt V)} (dst : Nat) {kern : Kernel V} (hk : Shifts kern) (hp : Homogeneous p) : Homogeneous (.loop dst kern :: p) := fun dst kern h => by
  rcases List.mem_cons.mp h with h | h
  · cases h; exact hk
  · exact hp dst kern h

theorem Homogeneous.nil : Homogeneous (V := V) [] := fun _ _ h => absurd h (by simp)

theorem evolve_homogeneous {kern : Kernel V} (hk : Shifts kern) (steps : Nat) : Homogeneous (evolveUpdate kern steps) :=
  .ghostswap 0 (Homogeneous.repeat (.loop 1 hk (.swap 0 1 (.ghostswap 0 .nil))) steps)

section Programs
variable {α : Type} [Zero α] [One α] [Add α] [Sub α] [Mul α] [Div α] {ρ : Int} {g g' : Shape} {v : Nat → Int}

theorem allenCahn_homogeneous (d : Nat) (dx : Nat → α) (f : α → α → α) (steps : Nat) : Homogeneous (allenCahnUpdate d dx f steps) :=
  .ghostswap 0 (Homogeneous.repeat (.loop 1 (pointKernel_shifts d dx 0 0 f) (.swap 0 1 (.ghostswap 0 .nil))) steps)

theorem cahnHilliard_homogeneous (d : Nat) (dx : Nat → α) (mu f : α → α → α) (steps : Nat) : Homogeneous (cahnHilliardUpdate d dx mu f steps) :=
  .ghostswap 0 (Homogeneous.repeat (.loop 2 (pointKernel_shifts d dx 0 0 mu) (.ghostswap 2 (.loop 1 (pointKernel_shifts d dx 0 2 f) (.swap 0 1 (.ghostswap 0 .nil))))) steps)

theorem ostwald_homogeneous (d n : Nat) (pow2 : α → α) (dx : Nat → α) (pot : List α → α → α) (value : List α → List α → α → Nat → α) (steps : Nat) :
    Homogeneous (ostwaldUpdate d n pow2 dx pot value steps) :=
  .ghostswap 0 (Homogeneous.repeat (.loop 2 (potentialKernel_shifts d pow2 dx pot) (.ghostswap 2 (.loop 1 (ostwaldKernel_shifts d n dx value) (.swap 0 1 (.ghostswap 0 .nil))))) steps)

omit [Zero α] [One α] [Add α] [Sub α] [Mul α] [Div α] in
theorem solid_homogeneous (flux : α → α → α → α × α) (value : Around α → α × α) (steps : Nat) : Homogeneous (solidUpdate flux value steps) :=
  .ghostswap 0 (.loop 3 keepKernel_shifts (.ghostswap 0 (Homogeneous.repeat (.loop 2 (fluxKernel_shifts flux) (.ghostswap 2 (.loop 1 (solidKernel_shifts value) (.loop 3 keepKernel_shifts
    (.swap 0 1 (.ghostswap 0 .nil)))))) steps)))

theorem allenCahnUpdate_disciplined (d : Nat) (hρ : 1 ≤ ρ) (dx : Nat → α) (f : α → α → α) (steps : Nat) :
    Disciplined d ρ (fun _ (_ : α) => True) ⟨fun k => k = 0, fun _ => False⟩ (allenCahnUpdate d dx f steps) oldKnown :=
  .ghostswap rfl (((allenCahn_disciplined d hρ dx f).steps steps).mono ⟨fun _ => id, fun _ hk => Or.inr hk⟩)

theorem cahnHilliardUpdate_disciplined (d : Nat) (hρ : 1 ≤ ρ) (dx : Nat → α) (mu f : α → α → α) (steps : Nat) :
    Disciplined d ρ (fun _ (_ : α) => True) ⟨fun k => k = 0, fun _ => False⟩ (cahnHilliardUpdate d dx mu f steps) oldKnown :=
  .ghostswap rfl (((cahnHilliard_disciplined d hρ dx mu f).steps steps).mono ⟨fun _ => id, fun _ hk => Or.inr hk⟩)

/-- **C108, Allen-Cahn** (also model A without noise): the field after any number of steps from a shifted field is the shifted field. -/
theorem allenCahn_shift (hg : Room 1 g) (h0 : g'.ghosts = 0) (h : ShiftOk g g' v) (dx : Nat → α) (f : α → α → α) (steps : Nat) {σ τ : Grids α} (hM : Shifted g g' v (σ 0) (τ 0)) :
    ∃ σ' τ', serialRun g (allenCahnUpdate g.dim dx f steps) σ = .ok σ' ∧ serialRun g' (allenCahnUpdate g.dim dx f steps) τ = .ok τ' ∧ Shifted g g' v (σ' 0) (τ' 0) := by
  obtain ⟨σ', τ', e1, e2, hM'⟩ := shift_run hg h0 h (allenCahnUpdate_disciplined g.dim (le_refl _) dx f steps) (allenCahn_homogeneous _ dx f steps) (fun _ _ _ _ => trivial)
    (fun k hk => hk.elim (fun e => e ▸ hM) False.elim)
  exact ⟨σ', τ', e1, e2, hM' 0 (Or.inl rfl)⟩

/-- **C108, Cahn-Hilliard.** -/
theorem cahnHilliard_shift (hg : Room 1 g) (h0 : g'.ghosts = 0) (h : ShiftOk g g' v) (dx : Nat → α) (mu f : α → α → α) (steps : Nat) {σ τ : Grids α} (hM : Shifted g g' v (σ 0) (τ 0)) :
    ∃ σ' τ', serialRun g (cahnHilliardUpdate g.dim dx mu f steps) σ = .ok σ' ∧ serialRun g' (cahnHilliardUpdate g.dim dx mu f steps) τ = .ok τ' ∧ Shifted g g' v (σ' 0) (τ' 0) := by
  obtain ⟨σ', τ', e1, e2, hM'⟩ := shift_run hg h0 h (cahnHilliardUpdate_disciplined g.dim (le_refl _) dx mu f steps) (cahnHilliard_homogeneous _ dx mu f steps) (fun _ _ _ _ => trivial)
    (fun k hk => hk.elim (fun e => e ▸ hM) False.elim)
  exact ⟨σ', τ', e1, e2, hM' 0 (Or.inl rfl)⟩

theorem evolve_shift {P : Nat → V → Prop} (hPP : P 0 = P 1) (hg : Room 1 g) (h0 : g'.ghosts = 0) (h : ShiftOk g g' v) {kern : Kernel V} (only : ReadsOnly g.dim [(0, 1)] kern)
    (keeps : Keeps g.dim P [(0, 1)] 1 kern) (hk : Shifts kern) (steps : Nat) {σ τ : Grids V} (hP : ∀ k o, 0 ≤ o → o < g.cells → P k (σ k o)) (hM : Shifted g g' v (σ 0) (τ 0)) :
    ∃ σ' τ', serialRun g (evolveUpdate kern steps) σ = .ok σ' ∧ serialRun g' (evolveUpdate kern steps) τ = .ok τ' ∧ Shifted g g' v (σ' 0) (τ' 0) := by
  have hd : Disciplined g.dim 1 P ⟨fun k => k = 0, fun _ => False⟩ (evolveUpdate kern steps) oldKnown :=
    .ghostswap rfl (((evolve_disciplined (le_refl _) hPP only keeps).steps steps).mono ⟨fun _ => id, fun _ hk => Or.inr hk⟩)
  obtain ⟨σ', τ', e1, e2, hM'⟩ := shift_run hg h0 h hd (evolve_homogeneous hk steps) hP (fun k hk => hk.elim (fun e => e ▸ hM) False.elim)
  exact ⟨σ', τ', e1, e2, hM' 0 (Or.inl rfl)⟩

/-- **C108, isotropic phase field** (grain growth, Zener pinning) with `n` fields. -/
theorem isoDense_shift {n : Nat} (hg : Room 1 g) (h0 : g'.ghosts = 0) (h : ShiftOk g g' v) (dx : Nat → α) (value : List α → List α → Nat → α) (steps : Nat) {σ τ : Grids (List α)}
    (hP : ∀ k o, 0 ≤ o → o < g.cells → (σ k o).length = n) (hM : Shifted g g' v (σ 0) (τ 0)) :
    ∃ σ' τ', serialRun g (evolveUpdate (isoKernel g.dim n dx value) steps) σ = .ok σ' ∧ serialRun g' (evolveUpdate (isoKernel g.dim n dx value) steps) τ = .ok τ' ∧
      Shifted g g' v (σ' 0) (τ' 0) :=
  evolve_shift (P := Entries α n) rfl hg h0 h (isoKernel_reads dx value) (isoKernel_keeps dx value) (isoKernel_shifts g.dim n dx value) steps hP hM

/-- **C108, anisotropic phase field.** -/
theorem anisoDense_shift {n : Nat} (hg : Room 1 g) (h0 : g'.ghosts = 0) (h : ShiftOk g g' v) (pos : α → Bool) (dx : Nat → α) (value : List Int → List α → List α → Nat → α) (steps : Nat)
    {σ τ : Grids (List α)} (hP : ∀ k o, 0 ≤ o → o < g.cells → (σ k o).length = n) (hM : Shifted g g' v (σ 0) (τ 0)) :
    ∃ σ' τ', serialRun g (evolveUpdate (anisoKernel pos g.dim n dx value) steps) σ = .ok σ' ∧ serialRun g' (evolveUpdate (anisoKernel pos g.dim n dx value) steps) τ = .ok τ' ∧
      Shifted g g' v (σ' 0) (τ' 0) :=
  evolve_shift (P := Entries α n) rfl hg h0 h (anisoKernel_reads pos dx value) (anisoKernel_keeps pos dx value) (anisoKernel_shifts pos g.dim n dx value) steps hP hM

/-- **C108, sparse phase field**; `newGrid` starts with empty cells. -/
theorem sparse_shift {I : Finset Int} (hg : Room 1 g) (h0 : g'.ghosts = 0) (h : ShiftOk g g' v) (dx : Nat → α)
    {f : Sparse.Cell Int → Sparse.Cell α → Sparse.Cell α → Sparse.Cell α → Sparse.Cell α} (hf : LocalFields f) (steps : Nat) {σ τ : Grids (Sparse.Cell α)}
    (hP : ∀ k o, 0 ≤ o → o < g.cells → Lists I (σ k o)) (hσ : ∀ o, σ 1 o = []) (hτ : ∀ o, τ 1 o = []) (hM : Shifted g g' v (σ 0) (τ 0)) :
    ∃ σ' τ', serialRun g (evolveUpdate (sparseKernel g.dim dx f) steps) σ = .ok σ' ∧ serialRun g' (evolveUpdate (sparseKernel g.dim dx f) steps) τ = .ok τ' ∧
      Shifted g g' v (σ' 0) (τ' 0) := by
  have hd : Disciplined g.dim 1 (fun _ => Lists I) ⟨fun k => k = 0 ∨ k = 1, fun _ => False⟩ (evolveUpdate (sparseKernel g.dim dx f) steps) bothKnown :=
    .ghostswap (Or.inl rfl) (((sparse_disciplined (le_refl _) rfl (sparseKernel_reads dx f) (sparseKernel_keeps dx hf)).steps steps).mono ⟨fun _ => id, fun _ hk => Or.inr hk⟩)
  have h1 : Shifted g g' v (σ 1) (τ 1) := fun x _ => by unfold cellAt; rw [hσ, hτ]
  obtain ⟨σ', τ', e1, e2, hM'⟩ := shift_run hg h0 h hd (evolve_homogeneous (sparseKernel_shifts _ dx f) steps) hP
    (fun k hk => hk.elim (fun hk => hk.elim (fun e => e ▸ hM) fun e => e ▸ h1) False.elim)
  exact ⟨σ', τ', e1, e2, hM' 0 (Or.inl (Or.inl rfl))⟩

/-- **C108, Ostwald ripening.** -/
theorem ostwald_shift {n : Nat} (hn : 0 < n) (hg : Room 1 g) (h0 : g'.ghosts = 0) (h : ShiftOk g g' v) (pow2 : α → α) (dx : Nat → α) (pot : List α → α → α)
    (value : List α → List α → α → Nat → α) (steps : Nat) {σ τ : Grids (List α)} (hP : ∀ k o, 0 ≤ o → o < g.cells → (σ k o).length = if k = 2 then 1 else n)
    (hM : Shifted g g' v (σ 0) (τ 0)) :
    ∃ σ' τ', serialRun g (ostwaldUpdate g.dim n pow2 dx pot value steps) σ = .ok σ' ∧ serialRun g' (ostwaldUpdate g.dim n pow2 dx pot value steps) τ = .ok τ' ∧
      Shifted g g' v (σ' 0) (τ' 0) := by
  have hd : Disciplined g.dim 1 (Sizes α n 2) ⟨fun k => k = 0, fun _ => False⟩ (ostwaldUpdate g.dim n pow2 dx pot value steps) oldKnown :=
    .ghostswap rfl (((ostwald_disciplined (le_refl _) hn pow2 dx pot value).steps steps).mono ⟨fun _ => id, fun _ hk => Or.inr hk⟩)
  obtain ⟨σ', τ', e1, e2, hM'⟩ := shift_run hg h0 h hd (ostwald_homogeneous _ n pow2 dx pot value steps) hP (fun k hk => hk.elim (fun e => e ▸ hM) False.elim)
  exact ⟨σ', τ', e1, e2, hM' 0 (Or.inl rfl)⟩

omit [Zero α] [One α] [Add α] [Sub α] [Mul α] [Div α] in
/-- **C108, solidification**, although its stencils are one-sided. -/
theorem solid_shift (hg : Room 1 g) (h0 : g'.ghosts = 0) (h : ShiftOk g g' v) (flux : α → α → α → α × α) (value : Around α → α × α) (steps : Nat) {σ τ : Grids (List α)}
    (hP : ∀ k o, 0 ≤ o → o < g.cells → (σ k o).length = if k = 3 then 1 else 2) (hM : Shifted g g' v (σ 0) (τ 0)) :
    ∃ σ' τ', serialRun g (solidUpdate flux value steps) σ = .ok σ' ∧ serialRun g' (solidUpdate flux value steps) τ = .ok τ' ∧ Shifted g g' v (σ' 0) (τ' 0) := by
  have hd : Disciplined g.dim 1 (Sizes α 2 3) ⟨fun k => k = 0, fun _ => False⟩ (solidUpdate flux value steps) refKnown := by
    refine .ghostswap rfl (.loop [(0, 0)] keepKernel_reads keepKernel_keeps (by simp) ?_
      (.ghostswap (Or.inl rfl) (((solid_disciplined (le_refl _) flux value).steps steps).mono ⟨?_, ?_⟩)))
    · intro q hq; simp at hq; subst hq; exact Or.inl ⟨rfl, rfl⟩
    · exact fun k hk => hk.imp id id
    · exact fun k hk => Or.inr hk
  obtain ⟨σ', τ', e1, e2, hM'⟩ := shift_run hg h0 h hd (solid_homogeneous flux value steps) hP (fun k hk => hk.elim (fun e => e ▸ hM) False.elim)
  exact ⟨σ', τ', e1, e2, hM' 0 (Or.inl (Or.inl rfl))⟩

end Programs

end MMSP.Symmetry
