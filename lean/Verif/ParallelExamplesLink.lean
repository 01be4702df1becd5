import Verif.ParallelExamplesProps
import Mathlib.Data.Rat.Encodable
import Mathlib.Logic.Equiv.List
/-!
# The parallel programs are the programs of the serial models

The serial run of the programs of `Verif.ParallelExamples` is the run of `Verif.DensePF`, `Verif.SparsePF` and `Verif.SparseRun`; the right-hand sides of the programs for Ostwald
ripening and solidification are those of `Verif.Ostwald` and `Verif.Solid`.
-/

namespace MMSP.ParallelRun

open Stencil (gridAt bump elem lapWeight lapLoop lapVecLoop lapSparseLoop lapFields neighbours_eq)
open DensePF (checked fill pass entry)
open Ghost (IsRank)

section Loops
variable {V : Type} {bd : Build} {g : Shape}

theorem node_access (hg : g.Wf) (hser : bd = .serial → g.ghosts = 0) {i : Int} (h0 : 0 ≤ i) (h1 : i < g.nodes) (data : Int → V) :
    gridAt bd g data (g.position i) = deref g data (g.atNode bd i) ∧ deref g data (g.atNode bd i) = .ok (data (g.atNode bd i)) ∧ 0 ≤ g.atNode bd i ∧ g.atNode bd i < g.cells := by
  have hb : 0 ≤ g.atNode bd i ∧ g.atNode bd i < g.cells := by
    rw [atNode_raw hg hser h0 h1]
    exact Shape.rawOffset_bounds hg (isCell_of_isNode hg.ghosts (Shape.position_isNode hg h0 h1))
  refine ⟨?_, ?_, hb⟩
  · unfold gridAt; rw [Shape.atNode_eq_atVec hg bd hser h0 h1]
  · unfold deref; exact if_pos hb

/-- A loop that writes grid 1 is a loop over the data of grid 1. -/
theorem runLoop_fold {kern : Kernel V} {σ : Grids V} {body : (Int → V) → Nat → Outcome (Int → V)} {Q : V → Prop}
    (hk : ∀ τ : Grids V, (∀ k, k ≠ 1 → τ k = σ k) → (∀ o, 0 ≤ o → o < g.cells → Q (τ 1 o)) → ∀ i : Nat, (i : Int) < g.nodes →
      ((kern (fun k => gridAt bd g (τ k)) (g.position i)).bind fun v => store g (τ 1) (g.atNode bd i) v) = body (τ 1) i)
    (hQ : ∀ (out : Int → V) (i : Nat) (a : Int → V), (∀ o, 0 ≤ o → o < g.cells → Q (out o)) → (i : Int) < g.nodes → body out i = .ok a → ∀ o, 0 ≤ o → o < g.cells → Q (a o))
    (hσ : ∀ o, 0 ≤ o → o < g.cells → Q (σ 1 o)) :
    runLoop bd g 1 kern σ = (((List.range g.nodes.toNat).foldlM body (σ 1)).bind fun a => .ok (Function.update σ 1 a)) ∧
      ∀ a, (List.range g.nodes.toNat).foldlM body (σ 1) = .ok a → ∀ o, 0 ≤ o → o < g.cells → Q (a o) := by
  have key : ∀ (l : List Nat), (∀ i ∈ l, (i : Int) < g.nodes) → ∀ τ : Grids V, (∀ k, k ≠ 1 → τ k = σ k) → (∀ o, 0 ≤ o → o < g.cells → Q (τ 1 o)) →
      l.foldlM (fun (σ : Grids V) (i : Nat) => (kern (fun k => gridAt bd g (σ k)) (g.position i)).bind fun v =>
        (store g (σ 1) (g.atNode bd i) v).bind fun a => .ok (Function.update σ 1 a)) τ = ((l.foldlM body (τ 1)).bind fun a => .ok (Function.update τ 1 a)) ∧
      ∀ a, l.foldlM body (τ 1) = .ok a → ∀ o, 0 ≤ o → o < g.cells → Q (a o) := by
    intro l
    induction l with
    | nil =>
      intro _ τ _ h1
      refine ⟨?_, fun a e => ?_⟩
      · simp only [List.foldlM_nil, Outcome.pure_eq, Outcome.ok_bind, Function.update_eq_self]
      · rw [List.foldlM_nil] at e; cases e; exact h1
    | cons i l ih =>
      intro hl τ h0 h1
      have hb := hk τ h0 h1 i (hl i (by simp))
      have e : ((kern (fun k => gridAt bd g (τ k)) (g.position i)).bind fun v => (store g (τ 1) (g.atNode bd i) v).bind fun a => .ok (Function.update τ 1 a)) =
          (body (τ 1) i).bind fun a => .ok (Function.update τ 1 a) := by
        rw [← hb]
        cases kern (fun k => gridAt bd g (τ k)) (g.position i) <;> rfl
      simp only [List.foldlM_cons, Outcome.bind_eq]
      rw [e]
      cases hbo : body (τ 1) i with
      | ok a =>
        have hq := hQ _ _ _ h1 (hl i (by simp)) hbo
        obtain ⟨k1, k2⟩ := ih (fun j hj => hl j (by simp [hj])) (Function.update τ 1 a) (fun k hk => by rw [Function.update_of_ne hk]; exact h0 k hk)
          (by rw [Function.update_self]; exact hq)
        simp only [Function.update_self, Function.update_idem] at k1 k2
        exact ⟨k1, k2⟩
      | ub => exact ⟨rfl, fun a h => by cases h⟩
      | abort c => exact ⟨rfl, fun a h => by cases h⟩
  refine key _ (fun i hi => ?_) σ (fun _ _ => rfl) hσ
  have := List.mem_range.1 hi
  omega

/-- `steps` times: `sweep` from `oldGrid` into `newGrid`, then `swap(oldGrid,newGrid)`. -/
def evolveRun (sweep : (Int → V) → (Int → V) → Outcome (Int → V)) : Nat → (Int → V) × (Int → V) → Outcome ((Int → V) × (Int → V))
  | 0, s => .ok s
  | n + 1, s => (evolveRun sweep n s).bind fun s => (sweep s.1 s.2).bind fun out => .ok (out, s.1)

theorem repeatProg_succ (p : List (Stmt V)) (n : Nat) : repeatProg p (n + 1) = repeatProg p n ++ p := by
  simp [repeatProg, List.replicate_succ']

theorem serialRun_append (p q : List (Stmt V)) (σ : Grids V) : serialRun g (p ++ q) σ = (serialRun g p σ).bind (serialRun g q) := by
  unfold serialRun; rw [List.foldlM_append]; rfl

/-- Grids 0 and 1 replaced. -/
def withPair (σ : Grids V) (s : (Int → V) × (Int → V)) : Grids V := fun k => if k = 0 then s.1 else if k = 1 then s.2 else σ k

theorem serialRun_evolve {kern : Kernel V} {sweep : (Int → V) → (Int → V) → Outcome (Int → V)} {Q : V → Prop}
    (hs : ∀ σ : Grids V, (∀ k, k ≤ 1 → ∀ o, 0 ≤ o → o < g.cells → Q (σ k o)) → runLoop .serial g 1 kern σ = ((sweep (σ 0) (σ 1)).bind fun a => .ok (Function.update σ 1 a)) ∧
      ∀ a, sweep (σ 0) (σ 1) = .ok a → ∀ o, 0 ≤ o → o < g.cells → Q (a o))
    {σ : Grids V} (hσ : ∀ k, k ≤ 1 → ∀ o, 0 ≤ o → o < g.cells → Q (σ k o)) (steps : Nat) :
    serialRun g (evolveUpdate kern steps) σ = (evolveRun sweep steps (σ 0, σ 1)).bind fun s => .ok (withPair σ s) := by
  have key : ∀ n, serialRun g (repeatProg [.loop 1 kern, .swap 0 1, .ghostswap 0] n) σ = ((evolveRun sweep n (σ 0, σ 1)).bind fun s => .ok (withPair σ s)) ∧
      ∀ s, evolveRun sweep n (σ 0, σ 1) = .ok s → ∀ o, 0 ≤ o → o < g.cells → Q (s.1 o) ∧ Q (s.2 o) := by
    intro n
    induction n with
    | zero =>
      refine ⟨?_, fun s e o h0 h1 => ?_⟩
      · have : withPair σ (σ 0, σ 1) = σ := by
          funext k; unfold withPair; split_ifs with h0 h1
          · rw [h0]
          · rw [h1]
          · rfl
        show Outcome.ok σ = .ok (withPair σ (σ 0, σ 1))
        rw [this]
      · cases e; exact ⟨hσ 0 (by decide) o h0 h1, hσ 1 (by decide) o h0 h1⟩
    | succ n ih =>
      obtain ⟨i1, i2⟩ := ih
      rw [repeatProg_succ, serialRun_append, i1]
      simp only [evolveRun]
      cases he : evolveRun sweep n (σ 0, σ 1) with
      | ok s =>
        have hq := i2 s he
        obtain ⟨a1, a2⟩ := hs (withPair σ s) (fun k hk o h0 h1 => by
          have : k = 0 ∨ k = 1 := by omega
          rcases this with rfl | rfl
          · exact (hq o h0 h1).1
          · exact (hq o h0 h1).2)
        have e0 : withPair σ s 0 = s.1 := rfl
        have e1 : withPair σ s 1 = s.2 := rfl
        rw [e0, e1] at a1 a2
        have hrun : serialRun g [.loop 1 kern, .swap 0 1, .ghostswap 0] (withPair σ s) = (runLoop .serial g 1 kern (withPair σ s)).bind fun τ => .ok (swapGrids 0 1 τ) := by
          unfold serialRun
          simp only [List.foldlM_cons, List.foldlM_nil, serialStmt, Outcome.bind_eq, Outcome.pure_eq, Outcome.ok_bind]
        refine ⟨?_, fun s' e o h0 h1 => ?_⟩
        · simp only [Outcome.ok_bind]
          rw [hrun, a1]
          cases sweep s.1 s.2 with
          | ok a =>
            simp only [Outcome.ok_bind]
            congr 1
            funext k
            unfold swapGrids withPair
            by_cases k0 : k = 0
            · subst k0; simp
            · by_cases k1 : k = 1
              · subst k1; simp
              · simp [k0, k1]
          | ub => rfl
          | abort c => rfl
        · rw [Outcome.ok_bind] at e
          cases hsw : sweep s.1 s.2 with
          | ok a =>
            rw [hsw, Outcome.ok_bind] at e
            cases e
            exact ⟨a2 a hsw o h0 h1, (hq o h0 h1).1⟩
          | ub => rw [hsw] at e; cases e
          | abort c => rw [hsw] at e; cases e
      | ub => exact ⟨rfl, fun s e => by cases e⟩
      | abort c => exact ⟨rfl, fun s e => by cases e⟩
  have h0 : serialRun g (evolveUpdate kern steps) σ = serialRun g (repeatProg [.loop 1 kern, .swap 0 1, .ghostswap 0] steps) σ := by
    unfold evolveUpdate serialRun; rw [List.foldlM_cons]; rfl
  rw [h0, (key steps).1]

/-- `pass` as the body of the step. -/
theorem serialRun_pass {kern : Kernel V} (hg : g.Wf) (h0 : g.ghosts = 0) {cell : (Int → V) → Int → V → Outcome V} {Q : V → Prop}
    (hk : ∀ (τ : Grids V) (i : Nat), (i : Int) < g.nodes → (∀ k, k ≤ 1 → ∀ o, 0 ≤ o → o < g.cells → Q (τ k o)) →
      kern (fun k => gridAt .serial g (τ k)) (g.position i) = cell (τ 0) i (τ 1 (g.atNode .serial i)))
    (hQ : ∀ (old : Int → V) (i : Nat) (z v : V), (i : Int) < g.nodes → (∀ o, 0 ≤ o → o < g.cells → Q (old o)) → Q z → cell old i z = .ok v → Q v)
    {σ : Grids V} (hσ : ∀ k, k ≤ 1 → ∀ o, 0 ≤ o → o < g.cells → Q (σ k o)) (steps : Nat) :
    serialRun g (evolveUpdate kern steps) σ = (DensePF.run g cell steps (σ 0, σ 1)).bind fun s => .ok (withPair σ s) := by
  have hrun : ∀ n s, evolveRun (fun old new => pass .serial g (cell old) new) n s = DensePF.run g cell n s := by
    intro n s
    induction n with
    | zero => rfl
    | succ n ih => simp only [evolveRun, DensePF.run, ih]
  rw [← hrun]
  refine serialRun_evolve (Q := Q) (fun τ hτ => ?_) hσ steps
  refine runLoop_fold (Q := Q) (body := fun out (i : Nat) => (deref g out (g.atNode .serial i)).bind fun z => (cell (τ 0) i z).bind fun v => store g out (g.atNode .serial i) v) ?_ ?_ (hτ 1 (le_refl 1))
  · intro ρ hρ hρQ i hi
    have hn := node_access (bd := .serial) hg (fun _ => h0) (i := i) (by omega) hi (ρ 1)
    rw [hn.2.1, Outcome.ok_bind, hk ρ i hi, hρ 0 (by decide)]
    intro k hk1 o
    have : k = 0 ∨ k = 1 := by omega
    rcases this with rfl | rfl
    · rw [hρ 0 (by decide)]; exact hτ 0 (by decide) o
    · exact hρQ o
  · intro out i a ho hi e o h1 h2
    have hn := node_access (bd := .serial) hg (fun _ => h0) (i := i) (by omega) hi out
    beta_reduce at e
    rw [hn.2.1, Outcome.ok_bind] at e
    cases hc : cell (τ 0) i (out (g.atNode .serial i)) with
    | ok v =>
      have hv := hQ (τ 0) i _ v hi (hτ 0 (by decide)) (ho _ hn.2.2.1 hn.2.2.2) hc
      rw [hc, Outcome.ok_bind] at e
      unfold store at e
      rw [if_pos hn.2.2] at e
      cases e
      by_cases e' : o = g.atNode .serial i
      · subst e'; rw [Function.update_self]; exact hv
      · rw [Function.update_of_ne e']; exact ho o h1 h2
    | ub => rw [hc] at e; cases e
    | abort c => rw [hc] at e; cases e

end Loops

/-! ## Cells that are vectors -/

section Dense
variable {α : Type} [Field α] [LinearOrder α] {g : Shape} {n : Nat}

omit [LinearOrder α] in
theorem lapFields_length (w : α) (y yh yl : List α) : ∀ (js : List Nat) (acc v : List α), lapFields w y yh yl js acc = .ok v → v.length = acc.length := by
  intro js
  induction js with
  | nil => intro acc v e; cases e; rfl
  | cons j js ih =>
    intro acc v e
    simp only [lapFields] at e
    cases e0 : elem acc j with
    | ok a =>
      cases e1 : elem yh j with
      | ok b =>
        cases e2 : elem y j with
        | ok c =>
          cases e3 : elem yl j with
          | ok f =>
            simp only [e0, e1, e2, e3, Outcome.ok_bind] at e
            rw [ih _ _ e, List.length_set]
          | ub => simp only [e0, e1, e2, e3, Outcome.ok_bind] at e; cases e
          | abort c => simp only [e0, e1, e2, e3, Outcome.ok_bind] at e; cases e
        | ub => simp only [e0, e1, e2, Outcome.ok_bind] at e; cases e
        | abort c => simp only [e0, e1, e2, Outcome.ok_bind] at e; cases e
      | ub => simp only [e0, e1, Outcome.ok_bind] at e; cases e
      | abort c => simp only [e0, e1, Outcome.ok_bind] at e; cases e
    | ub => simp only [e0] at e; cases e
    | abort c => simp only [e0] at e; cases e

omit [LinearOrder α] in
theorem lapVecLoop_length (at' : Access (List α)) (w : Nat → α) (n : Nat) (y : List α) : ∀ (is : List Nat) (x : Nat → Int) (acc v : List α),
    lapVecLoop at' w n y is x acc = .ok v → v.length = acc.length := by
  intro is
  induction is with
  | nil => intro x acc v e; cases e; rfl
  | cons i is ih =>
    intro x acc v e
    rw [lapVecLoop_cons] at e
    cases e1 : at' (bump x i 1) with
    | ok a =>
      cases e2 : at' (bump x i (-1)) with
      | ok b =>
        rw [e1, e2, Outcome.ok_bind, Outcome.ok_bind] at e
        cases e3 : lapFields (w i) y a b (List.range n) acc with
        | ok c =>
          rw [e3, Outcome.ok_bind] at e
          rw [ih _ _ _ e, lapFields_length _ _ _ _ _ _ _ e3]
        | ub => rw [e3] at e; cases e
        | abort c => rw [e3] at e; cases e
      | ub => rw [e1, e2] at e; cases e
      | abort c => rw [e1, e2] at e; cases e
    | ub => rw [e1] at e; cases e
    | abort c => rw [e1] at e; cases e

omit [LinearOrder α] in
theorem lapVec_length {d : Nat} (dx : Nat → α) (at' : Access (List α)) (x : Nat → Int) {v : List α} (e : lapVec d n dx at' x = .ok v) : v.length = n := by
  unfold lapVec at e
  cases e1 : at' x with
  | ok y =>
    rw [e1, Outcome.ok_bind] at e
    rw [lapVecLoop_length _ _ _ _ _ _ _ _ e, List.length_replicate]
  | ub => rw [e1] at e; cases e
  | abort c => rw [e1] at e; cases e

omit [LinearOrder α] in
theorem fill_exact {v : Int → α} {z : List α} (hz : z.length = n) : fill n v z = .ok ((List.range n).map fun h : Nat => v h) := by
  unfold fill
  rw [if_pos (le_of_eq hz.symm), List.drop_of_length_le (le_of_eq hz), List.append_nil]

omit [LinearOrder α] in
theorem checked_exact {z : List α} (hz : z.length = n) : checked n z = .ok (entry z) := by
  unfold checked
  rw [if_pos (le_of_eq hz.symm)]

omit [LinearOrder α] in
theorem fill_length {v : Int → α} {z r : List α} (hz : z.length = n) (e : fill n v z = .ok r) : r.length = n := by
  rw [fill_exact hz] at e; cases e; simp

omit [LinearOrder α] in
/-- **C87, link.** The serial run of the parallel program is the run of the serial model of the isotropic examples. -/
theorem isoDense_serial (hg : g.Wf) (h0 : g.ghosts = 0) (dx : Nat → α) (value : (Int → α) → (Int → α) → Int → α) (steps : Nat) {σ : Grids (List α)}
    (hσ : ∀ k, k ≤ 1 → ∀ o, 0 ≤ o → o < g.cells → (σ k o).length = n) :
    serialRun g (evolveUpdate (isoKernel g.dim n dx fun l y h => value (entry l) (entry y) h) steps) σ =
      (DensePF.isoRun g n dx value steps (σ 0) (σ 1)).bind fun s => .ok (withPair σ s) := by
  refine serialRun_pass (Q := fun v => v.length = n) hg h0 (fun τ i hi hτ => ?_) (fun old i z v hi ho hz e => ?_) hσ steps
  · have ha := node_access (bd := .serial) hg (fun _ => h0) (i := i) (by omega) hi (τ 0)
    have hb := node_access (bd := .serial) hg (fun _ => h0) (i := i) (by omega) hi (τ 1)
    have hy := hτ 0 (by decide) _ ha.2.2.1 ha.2.2.2
    have hz := hτ 1 (by decide) _ hb.2.2.1 hb.2.2.2
    unfold isoKernel DensePF.isoCell
    beta_reduce
    rw [ha.1, ha.2.1, Outcome.ok_bind, Outcome.ok_bind]
    show (lapVec g.dim n dx (gridAt .serial g (τ 0)) (g.position i)).bind _ = (lapVec g.dim n dx (gridAt .serial g (τ 0)) (g.position i)).bind _
    cases hl : lapVec g.dim n dx (gridAt .serial g (τ 0)) (g.position i) with
    | ok l =>
      have hll := lapVec_length dx _ _ hl
      simp only [Outcome.ok_bind, checked_exact hy, checked_exact hll, fill_exact hz]
    | ub => rfl
    | abort c => rfl
  · unfold DensePF.isoCell at e
    have ha := node_access (bd := .serial) hg (fun _ => h0) (i := i) (by omega) hi old
    have hy := ho _ ha.2.2.1 ha.2.2.2
    rw [ha.2.1, Outcome.ok_bind] at e
    cases hl : Stencil.laplacianVec .serial g n dx old (g.position i) with
    | ok l =>
      have hll : l.length = n := lapVec_length dx (gridAt .serial g old) _ hl
      simp only [hl, Outcome.ok_bind, checked_exact hy, checked_exact hll] at e
      exact fill_length hz e
    | ub => rw [hl] at e; cases e
    | abort c => rw [hl] at e; cases e

/-- **C87, link.** The same for the anisotropic examples. -/
theorem anisoDense_serial (hg : g.Wf) (h0 : g.ghosts = 0) (dx : Nat → α) (dt : α) (energy mu : Int → Int → α) (eps w : α → α) (steps : Nat) {σ : Grids (List α)}
    (hσ : ∀ k, k ≤ 1 → ∀ o, 0 ≤ o → o < g.cells → (σ k o).length = n) :
    serialRun g (evolveUpdate (anisoKernel (fun v => decide (v > 0)) g.dim n dx fun s l y h => DensePF.pairValues dt n energy mu eps w s (entry l) (entry y) h) steps) σ =
      (DensePF.anisoRun g n dx dt energy mu eps w steps (σ 0) (σ 1)).bind fun s => .ok (withPair σ s) := by
  refine serialRun_pass (Q := fun v => v.length = n) hg h0 (fun τ i hi hτ => ?_) (fun old i z v hi ho hz e => ?_) hσ steps
  · have ha := node_access (bd := .serial) hg (fun _ => h0) (i := i) (by omega) hi (τ 0)
    have hb := node_access (bd := .serial) hg (fun _ => h0) (i := i) (by omega) hi (τ 1)
    have hy := hτ 0 (by decide) _ ha.2.2.1 ha.2.2.2
    have hz := hτ 1 (by decide) _ hb.2.2.1 hb.2.2.2
    unfold anisoKernel DensePF.anisoCell
    beta_reduce
    simp only [ha.1, ha.2.1]
    show (markedAt _ g.dim n (gridAt .serial g (τ 0)) (g.position i)).bind _ = (markedAt _ g.dim n (gridAt .serial g (τ 0)) (g.position i)).bind _
    congr 1
    funext s
    rw [Outcome.ok_bind]
    split_ifs
    · rfl
    · show (lapVec g.dim n dx (gridAt .serial g (τ 0)) (g.position i)).bind _ = (lapVec g.dim n dx (gridAt .serial g (τ 0)) (g.position i)).bind _
      cases hl : lapVec g.dim n dx (gridAt .serial g (τ 0)) (g.position i) with
      | ok l =>
        have hll := lapVec_length dx _ _ hl
        simp only [Outcome.ok_bind, checked_exact hy, checked_exact hll, fill_exact hz]
      | ub => rfl
      | abort c => rfl
  · unfold DensePF.anisoCell at e
    have ha := node_access (bd := .serial) hg (fun _ => h0) (i := i) (by omega) hi old
    have hy := ho _ ha.2.2.1 ha.2.2.2
    rw [ha.2.1] at e
    cases hm : DensePF.marked .serial g n old (g.position i) with
    | ok s =>
      rw [hm, Outcome.ok_bind, Outcome.ok_bind] at e
      split_ifs at e
      · cases e; exact hy
      · cases hl : Stencil.laplacianVec .serial g n dx old (g.position i) with
        | ok l =>
          have hll : l.length = n := lapVec_length dx (gridAt .serial g old) _ hl
          simp only [hl, Outcome.ok_bind, checked_exact hy, checked_exact hll] at e
          exact fill_length hz e
        | ub => rw [hl] at e; cases e
        | abort c => rw [hl] at e; cases e
    | ub => rw [hm] at e; cases e
    | abort c => rw [hm] at e; cases e

end Dense

/-! ## Sparse cells -/

section SparseCells
variable {α : Type} [Field α] [LinearOrder α] {g : Shape}

omit [LinearOrder α] in
theorem sparse_loop (hg : g.Wf) (h0 : g.ghosts = 0) (dx : Nat → α) (f : Sparse.Cell Int → Sparse.Cell α → Sparse.Cell α → Sparse.Cell α → Sparse.Cell α) (τ : Grids (Sparse.Cell α)) :
    runLoop .serial g 1 (sparseKernel g.dim dx f) τ = (SparsePF.sweep .serial g dx (fun _ => f) (τ 0) (τ 1)).bind fun a => .ok (Function.update τ 1 a) := by
  refine (runLoop_fold (Q := fun _ => True) ?_ (fun _ _ _ _ _ _ _ _ _ => trivial) fun _ _ _ => trivial).1
  intro ρ hρ _ i hi
  have ha := node_access (bd := .serial) hg (fun _ => h0) (i := i) (by omega) hi (ρ 0)
  have hb := node_access (bd := .serial) hg (fun _ => h0) (i := i) (by omega) hi (ρ 1)
  unfold sparseKernel
  beta_reduce
  simp only [← hρ 0 (by decide), ha.1, ha.2.1, hb.1, hb.2.1]
  show ((SparsePF.nearby .serial g (ρ 0) (g.position i)).bind _).bind _ = _
  cases SparsePF.nearby .serial g (ρ 0) (g.position i) with
  | ok s =>
    simp only [Outcome.ok_bind]
    show ((if s.length < 2 then Outcome.ok [] else Stencil.laplacianSparse .serial g dx (ρ 0) (g.position i)).bind _).bind _ = _
    cases (if s.length < 2 then Outcome.ok [] else Stencil.laplacianSparse .serial g dx (ρ 0) (g.position i)) <;> rfl
  | ub => rfl
  | abort c => rfl

omit [LinearOrder α] in
theorem sparse_serial (hg : g.Wf) (h0 : g.ghosts = 0) (dx : Nat → α) (f : Sparse.Cell Int → Sparse.Cell α → Sparse.Cell α → Sparse.Cell α → Sparse.Cell α) (steps : Nat) (σ : Grids (Sparse.Cell α)) :
    serialRun g (evolveUpdate (sparseKernel g.dim dx f) steps) σ =
      (evolveRun (fun old new => SparsePF.sweep .serial g dx (fun _ => f) old new) steps (σ 0, σ 1)).bind fun s => .ok (withPair σ s) :=
  serialRun_evolve (Q := fun _ => True) (fun τ _ => ⟨sparse_loop hg h0 dx f τ, fun _ _ _ _ _ => trivial⟩) (fun _ _ _ _ _ => trivial) steps

/-- **C87, link.** The serial run of the parallel program is the run of the serial model of the isotropic sparse example. -/
theorem isoSparse_serial (hg : g.Wf) (h0 : g.ghosts = 0) (dx : Nat → α) (dt : α) (steps : Nat) {σ : Grids (Sparse.Cell α)} (hσ : σ 1 = fun _ => []) :
    serialRun g (evolveUpdate (sparseKernel g.dim dx (SparsePF.isoNode dt)) steps) σ = (SparsePF.isoRun g dx dt steps (σ 0)).bind fun s => .ok (withPair σ s) := by
  have : ∀ n, evolveRun (fun old new => SparsePF.sweep .serial g dx (fun _ => SparsePF.isoNode dt) old new) n (σ 0, fun _ => []) = SparsePF.isoRun g dx dt n (σ 0) := by
    intro n
    induction n with
    | zero => rfl
    | succ n ih => simp only [evolveRun, SparsePF.isoRun, ih]; rfl
  rw [sparse_serial hg h0, hσ, this]

/-- **C87, link.** The same for the anisotropic sparse examples (with `mobility := SparsePF.pinned m` for Zener pinning). -/
theorem anisoSparse_serial (hg : g.Wf) (h0 : g.ghosts = 0) (dx : Nat → α) (dt : α) (energy mobility : Int → Int → α) (eps w : α → α) (steps : Nat) {σ : Grids (Sparse.Cell α)}
    (hσ : σ 1 = fun _ => []) :
    serialRun g (evolveUpdate (sparseKernel g.dim dx (SparsePF.anisoNode dt energy mobility eps w)) steps) σ =
      (SparsePF.anisoRun g dx dt energy mobility eps w steps (σ 0)).bind fun s => .ok (withPair σ s) := by
  have : ∀ n, evolveRun (fun old new => SparsePF.sweep .serial g dx (fun _ => SparsePF.anisoNode dt energy mobility eps w) old new) n (σ 0, fun _ => []) =
      SparsePF.anisoRun g dx dt energy mobility eps w n (σ 0) := by
    intro n
    induction n with
    | zero => rfl
    | succ n ih => simp only [evolveRun, SparsePF.anisoRun, ih]; rfl
  rw [sparse_serial hg h0, hσ, this]

end SparseCells

/-! ## Ostwald ripening -/

theorem fold_encode {S T ι : Type} (enc : S → T) {f : S → ι → Outcome S} {F : T → ι → Outcome T} {Inv : S → Prop} (l : List ι)
    (h : ∀ s, Inv s → ∀ i ∈ l, F (enc s) i = (f s i).bind fun s => .ok (enc s)) (hI : ∀ s, Inv s → ∀ i ∈ l, ∀ s', f s i = .ok s' → Inv s') (s : S) (hs : Inv s) :
    l.foldlM F (enc s) = ((l.foldlM f s).bind fun s => .ok (enc s)) ∧ ∀ s', l.foldlM f s = .ok s' → Inv s' := by
  induction l generalizing s with
  | nil => exact ⟨rfl, fun s' e => by cases e; exact hs⟩
  | cons i l ih =>
    simp only [List.foldlM_cons, Outcome.bind_eq]
    rw [h s hs i (by simp)]
    cases e : f s i with
    | ok s1 => exact ih (fun s hs j hj => h s hs j (by simp [hj])) (fun s hs j hj => hI s hs j (by simp [hj])) s1 (hI s hs i (by simp) s1 e)
    | ub => exact ⟨rfl, fun s' e => by cases e⟩
    | abort c => exact ⟨rfl, fun s' e => by cases e⟩

section Ostwald
variable {α : Type} [Field α] {g : Shape} {n : Nat}

/-- The state of the serial model as numbered grids. -/
def ostwaldGrids (junk : Grids (List α)) (s : Ostwald.State α) : Grids (List α) :=
  fun k => if k = 0 then s.old else if k = 1 then s.new else if k = 2 then fun o => [s.w o] else junk k

omit [Field α] in
theorem entryAt_single (bd : Build) (w : Int → α) (x : Nat → Int) : entryAt (gridAt bd g fun o => [w o]) 0 x = gridAt bd g w x := by
  unfold entryAt gridAt deref
  split_ifs <;> rfl

/-- ostwald.cpp 89-99 -/
def ostwaldPot (n : Nat) (p : Ostwald.Params α) (y : List α) (lap : α) : α := Ostwald.potential p (Ostwald.squares n (entry y)) (entry y 0) lap
/-- ostwald.cpp 104-119 -/
def ostwaldValue (n : Nat) (p : Ostwald.Params α) (y l : List α) (lap : α) (h : Nat) : α :=
  if (h : Int) = 0 then entry y 0 + p.dt * p.D * lap else entry y h - p.dt * p.L * Ostwald.force p (Ostwald.squares n (entry y)) (entry y 0) (entry y h) (entry l h)

theorem potential_loop (hg : g.Wf) (h0 : g.ghosts = 0) (p : Ostwald.Params α) (dx : Nat → α) (junk : Grids (List α)) (s : Ostwald.State α)
    (hs : ∀ o, 0 ≤ o → o < g.cells → (s.old o).length = n) :
    runLoop .serial g 2 (potentialKernel g.dim (fun h => h ^ 2) dx (ostwaldPot n p)) (ostwaldGrids junk s) =
      (Ostwald.first g n p dx s.old s.w).bind fun w => .ok (ostwaldGrids junk { s with w := w }) := by
  refine (fold_encode (fun w => ostwaldGrids junk { s with w := w }) (Inv := fun _ => True) _ (fun w _ i hi => ?_) (fun _ _ _ _ _ _ => trivial) s.w trivial).1
  have hi : (i : Int) < g.nodes := by have := List.mem_range.1 hi; omega
  have ha := node_access (bd := .serial) hg (fun _ => h0) (i := i) (by omega) hi s.old
  have hy := hs _ ha.2.2.1 ha.2.2.2
  have e : potentialKernel g.dim (fun h => h ^ 2) dx (ostwaldPot n p) (fun k => gridAt .serial g (ostwaldGrids junk { s with w := w } k)) (g.position i) =
      (Ostwald.potentialAt g n p dx s.old i).bind fun v => .ok [v] := by
    unfold potentialKernel Ostwald.potentialAt Stencil.laplacianField
    have e0 : ostwaldGrids junk { s with w := w } 0 = s.old := rfl
    simp only [e0, ha.1, ha.2.1, Outcome.ok_bind, checked_exact hy, entryAt]
    cases elem (s.old (g.atNode .serial i)) 0 with
    | ok y0 =>
      simp only [Outcome.ok_bind]
      have ee : (entryAt (gridAt .serial g s.old) 0) = fun s' => (gridAt .serial g s.old s').bind fun v => elem v 0 := rfl
      rw [ee]
      cases lapLoop (fun s' => (gridAt .serial g s.old s').bind fun v => elem v 0) (fun i => 1 / dx i ^ 2) y0 (List.range g.dim) (g.position i) 0 <;> rfl
    | ub => rfl
    | abort c => rfl
  rw [e, Shape.atNode_eq_atVec hg .serial (fun _ => h0) (by omega) hi]
  cases Ostwald.potentialAt g n p dx s.old i with
  | ok v =>
    simp only [Outcome.ok_bind]
    unfold store
    by_cases hb : 0 ≤ g.atVec .serial (g.position i) ∧ g.atVec .serial (g.position i) < g.cells
    · rw [if_pos hb, if_pos hb, Outcome.ok_bind, Outcome.ok_bind]
      congr 1
      funext k
      by_cases hk : k = 2
      · subst hk
        rw [Function.update_self]
        funext o
        show Function.update (fun o => [w o]) _ [v] o = [Function.update w _ v o]
        by_cases ho : o = g.atVec .serial (g.position i)
        · subst ho; simp only [Function.update_self]
        · simp only [Function.update_of_ne ho]
      · rw [Function.update_of_ne hk]; unfold ostwaldGrids; simp only [hk, if_false]
    · rw [if_neg hb, if_neg hb]; rfl
  | ub => rfl
  | abort c => rfl

theorem ostwald_loop (hg : g.Wf) (h0 : g.ghosts = 0) (p : Ostwald.Params α) (dx : Nat → α) (junk : Grids (List α)) (s : Ostwald.State α)
    (hs : ∀ o, 0 ≤ o → o < g.cells → (s.old o).length = n ∧ (s.new o).length = n) :
    runLoop .serial g 1 (ostwaldKernel g.dim n dx (ostwaldValue n p)) (ostwaldGrids junk s) =
      ((pass .serial g (Ostwald.cell g n p dx s.w s.old) s.new).bind fun out => .ok (ostwaldGrids junk { s with new := out })) ∧
    ∀ out, pass .serial g (Ostwald.cell g n p dx s.w s.old) s.new = .ok out → ∀ o, 0 ≤ o → o < g.cells → (out o).length = n := by
  refine fold_encode (fun new => ostwaldGrids junk { s with new := new }) (Inv := fun new => ∀ o, 0 ≤ o → o < g.cells → (new o).length = n) _ (fun new hn i hi => ?_) ?_ s.new
    fun o h1 h2 => (hs o h1 h2).2
  · have hi : (i : Int) < g.nodes := by have := List.mem_range.1 hi; omega
    have ha := node_access (bd := .serial) hg (fun _ => h0) (i := i) (by omega) hi s.old
    have hb := node_access (bd := .serial) hg (fun _ => h0) (i := i) (by omega) hi new
    have hy := (hs _ ha.2.2.1 ha.2.2.2).1
    have hz := hn _ hb.2.2.1 hb.2.2.2
    have e : ostwaldKernel g.dim n dx (ostwaldValue n p) (fun k => gridAt .serial g (ostwaldGrids junk { s with new := new } k)) (g.position i) =
        Ostwald.cell g n p dx s.w s.old i (new (g.atNode .serial i)) := by
      unfold ostwaldKernel Ostwald.cell Stencil.laplacian
      have e0 : ostwaldGrids junk { s with new := new } 0 = s.old := rfl
      have e2 : ostwaldGrids junk { s with new := new } 2 = fun o => [s.w o] := rfl
      have e3 : entryAt (gridAt .serial g fun o => [s.w o]) 0 = gridAt .serial g s.w := funext (entryAt_single .serial s.w)
      simp only [e0, e2, e3, ha.1, ha.2.1, Outcome.ok_bind, checked_exact hy]
      cases gridAt .serial g s.w (g.position i) with
      | ok w0 =>
        simp only [Outcome.ok_bind]
        cases lapLoop (gridAt .serial g s.w) (fun i => lapWeight (dx i)) w0 (List.range g.dim) (g.position i) 0 with
        | ok lap =>
          simp only [Outcome.ok_bind]
          show (lapVec g.dim n dx (gridAt .serial g s.old) (g.position i)).bind _ = (lapVec g.dim n dx (gridAt .serial g s.old) (g.position i)).bind _
          cases hl : lapVec g.dim n dx (gridAt .serial g s.old) (g.position i) with
          | ok l => simp only [Outcome.ok_bind, checked_exact (lapVec_length dx _ _ hl), fill_exact hz]; rfl
          | ub => rfl
          | abort c => rfl
        | ub => rfl
        | abort c => rfl
      | ub => rfl
      | abort c => rfl
    rw [e, hb.2.1, Outcome.ok_bind]
    cases Ostwald.cell g n p dx s.w s.old i (new (g.atNode .serial i)) with
    | ok v =>
      have en : ostwaldGrids junk { s with new := new } 1 = new := rfl
      simp only [Outcome.ok_bind, en]
      unfold store
      rw [if_pos hb.2.2, Outcome.ok_bind, Outcome.ok_bind]
      congr 1
      funext k
      by_cases hk : k = 1
      · subst hk; rw [Function.update_self]; rfl
      · rw [Function.update_of_ne hk]; unfold ostwaldGrids; simp only [hk, if_false]
    | ub => rfl
    | abort c => rfl
  · intro new hn i hi new' e o h1 h2
    have hi : (i : Int) < g.nodes := by have := List.mem_range.1 hi; omega
    have ha := node_access (bd := .serial) hg (fun _ => h0) (i := i) (by omega) hi s.old
    have hb := node_access (bd := .serial) hg (fun _ => h0) (i := i) (by omega) hi new
    have hz := hn _ hb.2.2.1 hb.2.2.2
    rw [hb.2.1, Outcome.ok_bind] at e
    cases hc : Ostwald.cell g n p dx s.w s.old i (new (g.atNode .serial i)) with
    | ok v =>
      have hv : v.length = n := by
        unfold Ostwald.cell at hc
        cases h3 : Stencil.laplacian .serial g dx s.w (g.position i) with
        | ok lap =>
          rw [h3, Outcome.ok_bind, ha.2.1, Outcome.ok_bind, checked_exact (hs _ ha.2.2.1 ha.2.2.2).1, Outcome.ok_bind] at hc
          cases h4 : Stencil.laplacianVec .serial g n dx s.old (g.position i) with
          | ok l =>
            have hll : l.length = n := lapVec_length dx (gridAt .serial g s.old) _ h4
            rw [h4, Outcome.ok_bind, checked_exact hll, Outcome.ok_bind] at hc
            exact fill_length hz hc
          | ub => rw [h4] at hc; cases hc
          | abort c => rw [h4] at hc; cases hc
        | ub => rw [h3] at hc; cases hc
        | abort c => rw [h3] at hc; cases hc
      rw [hc, Outcome.ok_bind] at e
      unfold store at e
      rw [if_pos hb.2.2] at e
      cases e
      by_cases e' : o = g.atNode .serial i
      · subst e'; rw [Function.update_self]; exact hv
      · rw [Function.update_of_ne e']; exact hn o h1 h2
    | ub => rw [hc] at e; cases e
    | abort c => rw [hc] at e; cases e

/-- **C87, link.** The serial run of the parallel program is the run of the serial model of Ostwald ripening. -/
theorem ostwald_serial (hg : g.Wf) (h0 : g.ghosts = 0) (p : Ostwald.Params α) (dx : Nat → α) (steps : Nat) (junk : Grids (List α)) (s : Ostwald.State α)
    (hs : ∀ o, 0 ≤ o → o < g.cells → (s.old o).length = n ∧ (s.new o).length = n) :
    serialRun g (ostwaldUpdate g.dim n (fun h => h ^ 2) dx (ostwaldPot n p) (ostwaldValue n p) steps) (ostwaldGrids junk s) =
      (Ostwald.update g n p dx steps s).bind fun s => .ok (ostwaldGrids junk s) := by
  have key : ∀ k, serialRun g (repeatProg [.loop 2 (potentialKernel g.dim (fun h => h ^ 2) dx (ostwaldPot n p)), .ghostswap 2, .loop 1 (ostwaldKernel g.dim n dx (ostwaldValue n p)),
        .swap 0 1, .ghostswap 0] k) (ostwaldGrids junk s) = ((Ostwald.update g n p dx k s).bind fun s => .ok (ostwaldGrids junk s)) ∧
      ∀ s', Ostwald.update g n p dx k s = .ok s' → ∀ o, 0 ≤ o → o < g.cells → (s'.old o).length = n ∧ (s'.new o).length = n := by
    intro k
    induction k with
    | zero => exact ⟨rfl, fun s' e => by cases e; exact hs⟩
    | succ k ih =>
      obtain ⟨i1, i2⟩ := ih
      rw [repeatProg_succ, serialRun_append, i1]
      simp only [Ostwald.update]
      cases he : Ostwald.update g n p dx k s with
      | ok s1 =>
        have hq := i2 s1 he
        simp only [Outcome.ok_bind]
        have hrun : serialRun g [.loop 2 (potentialKernel g.dim (fun h => h ^ 2) dx (ostwaldPot n p)), .ghostswap 2, .loop 1 (ostwaldKernel g.dim n dx (ostwaldValue n p)),
            .swap 0 1, .ghostswap 0] (ostwaldGrids junk s1) =
            (runLoop .serial g 2 (potentialKernel g.dim (fun h => h ^ 2) dx (ostwaldPot n p)) (ostwaldGrids junk s1)).bind fun τ =>
            (runLoop .serial g 1 (ostwaldKernel g.dim n dx (ostwaldValue n p)) τ).bind fun τ => .ok (swapGrids 0 1 τ) := by
          unfold serialRun
          simp only [List.foldlM_cons, List.foldlM_nil, serialStmt, Outcome.bind_eq, Outcome.pure_eq, Outcome.ok_bind]
        rw [hrun, potential_loop hg h0 p dx junk s1 fun o h1 h2 => (hq o h1 h2).1]
        unfold Ostwald.step
        cases hw : Ostwald.first g n p dx s1.old s1.w with
        | ok w =>
          simp only [Outcome.ok_bind]
          obtain ⟨l1, l2⟩ := ostwald_loop (n := n) hg h0 p dx junk { s1 with w := w } hq
          rw [l1]
          dsimp only at l2 ⊢
          cases hp : pass .serial g (Ostwald.cell g n p dx w s1.old) s1.new with
          | ok out =>
            simp only [Outcome.ok_bind]
            refine ⟨?_, fun s' e o h1 h2 => by cases e; exact ⟨l2 out hp o h1 h2, (hq o h1 h2).1⟩⟩
            congr 1
            funext k
            unfold swapGrids ostwaldGrids
            by_cases k0 : k = 0
            · subst k0; simp
            · by_cases k1 : k = 1
              · subst k1; simp
              · simp [k0, k1]
          | ub => exact ⟨rfl, fun s' e => by cases e⟩
          | abort c => exact ⟨rfl, fun s' e => by cases e⟩
        | ub => exact ⟨rfl, fun s' e => by cases e⟩
        | abort c => exact ⟨rfl, fun s' e => by cases e⟩
      | ub => exact ⟨rfl, fun s' e => by cases e⟩
      | abort c => exact ⟨rfl, fun s' e => by cases e⟩
  have h1 : serialRun g (ostwaldUpdate g.dim n (fun h => h ^ 2) dx (ostwaldPot n p) (ostwaldValue n p) steps) (ostwaldGrids junk s) =
      serialRun g (repeatProg [.loop 2 (potentialKernel g.dim (fun h => h ^ 2) dx (ostwaldPot n p)), .ghostswap 2, .loop 1 (ostwaldKernel g.dim n dx (ostwaldValue n p)),
        .swap 0 1, .ghostswap 0] steps) (ostwaldGrids junk s) := by
    unfold ostwaldUpdate serialRun; rw [List.foldlM_cons]; rfl
  rw [h1, (key steps).1]

end Ostwald

/-! ## Solidification -/

section Solid
variable {α : Type} [Field α] [LinearOrder α] {g : Shape}

/-- A grid of pairs as a grid of vectors. -/
def pairGrid (a : Int → α × α) : Int → List α := fun o => [(a o).1, (a o).2]

omit [Field α] [LinearOrder α] in
theorem entryAt_pair (bd : Build) (a : Int → α × α) (x : Nat → Int) :
    entryAt (gridAt bd g (pairGrid a)) 0 x = ((gridAt bd g a x).bind fun v => .ok v.1) ∧ entryAt (gridAt bd g (pairGrid a)) 1 x = (gridAt bd g a x).bind fun v => .ok v.2 := by
  unfold entryAt gridAt deref
  split_ifs <;> exact ⟨rfl, rfl⟩

/-- solidification.cpp 97-116 -/
def solidFlux (p : Solid.Params α) (dx : Nat → α) (center right upper : α) : α × α := Solid.flux p ((right - center) / dx 0) ((upper - center) / dx 1)

/-- solidification.cpp 123-156 -/
def solidValue (p : Solid.Params α) (dx : Nat → α) (dt : α) (a : Around α) : α × α :=
  (Solid.newPhi p dt a.phi a.u (0 + (a.d0 - a.left) / dx 0 + (a.d1 - a.lower) / dx 1),
    a.u + dt * (p.DiffT * (0 + (a.r0 - 2 * a.u + a.l0) / dx 0 ^ 2 + (a.r1 - 2 * a.u + a.l1) / dx 1 ^ 2) + (a.phi - a.ref) / dt))

omit [LinearOrder α] in
/-- **C87, link.** The flux loop assigns what the serial model assigns. -/
theorem solid_flux_serial (p : Solid.Params α) (dx : Nat → α) (A : Nat → Access (List α)) (old : Int → α × α) (h0 : A 0 = gridAt .serial g (pairGrid old)) (i : Int) (z : α × α) :
    fluxKernel (solidFlux p dx) A (g.position i) = (Solid.fluxAt p g dx old i z).bind fun v => .ok [v.1, v.2] := by
  unfold fluxKernel Solid.fluxAt
  simp only [h0, (entryAt_pair .serial old _).1]
  cases gridAt .serial g old (g.position i) <;> try rfl
  simp only [Outcome.ok_bind]
  cases gridAt .serial g old (bump (g.position i) 0 1) <;> try rfl
  simp only [Outcome.ok_bind]
  cases gridAt .serial g old (bump (g.position i) 1 1) <;> rfl

/-- **C87, link.** The main loop assigns what the serial model assigns. -/
theorem solid_value_serial (hg : g.Wf) (hgh : g.ghosts = 0) (p : Solid.Params α) (dx : Nat → α) (dt : α) (A : Nat → Access (List α)) (old flow : Int → α × α) (ref : Int → α)
    (h0 : A 0 = gridAt .serial g (pairGrid old)) (h2 : A 2 = gridAt .serial g (pairGrid flow)) (h3 : A 3 = gridAt .serial g fun o => [ref o]) {i : Int} (hi0 : 0 ≤ i) (hi : i < g.nodes)
    (z : α × α) : solidKernel (solidValue p dx dt) A (g.position i) = (Solid.solidCell p g dx dt old flow ref i z).bind fun v => .ok [v.1, v.2] := by
  have hr := node_access (bd := .serial) hg (fun _ => hgh) hi0 hi ref
  have ho := node_access (bd := .serial) hg (fun _ => hgh) hi0 hi old
  have hf := node_access (bd := .serial) hg (fun _ => hgh) hi0 hi flow
  unfold solidKernel Solid.solidCell
  simp only [h0, h2, h3, (entryAt_pair .serial old _).1, (entryAt_pair .serial old _).2, (entryAt_pair .serial flow _).1, (entryAt_pair .serial flow _).2, entryAt_single, hr.1, hr.2.1,
    ho.1, ho.2.1, hf.1, hf.2.1, Outcome.ok_bind]
  cases gridAt .serial g flow (bump (g.position i) 0 (-1)) <;> try rfl
  simp only [Outcome.ok_bind]
  cases gridAt .serial g flow (bump (g.position i) 1 (-1)) <;> try rfl
  simp only [Outcome.ok_bind]
  cases gridAt .serial g old (bump (g.position i) 0 1) <;> try rfl
  simp only [Outcome.ok_bind]
  cases gridAt .serial g old (bump (g.position i) 0 (-1)) <;> try rfl
  simp only [Outcome.ok_bind]
  cases gridAt .serial g old (bump (g.position i) 1 1) <;> try rfl
  simp only [Outcome.ok_bind]
  cases gridAt .serial g old (bump (g.position i) 1 (-1)) <;> rfl

end Solid

/-! ## The parallel programs and the serial models -/

section Models
variable {α : Type} [Field α] [LinearOrder α] {w : World} {np n : Nat} {c : Nat → Cell (List α)}

omit [LinearOrder α] in
/-- **C87.** The parallel isotropic program ends on every rank, and its nodes hold what the serial model of C63 computes. -/
theorem isoDense_model (hc : ∀ k, RoundTrips (c k)) (hPc : ∀ k v, Entries α n k v → (c k).Valid v) (h : w.Ok np) (hgh : 1 ≤ w.ghosts) (dx : Nat → α)
    (value : (Int → α) → (Int → α) → Int → α) (steps : Nat) {σ : Grids (List α)} {D : Int → Grids (List α)} (hF : SameField w np σ D 0) (hS : AllCells w np (Entries α n) σ D) :
    ∃ s D', DensePF.isoRun w.serial n dx value steps (σ 0) (σ 1) = .ok s ∧
      Finished np (mpiRun c w (evolveUpdate (isoKernel w.d n dx fun l y h => value (entry l) (entry y) h) steps) fun r => .ok (D r)) D' ∧
      ∀ r, IsRank np r → ∀ x, (w.shape r).IsNode x → cellAt (w.shape r) (D' r 0) x = cellAt w.serial s.1 x := by
  obtain ⟨σ', D', e1, e2, e3⟩ := isoDense_parallel hc hPc h hgh dx (fun l y h => value (entry l) (entry y) h) steps hF hS
  have e4 := (isoDense_serial (g := w.serial) (serial_wf h) rfl dx value steps (σ := σ) fun k _ => (hS k).1).symm.trans e1
  cases e : DensePF.isoRun w.serial n dx value steps (σ 0) (σ 1) with
  | ok s => rw [e] at e4; cases e4; exact ⟨s, D', rfl, e2, e3⟩
  | ub => rw [e] at e4; cases e4
  | abort a => rw [e] at e4; cases e4

/-- **C87.** The same for the anisotropic programs. -/
theorem anisoDense_model (hc : ∀ k, RoundTrips (c k)) (hPc : ∀ k v, Entries α n k v → (c k).Valid v) (h : w.Ok np) (hgh : 1 ≤ w.ghosts) (dx : Nat → α) (dt : α)
    (energy mu : Int → Int → α) (eps wd : α → α) (steps : Nat) {σ : Grids (List α)} {D : Int → Grids (List α)} (hF : SameField w np σ D 0) (hS : AllCells w np (Entries α n) σ D) :
    ∃ s D', DensePF.anisoRun w.serial n dx dt energy mu eps wd steps (σ 0) (σ 1) = .ok s ∧
      Finished np (mpiRun c w (evolveUpdate (anisoKernel (fun v => decide (v > 0)) w.d n dx fun s l y h => DensePF.pairValues dt n energy mu eps wd s (entry l) (entry y) h) steps)
        fun r => .ok (D r)) D' ∧
      ∀ r, IsRank np r → ∀ x, (w.shape r).IsNode x → cellAt (w.shape r) (D' r 0) x = cellAt w.serial s.1 x := by
  obtain ⟨σ', D', e1, e2, e3⟩ := anisoDense_parallel hc hPc h hgh (fun v => decide (v > 0)) dx (fun s l y h => DensePF.pairValues dt n energy mu eps wd s (entry l) (entry y) h) steps hF hS
  have e4 := (anisoDense_serial (g := w.serial) (serial_wf h) rfl dx dt energy mu eps wd steps (σ := σ) fun k _ => (hS k).1).symm.trans e1
  cases e : DensePF.anisoRun w.serial n dx dt energy mu eps wd steps (σ 0) (σ 1) with
  | ok s => rw [e] at e4; cases e4; exact ⟨s, D', rfl, e2, e3⟩
  | ub => rw [e] at e4; cases e4
  | abort a => rw [e] at e4; cases e4

/-- **C87.** The same for the isotropic sparse program of C44. -/
theorem isoSparse_model {c : Nat → Cell (Sparse.Cell α)} {I : Finset Int} (hc : ∀ k, RoundTrips (c k)) (hPc : ∀ k v, Lists I v → (c k).Valid v) (h : w.Ok np)
    (hgh : 1 ≤ w.ghosts) (dx : Nat → α) (dt : α) (steps : Nat) {σ : Grids (Sparse.Cell α)} {D : Int → Grids (Sparse.Cell α)} (hF : SameField w np σ D 0)
    (hS : AllCells w np (fun _ => Lists I) σ D) (hσ : σ 1 = fun _ => []) (hD : ∀ r o, D r 1 o = []) :
    ∃ s D', SparsePF.isoRun w.serial dx dt steps (σ 0) = .ok s ∧ Finished np (mpiRun c w (evolveUpdate (sparseKernel w.d dx (SparsePF.isoNode dt)) steps) fun r => .ok (D r)) D' ∧
      ∀ r, IsRank np r → ∀ x, (w.shape r).IsNode x → cellAt (w.shape r) (D' r 0) x = cellAt w.serial s.1 x := by
  obtain ⟨σ', D', e1, e2, e3⟩ := sparse_parallel hc hPc h hgh dx (isoNode_local dt) steps hF hS (fun o => by rw [hσ]) hD
  have e4 := (isoSparse_serial (g := w.serial) (serial_wf h) rfl dx dt steps hσ).symm.trans e1
  cases e : SparsePF.isoRun w.serial dx dt steps (σ 0) with
  | ok s => rw [e] at e4; cases e4; exact ⟨s, D', rfl, e2, e3⟩
  | ub => rw [e] at e4; cases e4
  | abort a => rw [e] at e4; cases e4

/-- **C87.** The same for the anisotropic sparse programs. -/
theorem anisoSparse_model {c : Nat → Cell (Sparse.Cell α)} {I : Finset Int} (hc : ∀ k, RoundTrips (c k)) (hPc : ∀ k v, Lists I v → (c k).Valid v) (h : w.Ok np)
    (hgh : 1 ≤ w.ghosts) (dx : Nat → α) (dt : α) (energy mobility : Int → Int → α) (eps wd : α → α) (steps : Nat) {σ : Grids (Sparse.Cell α)} {D : Int → Grids (Sparse.Cell α)}
    (hF : SameField w np σ D 0) (hS : AllCells w np (fun _ => Lists I) σ D) (hσ : σ 1 = fun _ => []) (hD : ∀ r o, D r 1 o = []) :
    ∃ s D', SparsePF.anisoRun w.serial dx dt energy mobility eps wd steps (σ 0) = .ok s ∧
      Finished np (mpiRun c w (evolveUpdate (sparseKernel w.d dx (SparsePF.anisoNode dt energy mobility eps wd)) steps) fun r => .ok (D r)) D' ∧
      ∀ r, IsRank np r → ∀ x, (w.shape r).IsNode x → cellAt (w.shape r) (D' r 0) x = cellAt w.serial s.1 x := by
  obtain ⟨σ', D', e1, e2, e3⟩ := sparse_parallel hc hPc h hgh dx (anisoNode_local dt energy mobility eps wd) steps hF hS (fun o => by rw [hσ]) hD
  have e4 := (anisoSparse_serial (g := w.serial) (serial_wf h) rfl dx dt energy mobility eps wd steps hσ).symm.trans e1
  cases e : SparsePF.anisoRun w.serial dx dt energy mobility eps wd steps (σ 0) with
  | ok s => rw [e] at e4; cases e4; exact ⟨s, D', rfl, e2, e3⟩
  | ub => rw [e] at e4; cases e4
  | abort a => rw [e] at e4; cases e4

omit [LinearOrder α] in
/-- **C87.** The same for Ostwald ripening. -/
theorem ostwald_model (hc : ∀ k, RoundTrips (c k)) (hPc : ∀ k v, Sizes α n 2 k v → (c k).Valid v) (h : w.Ok np) (hgh : 1 ≤ w.ghosts) (hn : 0 < n) (p : Ostwald.Params α) (dx : Nat → α)
    (steps : Nat) (junk : Grids (List α)) (s : Ostwald.State α) {D : Int → Grids (List α)} (hF : SameField w np (ostwaldGrids junk s) D 0)
    (hS : AllCells w np (Sizes α n 2) (ostwaldGrids junk s) D) :
    ∃ s' D', Ostwald.update w.serial n p dx steps s = .ok s' ∧
      Finished np (mpiRun c w (ostwaldUpdate w.d n (fun h => h ^ 2) dx (ostwaldPot n p) (ostwaldValue n p) steps) fun r => .ok (D r)) D' ∧
      ∀ r, IsRank np r → ∀ x, (w.shape r).IsNode x → cellAt (w.shape r) (D' r 0) x = cellAt w.serial s'.old x := by
  obtain ⟨σ', D', e1, e2, e3⟩ := ostwald_parallel hc hPc h hgh hn (fun h => h ^ 2) dx (ostwaldPot n p) (ostwaldValue n p) steps hF hS
  have e4 := (ostwald_serial (g := w.serial) (n := n) (serial_wf h) rfl p dx steps junk s fun o h1 h2 => ⟨(hS 0).1 o h1 h2, (hS 1).1 o h1 h2⟩).symm.trans e1
  cases e : Ostwald.update w.serial n p dx steps s with
  | ok s => rw [e] at e4; cases e4; exact ⟨s, D', rfl, e2, e3⟩
  | ub => rw [e] at e4; cases e4
  | abort a => rw [e] at e4; cases e4

end Models

/-! ## Examples -/

/-- Bytes that stand for one value: a self-delimiting code of its number in an enumeration. -/
def unaryCell (T : Type) [Encodable T] : Cell T where
  Valid := fun _ => True
  size := fun v => Encodable.encode v + 1
  enc := fun v => List.replicate (Encodable.encode v) 1 ++ [0]
  dec := fun b => match Encodable.decode (α := T) (b.takeWhile fun x => x == 1).length with | some v => .ok (v, (b.takeWhile fun x => x == 1).length + 1) | none => .ub

theorem unaryCell_roundTrips (T : Type) [Encodable T] : RoundTrips (unaryCell T) := by
  intro v _
  refine ⟨by simp [unaryCell], fun rest => ?_⟩
  have : ((List.replicate (Encodable.encode v) 1 ++ [0] ++ rest).takeWhile fun x : Byte => x == 1).length = Encodable.encode v := by
    generalize Encodable.encode v = m
    induction m with
    | zero => simp
    | succ m ih => simpa [List.replicate_succ] using ih
  simp only [unaryCell, this, Encodable.encodek]

theorem smallWorld_ok : smallWorld.Ok 2 := by
  have hj : ∀ j, j < 1 → j = 0 := by intro j hj; omega
  refine ⟨⟨⟨fun j h => ?_, by decide⟩, by decide, fun j h => ?_, by decide, fun j h => ?_, fun r h0 h1 j h => ?_⟩, fun j _ => ?_, fun j _ h => ?_⟩
  · rw [hj j h]; decide
  · rw [hj j h]; decide
  · rw [hj j h]; decide
  · have hr : r = 0 ∨ r = 1 := by omega
    rw [hj j h]
    rcases hr with rfl | rfl <;> decide +kernel
  · exact ⟨(by decide : BC.periodic ≠ BC.parallel), (by decide : BC.periodic ≠ BC.parallel)⟩
  · rcases h with h | h <;> cases h

/-- A field on four nodes, shared by two ranks with stale ghosts. -/
def shared {V : Type} (F : Int → V) (stale : V) (r o : Int) : V := if o = 1 ∨ o = 2 then F (2 * r + o - 1) else stale

theorem shared_same {V : Type} (F : Int → V) (stale : V) {σ : Grids V} {D : Int → Grids V} (hσ : σ 0 = F) (hD : ∀ r, D r 0 = shared F stale r) : SameField smallWorld 2 σ D 0 := by
  intro r hr x hx
  have hr' : r = 0 ∨ r = 1 := by have := hr.1; have := hr.2; omega
  have h0 := hx 0 Nat.one_pos
  have hp : ∀ {g : Shape}, g.dim = 1 → g.rawOffset x = g.rawOffset fun _ => x 0 := fun {g} hd => rawOffset_congr fun j hj => by
    have : j = 0 := by omega
    rw [this]
  unfold cellAt
  rw [hσ, hD, hp (g := smallWorld.shape r) rfl, hp (g := smallWorld.serial) rfl]
  rcases hr' with rfl | rfl
  · have e : (smallWorld.shape 0).x0 0 = 0 ∧ (smallWorld.shape 0).x1 0 = 2 := by decide +kernel
    have hv : x 0 = 0 ∨ x 0 = 1 := by omega
    rcases hv with hv | hv <;> rw [hv]
    · rw [show (smallWorld.shape 0).rawOffset (fun _ => 0) = 1 by decide +kernel, show smallWorld.serial.rawOffset (fun _ => 0) = 0 by decide +kernel]; rfl
    · rw [show (smallWorld.shape 0).rawOffset (fun _ => 1) = 2 by decide +kernel, show smallWorld.serial.rawOffset (fun _ => 1) = 1 by decide +kernel]; rfl
  · have e : (smallWorld.shape 1).x0 0 = 2 ∧ (smallWorld.shape 1).x1 0 = 4 := by decide +kernel
    have hv : x 0 = 2 ∨ x 0 = 3 := by omega
    rcases hv with hv | hv <;> rw [hv]
    · rw [show (smallWorld.shape 1).rawOffset (fun _ => 2) = 1 by decide +kernel, show smallWorld.serial.rawOffset (fun _ => 2) = 2 by decide +kernel]; rfl
    · rw [show (smallWorld.shape 1).rawOffset (fun _ => 3) = 2 by decide +kernel, show smallWorld.serial.rawOffset (fun _ => 3) = 3 by decide +kernel]; rfl

theorem shared_cells {V : Type} {P : V → Prop} {F : Int → V} {stale : V} (hF : ∀ x, P (F x)) (hs : P stale) (r o : Int) : P (shared F stale r o) := by
  unfold shared; split_ifs
  · exact hF _
  · exact hs

/-- Two ranks, four nodes with three fields each, a thousand steps; the ghosts start stale. -/
example : ∃ s D', DensePF.isoRun smallWorld.serial 3 (fun _ => 1) (DensePF.isoValue (1 / 100 : ℚ) 3) 1000 (fun x => [1 / (x + 5 : ℚ), x, 1 - x]) (fun _ => [0, 0, 0]) = .ok s ∧
    Finished 2 (mpiRun (fun _ => unaryCell (List ℚ)) smallWorld (evolveUpdate (isoKernel 1 3 (fun _ => 1) fun l y h => DensePF.isoValue (1 / 100 : ℚ) 3 (entry l) (entry y) h) 1000)
      fun r => .ok fun k => if k = 0 then shared (fun x => [1 / (x + 5 : ℚ), x, 1 - x]) [9, 9, 9] r else fun _ => [0, 0, 0]) D' ∧
    ∀ r, IsRank 2 r → ∀ x, (smallWorld.shape r).IsNode x → cellAt (smallWorld.shape r) (D' r 0) x = cellAt smallWorld.serial s.1 x :=
  isoDense_model (σ := fun k => if k = 0 then fun x => [1 / (x + 5 : ℚ), x, 1 - x] else fun _ => [0, 0, 0]) (fun _ => unaryCell_roundTrips _) (fun _ _ _ => trivial) smallWorld_ok
    (by decide) (fun _ => 1) (DensePF.isoValue (1 / 100 : ℚ) 3) 1000 (shared_same _ [9, 9, 9] rfl fun _ => rfl)
    fun k => ⟨fun o _ _ => by dsimp only; split_ifs <;> rfl, fun r _ o _ _ => by
      show List.length _ = 3
      split_ifs
      · exact shared_cells (P := fun v : List ℚ => v.length = 3) (fun _ => rfl) rfl r o
      · rfl⟩

theorem two_lists (x : Int) : Lists {0, 1, 7} (if x < 2 then [(0, (1 : ℚ))] else [(1, 1)]) := by split_ifs <;> simp [Lists, Sparse.Ok, Sparse.keys]

/-- Two grains on a line, with stale ghosts that hold other fields. -/
example : ∃ s D', SparsePF.isoRun smallWorld.serial (fun _ => 1) (1 / 100 : ℚ) 1000 (fun x => if x < 2 then [(0, 1)] else [(1, 1)]) = .ok s ∧
    Finished 2 (mpiRun (fun _ => unaryCell (Sparse.Cell ℚ)) smallWorld (evolveUpdate (sparseKernel 1 (fun _ => 1) (SparsePF.isoNode (1 / 100))) 1000)
      fun r => .ok fun k => if k = 0 then shared (fun x => if x < 2 then [(0, 1)] else [(1, 1)]) [(7, 1)] r else fun _ => []) D' ∧
    ∀ r, IsRank 2 r → ∀ x, (smallWorld.shape r).IsNode x → cellAt (smallWorld.shape r) (D' r 0) x = cellAt smallWorld.serial s.1 x :=
  isoSparse_model (I := {0, 1, 7}) (σ := fun k => if k = 0 then fun x => if x < 2 then [(0, 1)] else [(1, 1)] else fun _ => []) (fun _ => unaryCell_roundTrips _) (fun _ _ _ => trivial)
    smallWorld_ok (by decide) (fun _ => 1) (1 / 100) 1000 (shared_same _ [(7, 1)] rfl fun _ => rfl)
    (fun k => ⟨fun o _ _ => by
        show Lists {0, 1, 7} ((if k = 0 then fun x : Int => if x < 2 then [(0, 1)] else [(1, 1)] else fun _ => []) o)
        split_ifs
        · exact two_lists o
        · exact ⟨List.nodup_nil, fun _ h => by cases h⟩, fun r _ o _ _ => by
        show Lists {0, 1, 7} ((if k = 0 then shared (fun x : Int => if x < 2 then [(0, 1)] else [(1, 1)]) [(7, 1)] r else fun _ => []) o)
        split_ifs
        · exact shared_cells (P := Lists {0, 1, 7}) two_lists (by simp [Lists, Sparse.Ok, Sparse.keys]) r o
        · exact ⟨List.nodup_nil, fun _ h => by cases h⟩⟩) rfl fun _ _ => rfl

/-- The programs on bytes, 6 ranks, two ghost layers. -/
example (value : List Byte → List Byte → Nat → Byte) (flux : Byte → Byte → Byte → Byte × Byte) (sol : Around Byte → Byte × Byte) (pot : List Byte → Byte → Byte)
    (val : List Byte → List Byte → Byte → Nat → Byte) :
    (∃ σ' D', serialRun sampleWorld.serial (evolveUpdate (isoKernel sampleWorld.d 3 (fun _ => 1) value) 5) (fun _ _ => [1, 2, 3]) = .ok σ' ∧
      Finished 6 (mpiRun (fun _ => arrayCell byteCodec) sampleWorld (evolveUpdate (isoKernel sampleWorld.d 3 (fun _ => 1) value) 5) fun _ => .ok fun _ _ => [1, 2, 3]) D' ∧
      SameField sampleWorld 6 σ' D' 0) ∧
    (∃ σ' D', serialRun sampleWorld.serial (solidUpdate flux sol 5) (fun k _ => if k = 3 then [1] else [1, 2]) = .ok σ' ∧
      Finished 6 (mpiRun (mixedCell byteCodec 3) sampleWorld (solidUpdate flux sol 5) fun _ => .ok fun k _ => if k = 3 then [1] else [1, 2]) D' ∧ SameField sampleWorld 6 σ' D' 0) ∧
    ∃ σ' D', serialRun sampleWorld.serial (ostwaldUpdate sampleWorld.d 3 (fun h => h * h) (fun _ => 1) pot val 5) (fun k _ => if k = 2 then [1] else [1, 2, 3]) = .ok σ' ∧
      Finished 6 (mpiRun (mixedCell byteCodec 2) sampleWorld (ostwaldUpdate sampleWorld.d 3 (fun h => h * h) (fun _ => 1) pot val 5) fun _ => .ok fun k _ => if k = 2 then [1] else [1, 2, 3])
        D' ∧ SameField sampleWorld 6 σ' D' 0 :=
  ⟨isoDense_parallel (dense_buffers byteCodec (n := 3) (by decide)).1 (dense_buffers byteCodec (by decide)).2 sampleWorld_ok (by decide) _ value 5 (fun _ _ _ _ => rfl)
      fun _ => ⟨fun _ _ _ => rfl, fun _ _ _ _ _ => rfl⟩,
    solid_parallel (mixed_buffers byteCodec (n := 2) (by decide)).1 (mixed_buffers byteCodec (by decide)).2 sampleWorld_ok (by decide) flux sol 5 (fun _ _ _ _ => rfl)
      fun k => ⟨fun _ _ _ => by show List.length _ = _; split_ifs <;> rfl, fun _ _ _ _ _ => by show List.length _ = _; split_ifs <;> rfl⟩,
    ostwald_parallel (mixed_buffers byteCodec (n := 3) (by decide)).1 (mixed_buffers byteCodec (by decide)).2 sampleWorld_ok (by decide) (by decide) _ _ pot val 5 (fun _ _ _ _ => rfl)
      fun k => ⟨fun _ _ _ => by show List.length _ = _; split_ifs <;> rfl, fun _ _ _ _ _ => by show List.length _ = _; split_ifs <;> rfl⟩⟩

/-- The buffers of sparse cells of bytes with two fields. -/
example : RoundTrips (sparseWire byteCodec 3 ⟨[0, 0, 0], rfl⟩) ∧ ∀ v, Lists {0, 1} v → (sparseWire byteCodec 3 ⟨[0, 0, 0], rfl⟩).Valid v :=
  sparse_buffers byteCodec 3 ⟨[0, 0, 0], rfl⟩ (by decide) (by decide)


/-! ## A sparse program that is not independent of the processes -/

/-- Two grains on a line of four nodes. -/
def twoGrains (x : Int) : Sparse.Cell ℚ := if x < 2 then [(0, 1)] else [(1, 1)]

/-- **C87, negation.** `zener_pinning/isotropic/sparsePF/zener.cpp` 153 compares the number of the node within the process with 0. On a line of four nodes shared by two processes, both
with up-to-date ghosts, the second process leaves node 2 as it was; the serial program changes it in the same step. -/
theorem zener_parallel_differs :
    ((SparsePF.sweep .serial smallWorld.serial (fun _ => 1) (SparsePF.zenerNode (1 / 100)) twoGrains fun _ => []).bind fun r =>
      .ok (Sparse.get (cellAt smallWorld.serial r fun _ => 2) 1)) = .ok (49 / 50) ∧
    ((SparsePF.sweep .mpi (smallWorld.shape 1) (fun _ => 1) (SparsePF.zenerNode (1 / 100)) (fun o => twoGrains ((2 + o - 1) % 4)) fun _ => []).bind fun r =>
      .ok (Sparse.get (cellAt (smallWorld.shape 1) r fun _ => 2) 1)) = .ok 1 := by
  constructor <;> decide +kernel

end MMSP.ParallelRun
