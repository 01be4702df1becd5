import Verif.ParallelBoardProps
import Verif.ConvexSplitRun
/-!
# Convex splitting in an MPI build and the serial model
-/

namespace MMSP.Board

open ParallelRun Stencil ConvexSplit
open Ghost (IsRank)

variable {α : Type} [Field α] {g : Shape}

/-! ## The accesses -/

theorem fringeLoop_congr {A B : (Nat → Int) → Outcome α} (wt : Nat → α) (x x' : Nat → Int) :
    ∀ (is : List Nat) (acc : α), (∀ i ∈ is, A (bump x i 1) = B (bump x' i 1) ∧ A (bump x i (-1)) = B (bump x' i (-1))) →
      fringeLoop A wt is x acc = fringeLoop B wt is x' acc := by
  intro is
  induction is with
  | nil => intro _ _; rfl
  | cons i is ih =>
    intro acc h
    obtain ⟨h1, h2⟩ := h i (by simp)
    simp only [fringeLoop, neighbours_eq, h1, h2]
    cases B (bump x' i 1) <;> simp only [Outcome.ok_bind, Outcome.ub_bind, Outcome.abort_bind]
    cases B (bump x' i (-1)) <;> simp only [Outcome.ok_bind, Outcome.ub_bind, Outcome.abort_bind]
    exact ih _ fun j hj => h j (by simp [hj])

theorem fringeKernel_star (d : Nat) (dx : Nat → α) (sel : α × α → α) : Star d (fringeKernel d dx sel) := by
  intro A B x x' _ _ _ hn
  unfold fringeKernel
  exact fringeLoop_congr _ x x' _ _ fun i hi => ⟨by rw [hn i (List.mem_range.1 hi) 1 (Or.inl rfl)], by rw [hn i (List.mem_range.1 hi) (-1) (Or.inr rfl)]⟩

theorem fieldKernel_star (d : Nat) (dx : Nat → α) (sel : α × α → α) : Star d (fieldKernel d dx sel) := by
  intro A B x x' _ _ h1 hn
  unfold fieldKernel
  rw [h1]
  cases B 1 x' with
  | ok v =>
    simp only [Outcome.ok_bind]
    exact lapLoop_congr _ _ x x' _ _ fun i hi => ⟨by rw [hn i (List.mem_range.1 hi) 1 (Or.inl rfl)], by rw [hn i (List.mem_range.1 hi) (-1) (Or.inr rfl)]⟩
  | ub => rfl
  | abort a => rfl

theorem nodeKernel_star (p : Params α) (d : Nat) (dx : Nat → α) : Star d (nodeKernel p d dx) := by
  intro A B x x' hx h0 h1 hn
  unfold nodeKernel
  rw [h0, h1, fringeKernel_star d dx Prod.snd A B x x' hx h0 h1 hn, fringeKernel_star d dx Prod.fst A B x x' hx h0 h1 hn]

theorem residualKernel_star (p : Params α) (d : Nat) (dx : Nat → α) : Star d (residualKernel p d dx) := by
  intro A B x x' hx h0 h1 hn
  unfold residualKernel
  rw [h0, h1, fieldKernel_star d dx Prod.snd A B x x' hx h0 h1 hn, fieldKernel_star d dx Prod.fst A B x x' hx h0 h1 hn]

/-- The values next to a node. -/
theorem around {d : Nat} {A : Nat → (Nat → Int) → Outcome (α × α)} {x : Nat → Int} (hn : ∀ i, i < d → ∀ k : Int, k = 1 ∨ k = -1 → ∃ v, A 1 (bump x i k) = .ok v) (sel : α × α → α) :
    ∃ F : (Nat → Int) → α, ∀ i ∈ List.range d, ((A 1 (bump x i 1)).bind fun v => Outcome.ok (sel v)) = .ok (F (bump x i 1)) ∧
      ((A 1 (bump x i (-1))).bind fun v => Outcome.ok (sel v)) = .ok (F (bump x i (-1))) := by
  refine ⟨fun y => match A 1 y with | .ok v => sel v | _ => 0, fun i hi => ?_⟩
  obtain ⟨v, e⟩ := hn i (List.mem_range.1 hi) 1 (Or.inl rfl)
  obtain ⟨u, e'⟩ := hn i (List.mem_range.1 hi) (-1) (Or.inr rfl)
  simp only [e, e', Outcome.ok_bind, and_self]

theorem fringeKernel_total (d : Nat) (dx : Nat → α) (sel : α × α → α) : Total d (fringeKernel d dx sel) := by
  intro A x _ _ hn
  obtain ⟨F, hF⟩ := around hn sel
  exact ⟨_, fringeLoop_eq (F := F) _ x _ _ hF⟩

theorem fieldKernel_total (d : Nat) (dx : Nat → α) (sel : α × α → α) : Total d (fieldKernel d dx sel) := by
  intro A x _ ⟨v, e⟩ hn
  obtain ⟨F, hF⟩ := around hn sel
  unfold fieldKernel
  rw [e]
  exact ⟨_, lapLoop_eq (F := F) _ _ x _ _ hF⟩

theorem nodeKernel_total (p : Params α) (d : Nat) (dx : Nat → α) : Total d (nodeKernel p d dx) := by
  intro A x h0 h1 hn
  obtain ⟨fu, e1⟩ := fringeKernel_total d dx Prod.snd A x h0 h1 hn
  obtain ⟨fc, e2⟩ := fringeKernel_total d dx Prod.fst A x h0 h1 hn
  obtain ⟨o, e3⟩ := h0
  obtain ⟨v, e4⟩ := h1
  unfold nodeKernel
  rw [e1, e2, e3, e4]
  exact ⟨_, rfl⟩

theorem residualKernel_total (p : Params α) (d : Nat) (dx : Nat → α) : Total d (residualKernel p d dx) := by
  intro A x h0 h1 hn
  obtain ⟨fu, e1⟩ := fieldKernel_total d dx Prod.snd A x h0 h1 hn
  obtain ⟨fc, e2⟩ := fieldKernel_total d dx Prod.fst A x h0 h1 hn
  obtain ⟨o, e3⟩ := h0
  obtain ⟨v, e4⟩ := h1
  unfold residualKernel
  rw [e1, e2, e3, e4]
  exact ⟨_, rfl⟩

/-! ## The serial program -/

theorem node_serial (hg : g.Wf) (h0 : g.ghosts = 0) (p : Params α) (dx : Nat → α) (σ : Grids (α × α)) {n : Int} (hn : 0 ≤ n) (hN : n < g.nodes) :
    nodeKernel p g.dim dx (fun k => gridAt .serial g (σ k)) (g.position n) = node p g dx (σ 0) (σ 1) n := by
  unfold nodeKernel node
  rw [← (node_access (bd := .serial) hg (fun _ => h0) hn hN (σ 0)).1, ← (node_access (bd := .serial) hg (fun _ => h0) hn hN (σ 1)).1]
  rfl

theorem pass_serial (hg : g.Wf) (h0 : g.ghosts = 0) (p : Params α) (dx : Nat → α) (color : Int) (σ : Grids (α × α)) :
    runLoop .serial g 1 (boardKernel g.dim color (nodeKernel p g.dim dx)) σ = (pass p g dx color (σ 0) (σ 1)).bind fun a => .ok (Function.update σ 1 a) := by
  refine (runLoop_fold (Q := fun _ => True) (fun τ hτ _ i hi => ?_) (fun _ _ _ _ _ _ _ _ _ => trivial) fun _ _ _ => trivial).1
  have hacc := node_access (bd := .serial) hg (fun _ => h0) (Int.natCast_nonneg i) hi (τ 1)
  unfold boardKernel skipped
  by_cases hc : Int.tmod (∑ j ∈ Finset.range g.dim, g.position i j) 2 = color
  · simp only [hc, if_true, decide_true]
    rw [hacc.1, hacc.2.1, Outcome.ok_bind]
    unfold store
    rw [if_pos hacc.2.2, Function.update_eq_self]
  · simp only [hc, if_false, decide_false, Bool.false_eq_true]
    rw [node_serial hg h0 p dx τ (Int.natCast_nonneg i) hi, hτ 0 (by decide)]

theorem iteration_serial (hg : g.Wf) (h0 : g.ghosts = 0) (p : Params α) (dx : Nat → α) (σ : Grids (α × α)) :
    serialRun g (colours g.dim (nodeKernel p g.dim dx)) σ = (iteration p g dx (σ 0) (σ 1)).bind fun a => .ok (Function.update σ 1 a) := by
  unfold serialRun colours iteration
  simp only [List.foldlM_cons, List.foldlM_nil, Outcome.bind_eq, Outcome.pure_eq, serialStmt, pass_serial hg h0]
  cases pass p g dx 1 (σ 0) (σ 1) with
  | ok a =>
    simp only [Outcome.ok_bind, Function.update_self, Function.update_of_ne (show (0 : Nat) ≠ 1 by decide)]
    cases pass p g dx 0 (σ 0) a with
    | ok b => simp only [Outcome.ok_bind, Function.update_idem]
    | ub => rfl
    | abort c => rfl
  | ub => rfl
  | abort c => rfl

theorem residual_serial (hg : g.Wf) (h0 : g.ghosts = 0) (p : Params α) (dx : Nat → α) (σ : Grids (α × α)) :
    localSum .serial g (residualKernel p g.dim dx) σ = ConvexSplit.residual p g dx (σ 0) (σ 1) := by
  unfold localSum ConvexSplit.residual
  have key : ∀ (l : List Nat), (∀ i ∈ l, (i : Int) < g.nodes) → ∀ s : α × α,
      l.foldlM (fun s (i : Nat) => (residualKernel p g.dim dx (fun k => gridAt .serial g (σ k)) (g.position i)).bind fun e => .ok (s + e)) s =
      l.foldlM (fun s (n : Nat) => (residualAt p g dx (σ 0) (σ 1) n).bind fun e => .ok (s.1 + e.1, s.2 + e.2)) s := by
    intro l
    induction l with
    | nil => intro _ _; rfl
    | cons i l ih =>
      intro hl s
      have hi := hl i (by simp)
      have e : residualKernel p g.dim dx (fun k => gridAt .serial g (σ k)) (g.position i) = residualAt p g dx (σ 0) (σ 1) i := by
        unfold residualKernel residualAt
        rw [← (node_access (bd := .serial) hg (fun _ => h0) (Int.natCast_nonneg i) hi (σ 0)).1, ← (node_access (bd := .serial) hg (fun _ => h0) (Int.natCast_nonneg i) hi (σ 1)).1]
        rfl
      simp only [List.foldlM_cons, Outcome.bind_eq, e]
      cases residualAt p g dx (σ 0) (σ 1) i with
      | ok v => simp only [Outcome.ok_bind]; exact ih (fun j hj => hl j (by simp [hj])) _
      | ub => rfl
      | abort c => rfl
  refine key _ (fun i hi => ?_) 0
  have := List.mem_range.1 hi
  omega

variable [LinearOrder α]

theorem solve_serial (hg : g.Wf) (h0 : g.ghosts = 0) (p : Params α) (dx : Nat → α) (sqrt : α → α) : ∀ (left iter : Nat) (go : Bool) (σ : Grids (α × α)),
    serialSolve g (nodeKernel p g.dim dx) (residualKernel p g.dim dx) (tooLarge p g sqrt) left iter go σ =
      (solve p g dx sqrt (σ 0) left iter go (σ 1)).bind fun a => .ok (Function.update σ 1 a)
  | 0, _, _, _ => rfl
  | left + 1, iter, false, σ => by simp only [serialSolve, solve, Bool.false_eq_true, if_false, Outcome.ok_bind, Function.update_eq_self]
  | left + 1, iter, true, σ => by
    simp only [serialSolve, solve, if_true, iteration_serial hg h0]
    cases iteration p g dx (σ 0) (σ 1) with
    | ok a =>
      simp only [Outcome.ok_bind, residual_serial hg h0, Function.update_self, Function.update_of_ne (show (0 : Nat) ≠ 1 by decide)]
      split_ifs
      · cases ConvexSplit.residual p g dx (σ 0) a with
        | ok r =>
          simp only [Outcome.ok_bind]
          rw [solve_serial hg h0 p dx sqrt left (iter + 1) _ (Function.update σ 1 a)]
          simp only [Function.update_self, Function.update_of_ne (show (0 : Nat) ≠ 1 by decide), Function.update_idem]
        | ub => rfl
        | abort c => rfl
      · simp only [Outcome.ok_bind]
        rw [solve_serial hg h0 p dx sqrt left (iter + 1) _ (Function.update σ 1 a)]
        simp only [Function.update_self, Function.update_of_ne (show (0 : Nat) ≠ 1 by decide), Function.update_idem]
    | ub => rfl
    | abort c => rfl

/-- The two grids of the result of the serial program. -/
theorem steps_serial (hg : g.Wf) (h0 : g.ghosts = 0) (p : Params α) (dx : Nat → α) (sqrt : α → α) (maxIter : Nat) : ∀ (steps : Nat) (σ : Grids (α × α)),
    ((serialSteps g (nodeKernel p g.dim dx) (residualKernel p g.dim dx) (tooLarge p g sqrt) maxIter steps σ).bind fun σ' => .ok (σ' 0, σ' 1)) =
      update p g dx sqrt maxIter steps (σ 0, σ 1)
  | 0, _ => rfl
  | n + 1, σ => by
    simp only [serialSteps, update, solve_serial hg h0]
    cases solve p g dx sqrt (σ 0) maxIter 0 true (σ 1) with
    | ok a =>
      simp only [Outcome.ok_bind]
      rw [steps_serial hg h0 p dx sqrt maxIter n]
      rfl
    | ub => rfl
    | abort c => rfl

/-! ## The claim -/

/-- **C89.** `update` of the convex splitting example, started on the ranks from the field the serial build is started from: either both programs finish, with the same field on every
node, or both are stopped with the code -1 because the solver has used up its iterations. -/
theorem convex_parallel {c : Nat → Cell (α × α)} (hc : ∀ k, RoundTrips (c k)) (hall : ∀ k v, (c k).Valid v) {w : World} {np : Nat} (h : w.Ok np) (hgh : 1 ≤ w.ghosts) (hw : Colourable w)
    (p : Params α) (dx : Nat → α) (sqrt : α → α) (maxIter steps : Nat) {field : Int → α × α} {D : Int → Grids (α × α)}
    (hF : ∀ r, IsRank np r → ∀ x, (w.shape r).IsNode x → cellAt (w.shape r) (D r 0) x = cellAt w.serial field x) :
    (∃ s D', update p w.serial dx sqrt maxIter steps (field, field) = .ok s ∧ convexUpdate c w np p dx sqrt maxIter steps D = .ok D' ∧
      ∀ r, IsRank np r → ∀ x, (w.shape r).IsNode x → cellAt (w.shape r) (D' r 0) x = cellAt w.serial s.1 x) ∨
    (update p w.serial dx sqrt maxIter steps (field, field) = .abort (-1) ∧ convexUpdate c w np p dx sqrt maxIter steps D = .abort (-1)) := by
  have hg := serial_wf h
  have link := steps_serial hg rfl p dx sqrt maxIter steps (Function.update (fun _ => field) 1 field)
  have e : tooLargeAll p sqrt ((List.range np).map fun r : Nat => (w.shape r).nodes.toNat).sum = tooLarge p w.serial sqrt := by
    rw [size_agree h]; rfl
  unfold convexUpdate
  rw [e]
  rcases update_agree (σ := fun _ => field) (tooLarge p w.serial sqrt) hc hall h hgh hw (nodeKernel_star p w.d dx) (nodeKernel_total p w.d dx) (residualKernel_star p w.d dx) (residualKernel_total p w.d dx)
    maxIter steps hF with ⟨σ', D', e1, e2, hS⟩ | ⟨e1, e2⟩
  · left
    refine ⟨(σ' 0, σ' 1), D', ?_, e2, hS⟩
    have : update p w.serial dx sqrt maxIter steps (field, field) = _ := link.symm
    rw [this]
    have e1' : serialSteps w.serial (nodeKernel p w.serial.dim dx) (residualKernel p w.serial.dim dx) (tooLarge p w.serial sqrt) maxIter steps (Function.update (fun _ => field) 1 field) = .ok σ' := e1
    rw [e1']; rfl
  · right
    refine ⟨?_, e2⟩
    have : update p w.serial dx sqrt maxIter steps (field, field) = _ := link.symm
    rw [this]
    have e1' : serialSteps w.serial (nodeKernel p w.serial.dim dx) (residualKernel p w.serial.dim dx) (tooLarge p w.serial sqrt) maxIter steps (Function.update (fun _ => field) 1 field) = .abort (-1) := e1
    rw [e1']; rfl

/-! ## Buffers for pairs of numbers -/

/-- A natural number as bytes, `f` at most. -/
def digitsOf : Nat → Nat → List Byte
  | 0, _ => []
  | f + 1, n => if n = 0 then [] else UInt8.ofNat (n % 128) :: digitsOf f (n / 128)

/-- The number in front of a byte string and how many bytes it takes. -/
def numberOf : List Byte → Nat × Nat
  | [] => (0, 0)
  | b :: l => if b = 255 then (0, 1) else (b.toNat + 128 * (numberOf l).1, (numberOf l).2 + 1)

theorem numberOf_digits (rest : List Byte) : ∀ (f n : Nat), n ≤ f → numberOf (digitsOf f n ++ [255] ++ rest) = (n, (digitsOf f n).length + 1)
  | 0, n, h => by
    have : n = 0 := by omega
    subst this; rfl
  | f + 1, n, h => by
    unfold digitsOf
    split_ifs with h0
    · subst h0; rfl
    · have ih := numberOf_digits rest f (n / 128) (by omega)
      have hb : (UInt8.ofNat (n % 128)).toNat = n % 128 := by
        rw [UInt8.toNat_ofNat']; omega
      have hne : UInt8.ofNat (n % 128) ≠ 255 := fun e => by
        have := congrArg UInt8.toNat e
        rw [hb] at this
        have h255 : (255 : UInt8).toNat = 255 := rfl
        omega
      rw [List.cons_append, List.cons_append, numberOf, if_neg hne, ih, hb, List.length_cons]
      simp only [Prod.mk.injEq, and_true]
      omega

def ratBytes (q : ℚ) : List Byte := (if q.num < 0 then 1 else 0) :: (digitsOf q.num.natAbs q.num.natAbs ++ [255] ++ (digitsOf q.den q.den ++ [255]))

/-- The rational number in front of a byte string and how many bytes it takes. -/
def ratOf : List Byte → ℚ × Nat
  | [] => (0, 0)
  | b :: l => (mkRat (if b = 1 then -((numberOf l).1 : Int) else (numberOf l).1) (numberOf (l.drop (numberOf l).2)).1, 1 + (numberOf l).2 + (numberOf (l.drop (numberOf l).2)).2)

theorem ratOf_bytes (q : ℚ) (rest : List Byte) : ratOf (ratBytes q ++ rest) = (q, (ratBytes q).length) := by
  unfold ratBytes
  rw [List.cons_append, ratOf]
  have e1 := numberOf_digits (digitsOf q.den q.den ++ [255] ++ rest) _ _ (le_refl q.num.natAbs)
  have e2 := numberOf_digits rest _ _ (le_refl q.den)
  have ea : digitsOf q.num.natAbs q.num.natAbs ++ [255] ++ (digitsOf q.den q.den ++ [255]) ++ rest =
      digitsOf q.num.natAbs q.num.natAbs ++ [255] ++ (digitsOf q.den q.den ++ [255] ++ rest) := by simp
  rw [ea, e1]
  have ed : (digitsOf q.num.natAbs q.num.natAbs ++ [255] ++ (digitsOf q.den q.den ++ [255] ++ rest)).drop ((digitsOf q.num.natAbs q.num.natAbs).length + 1) = digitsOf q.den q.den ++ [255] ++ rest := by
    rw [List.drop_append_of_le_length (by simp)]; simp
  simp only
  rw [ed, e2]
  refine Prod.ext ?_ ?_
  · simp only
    have hn : (if (if q.num < 0 then (1 : Byte) else 0) = 1 then -((q.num.natAbs : Nat) : Int) else (q.num.natAbs : Nat)) = q.num := by
      by_cases h : q.num < 0
      · simp only [h, if_true]; omega
      · simp only [h, if_false, show (0 : Byte) ≠ 1 by decide]; omega
    rw [hn, Rat.mkRat_self]
  · simp only [List.length_cons, List.length_append, List.length_nil]; omega

/-- Two rational numbers as a string of bytes. -/
def pairCell : Cell (ℚ × ℚ) where
  Valid := fun _ => True
  size := fun v => (ratBytes v.1).length + (ratBytes v.2).length
  enc := fun v => ratBytes v.1 ++ ratBytes v.2
  dec := fun l => .ok (((ratOf l).1, (ratOf (l.drop (ratOf l).2)).1), (ratOf l).2 + (ratOf (l.drop (ratOf l).2)).2)

theorem pairCell_roundTrips : RoundTrips pairCell := by
  intro v _
  refine ⟨by simp [pairCell], fun rest => ?_⟩
  simp only [pairCell]
  rw [List.append_assoc, ratOf_bytes]
  simp only [List.drop_left, ratOf_bytes]

/-! ## Examples -/

theorem smallWorld_colourable : Colourable smallWorld := ⟨fun _ _ => le_refl 0, fun _ _ _ => ⟨2, rfl⟩⟩

/-- Two ranks, four nodes, the parameters of the example, any number of steps; the ghosts start stale. -/
example (sqrt : ℚ → ℚ) (maxIter steps : Nat) :
    (∃ s D', update vanilla smallWorld.serial (fun _ => 1) sqrt maxIter steps (bumpAt, bumpAt) = .ok s ∧
      convexUpdate (fun _ => pairCell) smallWorld 2 vanilla (fun _ => 1) sqrt maxIter steps (fun r _ => shared bumpAt (9, 9) r) = .ok D' ∧
      ∀ r, IsRank 2 r → ∀ x, (smallWorld.shape r).IsNode x → cellAt (smallWorld.shape r) (D' r 0) x = cellAt smallWorld.serial s.1 x) ∨
    (update vanilla smallWorld.serial (fun _ => 1) sqrt maxIter steps (bumpAt, bumpAt) = .abort (-1) ∧
      convexUpdate (fun _ => pairCell) smallWorld 2 vanilla (fun _ => 1) sqrt maxIter steps (fun r _ => shared bumpAt (9, 9) r) = .abort (-1)) :=
  convex_parallel (fun _ => pairCell_roundTrips) (fun _ _ => trivial) smallWorld_ok (by decide) smallWorld_colourable vanilla (fun _ => 1) sqrt maxIter steps
    (shared_same (σ := fun _ => bumpAt) (D := fun r _ => shared bumpAt (9, 9) r) bumpAt (9, 9) rfl fun _ => rfl)

/-! ## Grids without a chess board -/

/-- The values of a grid at a position after the run. -/
def seen (g : Shape) (o : Outcome (Grids (ℚ × ℚ))) (x : Int) : Option (ℚ × ℚ) := match o with
  | .ok σ => some (cellAt g (σ 1) fun _ => x)
  | _ => none

/-- Three nodes in a ring on two ranks. -/
def oddWorld : World := { smallWorld with g1 := fun _ => 3 }

/-- Two nodes in a ring, one of them at -1. -/
def negativeWorld : World := { smallWorld with g0 := fun _ => -1, g1 := fun _ => 1 }

/-- **C89, necessity of even periods.** One iteration on three nodes: the node of the second rank reads a neighbour of its own colour. -/
theorem odd_period_differs :
    let prog := colours 1 (nodeKernel vanilla 1 fun _ => (1 : ℚ))
    seen oddWorld.serial (serialRun oddWorld.serial prog fun _ => bumpAt) 2 ≠
      seen (oddWorld.shape 1) (mpiRun (fun _ => pairCell) oddWorld prog (fun r => .ok fun _ o => bumpAt ((2 * r + o - 1) % 3)) 1) 2 := by
  decide +kernel

/-- **C89, necessity of coordinates that are not negative.** -/
theorem negative_differs :
    let prog := colours 1 (nodeKernel vanilla 1 fun _ => (1 : ℚ))
    seen negativeWorld.serial (serialRun negativeWorld.serial prog fun _ => bumpAt) 0 ≠
      seen (negativeWorld.shape 1) (mpiRun (fun _ => pairCell) negativeWorld prog (fun r => .ok fun _ o => bumpAt ((r + o - 1) % 2)) 1) 0 := by
  decide +kernel

end MMSP.Board
