import Verif.ConvexSolution
import Verif.ParallelBoardLink
/-!
# The energy that `reportEnergy` computes (C130)

Model of `reportEnergy` of `examples/phase_transitions/cahn-hilliard/convex_splitting/cahn-hilliard.cpp` 178-214. All calls of it are commented out (lines 231, 258, 272), and so is the
line that would print the sums (212, 213); what is proved is what the two sums are. Exact arithmetic; the sums are those handed to rank 0 by `MPI_Reduce`, whose order of summation is free.
-/

namespace MMSP.ReportEnergy

open ConvexSplit ParallelRun Board
open Stencil (gridAt gradLoop gradWeight elem bump)
open Conserve (Serial nb nb_spec total inReach view_position)

section
variable {α : Type} [Field α]

/-- Component 0 of `grad(GRID, x)`, line 196 and `include/MMSP.grid.cpp` 2154-2170, 2191-2194. Every component is computed like this one, so component 1 is left out. `A 1` is the grid. -/
def gradKernel (d : Nat) (dx : Nat → α) (A : Nat → (Nat → Int) → Outcome (α × α)) (x : Nat → Int) : Outcome (List α) :=
  gradLoop (fun y => (A 1 y).bind fun v => .ok v.1) dx (List.range d) x (List.replicate d 0)

/-- Lines 197-199: the sum of the squares of `gradC[d][0]`. -/
def squares (grad : List α) (d : Nat) : Outcome α := (List.range d).foldlM (fun s (i : Nat) => ((elem grad i).bind fun y => .ok (y ^ 2)).bind fun e => .ok (s + e)) 0

/-- Lines 195-202: what a node adds to `energy` and to `mass`. -/
def reportKernel (p : Params α) (d : Nat) (dx : Nat → α) (A : Nat → (Nat → Int) → Outcome (α × α)) (x : Nat → Int) : Outcome (α × α) :=
  (gradKernel d dx A x).bind fun grad => (squares grad d).bind fun m => (A 1 x).bind fun v => .ok (p.energy v.1 + 1 / 2 * p.K * m, v.1)

/-- `energy` and `mass` of one process, lines 192-203. -/
def localReport (bd : Build) (p : Params α) (g : Shape) (dx : Nat → α) (data : Int → α × α) : Outcome (α × α) := localSum bd g (reportKernel p g.dim dx) fun _ => data

/-- `energy` and `mass` on rank 0 after lines 204-209. -/
def mpiReport (p : Params α) (w : World) (np : Nat) (dx : Nat → α) (data : Int → Int → α × α) : Outcome (α × α) :=
  allreduce np fun r => localReport .mpi p (w.shape r) dx (data r)

/-! ## Specification -/

/-- Free energy density plus half of `K` times the squares of the differences between the two neighbours of a node. -/
def centred (p : Params α) (g : Shape) (dx : Nat → α) (c : Int → α) : α :=
  total g fun n => p.energy (c n) + 1 / 2 * p.K * ∑ i ∈ Finset.range g.dim, ((c (nb g i n true) - c (nb g i n false)) / (2 * dx i)) ^ 2

/-! ## Proofs -/

theorem squares_eq (f : Nat → α) (d : Nat) : squares ((List.range d).map f) d = .ok (∑ i ∈ Finset.range d, f i ^ 2) :=
  foldlM_sum fun i hi => by
    have : elem ((List.range d).map f) i = .ok (f i) := by unfold elem; rw [List.getElem?_map, List.getElem?_range hi]; rfl
    rw [this]; rfl

theorem gradKernel_eq (d : Nat) (dx : Nat → α) {A : Nat → (Nat → Int) → Outcome (α × α)} {x : Nat → Int} {F : (Nat → Int) → α}
    (hF : ∀ i ∈ List.range d, ((A 1 (bump x i 1)).bind fun v => Outcome.ok v.1) = .ok (F (bump x i 1)) ∧ ((A 1 (bump x i (-1))).bind fun v => Outcome.ok v.1) = .ok (F (bump x i (-1)))) :
    gradKernel d dx A x = .ok ((List.range d).map fun i => gradWeight (dx i) * (F (bump x i 1) - F (bump x i (-1)))) := by
  unfold gradKernel
  rw [List.range_eq_range', Stencil.gradLoop_eq (F := F) dx x d 0 _ (by simp) fun i hi => hF i (List.mem_range.2 (by omega))]
  simp

theorem gradKernel_star (d : Nat) (dx : Nat → α) : Star d (gradKernel d dx) := by
  intro A B x x' _ _ _ hn
  unfold gradKernel
  generalize List.replicate d (0 : α) = acc
  have h : ∀ i ∈ List.range d, A 1 (bump x i 1) = B 1 (bump x' i 1) ∧ A 1 (bump x i (-1)) = B 1 (bump x' i (-1)) := fun i hi =>
    ⟨hn i (List.mem_range.1 hi) 1 (Or.inl rfl), hn i (List.mem_range.1 hi) (-1) (Or.inr rfl)⟩
  generalize List.range d = is at h
  induction is generalizing acc with
  | nil => rfl
  | cons i is ih =>
    obtain ⟨a, b⟩ := h i List.mem_cons_self
    simp only [gradLoop, Stencil.neighbours_eq, a, b]
    cases B 1 (bump x' i 1) with
    | ub => rfl
    | abort z => rfl
    | ok u =>
      cases B 1 (bump x' i (-1)) with
      | ub => rfl
      | abort z => rfl
      | ok v =>
        simp only [Outcome.ok_bind]
        split
        · exact ih _ fun j hj => h j (List.mem_cons_of_mem _ hj)
        · rfl

theorem reportKernel_star (p : Params α) (d : Nat) (dx : Nat → α) : Star d (reportKernel p d dx) := by
  intro A B x x' hx h0 h1 hn
  unfold reportKernel
  rw [gradKernel_star d dx A B x x' hx h0 h1 hn, h1]

theorem reportKernel_eq (p : Params α) (d : Nat) (dx : Nat → α) {A : Nat → (Nat → Int) → Outcome (α × α)} {x : Nat → Int} {F : (Nat → Int) → α} {v : α × α} (hv : A 1 x = .ok v)
    (hF : ∀ i ∈ List.range d, ((A 1 (bump x i 1)).bind fun v => Outcome.ok v.1) = .ok (F (bump x i 1)) ∧ ((A 1 (bump x i (-1))).bind fun v => Outcome.ok v.1) = .ok (F (bump x i (-1)))) :
    reportKernel p d dx A x = .ok (p.energy v.1 + 1 / 2 * p.K * ∑ i ∈ Finset.range d, ((F (bump x i 1) - F (bump x i (-1))) / (2 * dx i)) ^ 2, v.1) := by
  unfold reportKernel
  rw [gradKernel_eq d dx hF, Outcome.ok_bind, squares_eq, Outcome.ok_bind, hv, Outcome.ok_bind]
  congr 4
  refine Finset.sum_congr rfl fun i _ => ?_
  rw [gradWeight, one_add_one_eq_two]
  congr 1
  ring

theorem reportKernel_total (p : Params α) (d : Nat) (dx : Nat → α) : Total d (reportKernel p d dx) := by
  intro A x _ ⟨v, e⟩ hn
  obtain ⟨F, hF⟩ := around hn Prod.fst
  exact ⟨_, reportKernel_eq p d dx e hF⟩

variable {g : Shape}

/-- **C130.** What `reportEnergy` adds up in a serial build. -/
theorem report_serial (hs : Serial g) (p : Params α) (dx : Nat → α) (data : Int → α × α) :
    localReport .serial p g dx data = .ok (centred p g dx (fun n => (data n).1), total g fun n => (data n).1) := by
  have e : localReport .serial p g dx data = .ok (∑ i ∈ Finset.range g.nodes.toNat, ((fun n : Int => (p.energy (data n).1 + 1 / 2 * p.K *
      ∑ i ∈ Finset.range g.dim, (((data (nb g i n true)).1 - (data (nb g i n false)).1) / (2 * dx i)) ^ 2, (data n).1)) (i : Int))) := by
    refine foldlM_sum fun n hn => ?_
    have h0 : (0 : Int) ≤ n := by omega
    have h1 : (n : Int) < g.nodes := by omega
    have hr := inReach hs h0 h1
    have hv : (fun _ : Nat => gridAt .serial g data) 1 (g.position n) = .ok (data n) := by
      beta_reduce
      rw [Stencil.gridAt_ok hr.1, view_position hs data h0 h1]
    rw [reportKernel_eq p g.dim dx (F := fun x => (Stencil.view .serial g data x).1) hv fun i hi => ⟨by rw [Stencil.gridAt_ok (hr.2 i (List.mem_range.1 hi)).1]; rfl,
      by rw [Stencil.gridAt_ok (hr.2 i (List.mem_range.1 hi)).2]; rfl⟩]
    rfl
  rw [e, Outcome.ok.injEq]
  exact Prod.ext Prod.fst_sum Prod.snd_sum

/-- The compositions of a grid. -/
def first (data : Int → α × α) (n : Int) : α × α := ((data n).1, 0)

theorem reportKernel_first (p : Params α) (d : Nat) (dx : Nat → α) (A : Nat → (Nat → Int) → Outcome (α × α)) (x : Nat → Int) :
    reportKernel p d dx (fun k y => (A k y).bind fun v => .ok (v.1, 0)) x = reportKernel p d dx A x := by
  have e : (fun y => ((A 1 y).bind fun v => Outcome.ok (v.1, (0 : α))).bind fun v => Outcome.ok v.1) = fun y => (A 1 y).bind fun v => .ok v.1 := funext fun y => by cases A 1 y <;> rfl
  unfold reportKernel gradKernel
  rw [e]
  congr 1; funext grad
  congr 1; funext m
  beta_reduce
  cases A 1 x <;> rfl

/-- The potentials, component 1, do not matter. -/
theorem localReport_first (bd : Build) (p : Params α) (g : Shape) (dx : Nat → α) (data : Int → α × α) : localReport bd p g dx (first data) = localReport bd p g dx data := by
  have e : (fun _ : Nat => gridAt bd g (first data)) = fun _ y => (gridAt bd g data y).bind fun v => .ok (v.1, 0) := by
    funext _ y
    unfold gridAt deref
    split <;> rfl
  unfold localReport localSum
  rw [e]
  congr 1; funext s i
  rw [reportKernel_first p g.dim dx (fun _ y => gridAt bd g data y)]

/-- **C130.** In an MPI build rank 0 gets the sums of the serial program, if the compositions in the ghosts are up to date. -/
theorem report_ranks {w : World} {np : Nat} (h : w.Ok np) (hgh : 1 ≤ w.ghosts) (hs : Serial w.serial) (p : Params α) (dx : Nat → α) {field : Int → α × α} {data : Int → Int → α × α}
    (hf : SameField w np (fun _ => first field) (fun r _ => first (data r)) 1) (hy : Synced w np (fun _ => first field) (fun r _ => first (data r)) 1) :
    mpiReport p w np dx data = .ok (centred p w.serial dx (fun n => (field n).1), total w.serial fun n => (field n).1) := by
  obtain ⟨s, e1, e2⟩ := residual_agree h hgh (reportKernel_star p w.d dx) (reportKernel_total p w.d dx) (σ := fun _ => first field) (D := fun r _ => first (data r)) hf hf hy
  rw [← report_serial hs, ← localReport_first]
  have e : mpiReport p w np dx data = allreduce np fun r => localReport .mpi p (w.shape r) dx (first (data r)) := by
    unfold mpiReport
    congr 1; funext r
    rw [localReport_first]
  exact e.trans (e2.trans e1.symm)

/-- **C130.** So after a `ghostswap` of the grid, from any ghosts. -/
theorem report_swapped {w : World} {np : Nat} (h : w.Ok np) (hgh : 1 ≤ w.ghosts) (hs : Serial w.serial) (p : Params α) (dx : Nat → α) {c : Cell (α × α)} (hc : RoundTrips c) (hall : ∀ v, c.Valid v)
    {field : Int → α × α} {data : Int → Int → α × α} (hf : SameField w np (fun _ => field) (fun r _ => data r) 1) :
    ∃ D, Finished np (mpiStmt (fun _ => c) w (.ghostswap 1) fun r => .ok fun _ => data r) D ∧
      mpiReport p w np dx (fun r => D r 1) = .ok (centred p w.serial dx (fun n => (field n).1), total w.serial fun n => (field n).1) := by
  obtain ⟨D, f, A, -⟩ := stmt_agree_ghostswap (c := fun _ => c) (P := fun _ _ => True) (fun _ => hc) (fun _ v _ => hall v) h (K := ⟨fun k => k = 1, fun _ => False⟩) (a := 1) rfl
    (σ := fun _ => field) (D := fun r _ => data r) (S := fun r => .ok fun _ => data r) (fun _ _ => rfl) ⟨fun k hk => by subst hk; exact hf, fun _ hk => hk.elim⟩ allTrue
  refine ⟨D, f, report_ranks h hgh hs p dx (fun r hr x hx => ?_) fun r hr x hx y hy hxy => ?_⟩
  · exact congrArg (fun v : α × α => (v.1, (0 : α))) (A.same 1 rfl r hr x hx)
  · exact congrArg (fun v : α × α => (v.1, (0 : α))) (A.synced 1 (Or.inr rfl) r hr x hx y hy hxy)

end

section
variable {α : Type} [Field α] [LinearOrder α] [IsStrictOrderedRing α] {g : Shape}

/-- **C130.** The reported energy is not more than the energy that the scheme lowers (C57). -/
theorem centred_le {p : Params α} (hK : 0 ≤ p.K) (dx : Nat → α) (c : Int → α) : centred p g dx c ≤ freeEnergy p g dx c := by
  unfold centred freeEnergy bonds total
  rw [Finset.sum_add_distrib, ← Finset.mul_sum, Finset.sum_comm]
  refine add_le_add le_rfl (mul_le_mul_of_nonneg_left ?_ (by positivity))
  refine Finset.sum_le_sum fun i _ => ?_
  rw [Finset.sum_div]
  refine Finset.sum_le_sum fun n _ => ?_
  rw [div_pow, mul_pow, ← div_div]
  refine div_le_div_of_nonneg_right ?_ (sq_nonneg _)
  nlinarith [sq_nonneg (c (nb g i n true) - c n + (c (nb g i n false) - c n))]

/-- **C130.** So a step that solves the equations leaves it below the energy before the step. -/
theorem centred_bounded (hs : Serial g) {dx : Nat → α} {old new : Int → α × α} (h : Scheme vanilla g dx old new) :
    centred vanilla g dx (fun n => (new n).1) ≤ freeEnergy vanilla g dx (fun n => (old n).1) :=
  (centred_le (by norm_num [vanilla]) dx _).trans (vanilla_energy hs h)

end

/-- The wave `a, -a, a, -a`. -/
def zigzag (a u : ℚ) (n : Int) : ℚ × ℚ := if n % 2 = 0 then (a, u) else (-a, -u)

/-- **C130, negation.** The reported energy can rise in a step that solves the equations: the differences it uses do not see a wave from node to node. -/
theorem report_rises : Scheme vanilla (ring 4) (fun _ => 1) (zigzag (69 / 80) 0) (zigzag (1 / 4) (49 / 320)) ∧
    ∃ e e' m m', localReport .serial vanilla (ring 4) (fun _ => 1) (zigzag (69 / 80) 0) = .ok (e, m) ∧
      localReport .serial vanilla (ring 4) (fun _ => 1) (zigzag (1 / 4) (49 / 320)) = .ok (e', m') ∧ e < e' ∧ m = m' := by
  have up : nb (ring 4) 0 0 true = 1 ∧ nb (ring 4) 0 1 true = 2 ∧ nb (ring 4) 0 2 true = 3 ∧ nb (ring 4) 0 3 true = 0 := by decide
  have dn : nb (ring 4) 0 0 false = 3 ∧ nb (ring 4) 0 1 false = 0 ∧ nb (ring 4) 0 2 false = 1 ∧ nb (ring 4) 0 3 false = 2 := by decide
  have nn : (ring 4).nodes = 4 := by decide
  have d : (ring 4).dim = 1 := rfl
  refine ⟨fun n h0 h1 => ?_, _, _, _, _, report_serial (ring_serial (by decide)) _ _ _, report_serial (ring_serial (by decide)) _ _ _, ?_, ?_⟩
  · rw [nn] at h1
    obtain rfl | rfl | rfl | rfl : n = 0 ∨ n = 1 ∨ n = 2 ∨ n = 3 := by omega
    all_goals simp only [r1, r2, lap, d, Finset.sum_range_one, up, dn, zigzag]; norm_num [vanilla]
  · simp only [centred, total, nn, d, Finset.sum_range_one]
    simp only [show (4 : Int).toNat = 4 from rfl, Finset.sum_range_succ, Finset.sum_range_zero, Nat.cast_zero, Nat.cast_one, Nat.cast_ofNat, up, dn, zigzag]
    norm_num [vanilla]
  · simp only [total, nn, show (4 : Int).toNat = 4 from rfl, Finset.sum_range_succ, Finset.sum_range_zero, Nat.cast_zero, Nat.cast_one, Nat.cast_ofNat, zigzag]
    norm_num

theorem smallWorld_serial : Serial smallWorld.serial := ⟨serial_wf smallWorld_ok, rfl, fun _ _ => .inl ⟨rfl, rfl⟩⟩

/-- Two ranks, four nodes: the ghosts start stale. -/
example (p : Params ℚ) : ∃ D, Finished 2 (mpiStmt (fun _ => pairCell) smallWorld (.ghostswap 1) fun r => .ok fun _ => shared (zigzag 3 5) (7, 7) r) D ∧
    mpiReport p smallWorld 2 (fun _ => 1) (fun r => D r 1) = .ok (centred p smallWorld.serial (fun _ => 1) (fun n => (zigzag 3 5 n).1), total smallWorld.serial fun n => (zigzag 3 5 n).1) :=
  report_swapped smallWorld_ok (by decide) smallWorld_serial p _ pairCell_roundTrips (fun _ => trivial)
    (shared_same (zigzag 3 5) (7, 7) (σ := fun _ => zigzag 3 5) (D := fun r _ => shared (zigzag 3 5) (7, 7) r) rfl fun _ => rfl)

end MMSP.ReportEnergy
