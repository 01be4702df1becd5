import Verif.RoundConserve
import Verif.ParallelExamplesLink
import Verif.ParallelBoardProps
/-!
# Conservation in floating point on several ranks

The program of C50 for the Cahn-Hilliard example, run serially, is `Conserve.update`; on ranks it holds the same numbers node by node, so the masses of the ranks add up to that of the serial run.
-/

namespace MMSP.RoundConserve
open Rounding MMSP.Stencil MMSP.Conserve MMSP.ParallelRun

section Link
variable {T : Type} [Zero T] [One T] [Add T] [Sub T] [Mul T] [Div T]

omit [Zero T] [One T] [Add T] [Sub T] [Mul T] [Div T] in
/-- A loop that does not read the grid it writes. -/
theorem runLoop_forNodes {g : Shape} {dst : Nat} {kern : Kernel T} (hk : ∀ A B : Nat → (Nat → Int) → Outcome T, (∀ k, k ≠ dst → A k = B k) → kern A = kern B) (σ : Grids T) :
    runLoop .serial g dst kern σ =
      (forNodes .serial g (fun i => kern (fun k => gridAt .serial g (σ k)) (g.position i)) (σ dst)).bind fun a => .ok (Function.update σ dst a) := by
  have key : ∀ (l : List Nat) (τ : Grids T), (∀ k, k ≠ dst → τ k = σ k) →
      l.foldlM (fun (σ : Grids T) (i : Nat) => (kern (fun k => gridAt .serial g (σ k)) (g.position i)).bind fun v =>
        (store g (σ dst) (g.atNode .serial i) v).bind fun a => .ok (Function.update σ dst a)) τ =
      (l.foldlM (fun out (i : Nat) => (kern (fun k => gridAt .serial g (σ k)) (g.position i)).bind fun v => store g out (g.atNode .serial i) v) (τ dst)).bind
        fun a => .ok (Function.update τ dst a) := by
    intro l
    induction l with
    | nil => intro τ _; simp only [List.foldlM_nil, Outcome.pure_eq, Outcome.ok_bind, Function.update_eq_self]
    | cons i l ih =>
      intro τ hτ
      have hkk : kern (fun k => gridAt .serial g (τ k)) = kern (fun k => gridAt .serial g (σ k)) := hk _ _ fun k hk => by rw [hτ k hk]
      simp only [List.foldlM_cons, Outcome.bind_eq]
      rw [hkk]
      cases kern (fun k => gridAt .serial g (σ k)) (g.position i) with
      | ok v =>
        simp only [Outcome.ok_bind]
        cases hst : store g (τ dst) (g.atNode .serial i) v with
        | ok a =>
          simp only [Outcome.ok_bind]
          rw [ih _ fun k hk => by rw [Function.update_of_ne hk]; exact hτ k hk]
          simp only [Function.update_self, Function.update_idem]
        | ub => rfl
        | abort c => rfl
      | ub => rfl
      | abort c => rfl
  exact key _ σ fun _ _ => rfl

theorem pointKernel_congr (d : Nat) (dx : Nat → T) (k l : Nat) (f : (Nat → Int) → T → T → T) {dst : Nat} (hk : k ≠ dst) (hl : l ≠ dst) (A B : Nat → (Nat → Int) → Outcome T)
    (h : ∀ k, k ≠ dst → A k = B k) : pointKernel d dx k l f A = pointKernel d dx k l f B := by
  funext x
  unfold pointKernel lapKernel
  rw [h k hk, h l hl]

/-- The grids of the program as `oldGrid`, `newGrid`, `temp`. -/
def asGrids (σ : Grids T) (s : Fields T) : Grids T := fun k => if k = 0 then s.old else if k = 1 then s.new else if k = 2 then s.temp else σ k



/-- **C107.** The serial run of the program for which C50 is stated is the run of C29, for every arithmetic. -/
theorem serialRun_update {g : Shape} (hs : Serial g) (dx : Nat → T) (mu : T → T → T) (c : T) (steps : Nat) (σ : Grids T) :
    serialRun g (cahnHilliardUpdate g.dim dx mu (fun phi l => phi + c * l) steps) σ =
      (update g dx (fun _ _ => mu) c steps ⟨σ 0, σ 1, σ 2⟩).bind fun s => .ok (asGrids σ s) := by
  have hg := hs.wf
  have access : ∀ (data : Int → T) (i : Nat), (i : Int) < g.nodes → gridAt .serial g data (g.position i) = deref g data (g.atNode .serial i) := fun data i hi =>
    (node_access (bd := .serial) hg (fun _ => hs.ghosts) (by omega) hi data).1
  have loopEq : ∀ (σ : Grids T) (dst l : Nat) (f : T → T → T), dst ≠ 0 → l ≠ dst → runLoop .serial g dst (pointKernel g.dim dx 0 l fun _ => f) σ =
      (forNodes .serial g (fun i => (deref g (σ 0) (g.atNode .serial i)).bind fun phi => (laplacianNode .serial g dx (σ l) i).bind fun lap => .ok (f phi lap)) (σ dst)).bind
        fun a => .ok (Function.update σ dst a) := by
    intro σ dst l f h0 hl
    rw [runLoop_forNodes (fun A B h => pointKernel_congr _ _ _ _ _ (Ne.symm h0) hl A B h)]
    congr 1
    unfold forNodes
    have key : ∀ (is : List Nat) (out : Int → T), (∀ i ∈ is, (i : Int) < g.nodes) →
        is.foldlM (fun out (i : Nat) => (pointKernel g.dim dx 0 l (fun _ => f) (fun k => gridAt .serial g (σ k)) (g.position i)).bind fun v => store g out (g.atNode .serial i) v) out =
        is.foldlM (fun out (i : Nat) => ((deref g (σ 0) (g.atNode .serial i)).bind fun phi => (laplacianNode .serial g dx (σ l) i).bind fun lap => Outcome.ok (f phi lap)).bind
          fun v => store g out (g.atNode .serial i) v) out := by
      intro is
      induction is with
      | nil => intro out _; rfl
      | cons i is ih =>
        intro out h
        simp only [List.foldlM_cons]
        have e : pointKernel g.dim dx 0 l (fun _ => f) (fun k => gridAt .serial g (σ k)) (g.position i) =
            (deref g (σ 0) (g.atNode .serial i)).bind fun phi => (laplacianNode .serial g dx (σ l) i).bind fun lap => Outcome.ok (f phi lap) := by
          unfold pointKernel
          beta_reduce
          rw [access _ i (h i (by simp))]
          rfl
        rw [e]
        congr 1
        funext out
        exact ih out fun j hj => h j (by simp [hj])
    exact key _ _ fun i hi => by have := List.mem_range.mp hi; omega
  have pass : ∀ (σ : Grids T) (s : Fields T), serialRun g (cahnHilliard g.dim dx mu fun phi l => phi + c * l) (asGrids σ s) =
      (step g dx (fun _ => mu) c s).bind fun s' => .ok (asGrids σ s') := by
    intro σ s
    unfold cahnHilliard serialRun step
    simp only [List.foldlM_cons, List.foldlM_nil, serialStmt, Outcome.bind_eq, Outcome.pure_eq, Outcome.ok_bind]
    rw [loopEq _ 2 0 mu (by decide) (by decide)]
    have a0 : asGrids σ s 0 = s.old := rfl
    have a2 : asGrids σ s 2 = s.temp := rfl
    rw [a0, a2]
    cases forNodes .serial g (fun i => (deref g s.old (g.atNode .serial i)).bind fun phi => (laplacianNode .serial g dx s.old i).bind fun l => Outcome.ok (mu phi l)) s.temp with
    | ub => rfl
    | abort c => rfl
    | ok temp =>
      simp only [Outcome.ok_bind]
      rw [loopEq _ 1 2 _ (by decide) (by decide)]
      have b0 : Function.update (asGrids σ s) 2 temp 0 = s.old := by rw [Function.update_of_ne (by decide)]; rfl
      have b1 : Function.update (asGrids σ s) 2 temp 1 = s.new := by rw [Function.update_of_ne (by decide)]; rfl
      rw [b0, b1, Function.update_self]
      cases forNodes .serial g (fun i => (deref g s.old (g.atNode .serial i)).bind fun phi => (laplacianNode .serial g dx temp i).bind fun l => Outcome.ok (phi + c * l)) s.new with
      | ub => rfl
      | abort c => rfl
      | ok new =>
        simp only [Outcome.ok_bind]
        congr 1
        funext k
        unfold swapGrids asGrids
        by_cases k0 : k = 0
        · subst k0; simp
        by_cases k1 : k = 1
        · subst k1; simp [Function.update]
        by_cases k2 : k = 2
        · subst k2; simp [Function.update]
        · simp [k0, k1, k2, Function.update]
  have self : asGrids σ ⟨σ 0, σ 1, σ 2⟩ = σ := by
    funext k; unfold asGrids
    split_ifs with h0 h1 h2
    · rw [h0]
    · rw [h1]
    · rw [h2]
    · rfl
  have all : ∀ n, serialRun g (repeatProg (cahnHilliard g.dim dx mu fun phi l => phi + c * l) n) σ =
      (update g dx (fun _ _ => mu) c n ⟨σ 0, σ 1, σ 2⟩).bind fun s => .ok (asGrids σ s) := by
    intro n
    induction n with
    | zero => show Outcome.ok σ = .ok (asGrids σ ⟨σ 0, σ 1, σ 2⟩); rw [self]
    | succ n ih =>
      rw [repeatProg_succ, MMSP.ParallelRun.serialRun_append, ih, update]
      cases update g dx (fun _ _ => mu) c n ⟨σ 0, σ 1, σ 2⟩ with
      | ok s => simp only [Outcome.ok_bind]; exact pass σ s
      | ub => rfl
      | abort c => rfl
  unfold cahnHilliardUpdate
  rw [← all steps]
  unfold serialRun
  rw [List.foldlM_cons]
  rfl

end Link

/-! ## Ranks -/

section
variable {p : Nat} {w : World} {np : Nat}

/-- The masses of the ranks, each over its own nodes, added up. -/
noncomputable def ranksMass (w : World) (np : Nat) (D : Int → Int → Num p) : ℝ :=
  ∑ r ∈ Finset.range np, ∑ i ∈ Finset.range (w.shape (r : Int)).nodes.toNat, (D r ((w.shape r).atNode .mpi i)).val

/-- Ranks that hold the serial field hold its mass. -/
theorem ranksMass_eq (h : w.Ok np) {σ : Grids (Num p)} {D : Int → Grids (Num p)} (hF : SameField w np σ D 0) : ranksMass w np (fun r => D r 0) = mass w.serial (σ 0) := by
  have hsum := Board.sum_ranks h (F := fun x => (cellAt w.serial (σ 0) x).val) (fun x y hxy => by
    unfold cellAt; rw [rawOffset_congr (g := w.serial) hxy])
  unfold ranksMass mass
  have e1 : ∀ r ∈ Finset.range np, ∑ i ∈ Finset.range (w.shape (r : Int)).nodes.toNat, (D r 0 ((w.shape r).atNode .mpi i)).val =
      ∑ i ∈ Finset.range (w.shape (r : Int)).nodes.toNat, (cellAt w.serial (σ 0) ((w.shape (r : Int)).position i)).val := by
    intro r hr
    have hr := Finset.mem_range.mp hr
    have hR : Ghost.IsRank np (r : Int) := ⟨by omega, by omega⟩
    refine Finset.sum_congr rfl fun i hi => ?_
    have hi := Finset.mem_range.mp hi
    have hwf := shape_wf h hR
    rw [← hF r hR _ (Shape.position_isNode hwf (by omega) (by omega)), atNode_raw hwf (by simp) (by omega) (by omega)]
    rfl
  rw [Finset.sum_congr rfl e1, hsum]
  refine Finset.sum_congr rfl fun i hi => ?_
  have hi := Finset.mem_range.mp hi
  have hwf := serial_wf h
  show (σ 0 (w.serial.rawOffset _)).val = _
  rw [← atNode_raw (bd := .serial) hwf (fun _ => rfl) (by omega) (by omega)]
  rfl

/-- **C107.** The Cahn-Hilliard example in floating point on any decomposition: the ranks end, hold the numbers of the serial run, and as long as that stays within `±B` their masses add up to the
initial ones up to `chDrift` per node and step. -/
theorem ranks_drift (hp : 1 ≤ p) {c : Nat → Cell (Num p)} (hc : ∀ k, RoundTrips (c k)) (hv : ∀ k v, (c k).Valid v) (h : w.Ok np) (hgh : 1 ≤ w.ghosts) (hs : Serial w.serial) (dx : Nat → Num p) (r u k m dt : Num p) {σ : Grids (Num p)}
    {D : Int → Grids (Num p)} (hF : SameField w np σ D 0) (B : ℝ) :
    ∃ (S : Nat → Grids (Num p)) (D' : Nat → Int → Grids (Num p)), S 0 = σ ∧ ∀ n,
      serialRun w.serial (cahnHilliardUpdate w.d dx (chPotential r u k) (fun phi l => phi + dt * m * l) n) σ = .ok (S n) ∧
      Finished np (mpiRun c w (cahnHilliardUpdate w.d dx (chPotential r u k) (fun phi l => phi + dt * m * l) n) fun r => .ok (D r)) (D' n) ∧
      SameField w np (S n) (D' n) 0 ∧
      ((∀ j < n, ∀ i, 0 ≤ i → i < w.serial.nodes → |(S j 0 i).val| ≤ B) →
        |ranksMass w np (fun r => D' n r 0) - ranksMass w np (fun r => D r 0)| ≤ n * (w.serial.nodes.toNat * chDrift w.serial dx r u k (dt * m) B)) := by
  obtain ⟨S, h1, h2, h3⟩ := cahnHilliard_drift hp hs dx r u k m dt ⟨σ 0, σ 1, σ 2⟩ B
  have hser : ∀ n, serialRun w.serial (cahnHilliardUpdate w.d dx (chPotential r u k) (fun phi l => phi + dt * m * l) n) σ = .ok (asGrids σ (S n)) := by
    intro n
    have := serialRun_update hs dx (chPotential r u k) (dt * m) n σ
    rw [show (update w.serial dx (fun _ _ => chPotential r u k) (dt * m) n ⟨σ 0, σ 1, σ 2⟩) = .ok (S n) from h1 n, Outcome.ok_bind] at this
    exact this
  have hpar : ∀ n, ∃ D', Finished np (mpiRun c w (cahnHilliardUpdate w.d dx (chPotential r u k) (fun phi l => phi + dt * m * l) n) fun r => .ok (D r)) D' ∧
      SameField w np (asGrids σ (S n)) D' 0 := by
    intro n
    have hd : Disciplined w.d w.ghosts (fun _ (_ : Num p) => True) ⟨fun k => k = 0, fun _ => False⟩ (cahnHilliardUpdate w.d dx (chPotential r u k) (fun phi l => phi + dt * m * l) n) oldKnown :=
      .ghostswap rfl (((cahnHilliard_disciplined w.d hgh dx _ _).steps n).mono ⟨fun _ => id, fun _ hk => Or.inr hk⟩)
    obtain ⟨σ', D', e1, e2, hA, _⟩ := parallel_eq_serial hc (fun k v _ => hv k v) h hd (σ := σ) (D := D) (S := fun r => .ok (D r)) (fun _ _ => rfl)
      ⟨fun k hk => hk ▸ hF, fun _ hk => hk.elim⟩ (fun _ => ⟨fun _ _ _ => trivial, fun _ _ _ _ _ => trivial⟩)
    rw [hser n] at e1
    cases e1
    exact ⟨D', e2, hA.same 0 rfl⟩
  choose D' hD' using hpar
  refine ⟨fun n => asGrids σ (S n), D', ?_, fun n => ⟨hser n, (hD' n).1, (hD' n).2, fun hB => ?_⟩⟩
  · beta_reduce
    rw [h2]
    funext k; unfold asGrids
    split_ifs with h0 h1 h2
    · rw [h0]
    · rw [h1]
    · rw [h2]
    · rfl
  · rw [ranksMass_eq h (hD' n).2, ranksMass_eq h hF]
    exact h3 n hB

end

instance (p : Nat) : Countable (Num p) := by
  have : Function.Surjective (fun q : { q : ℤ × ℤ // |q.1| ≤ 2 ^ p } => (⟨q.1.1 * 2 ^ q.1.2, q.1.1, q.1.2, q.2, rfl⟩ : Num p)) := by
    rintro ⟨v, m, k, h, e⟩
    exact ⟨⟨(m, k), h⟩, Num.ext e.symm⟩
  exact this.countable

noncomputable instance (p : Nat) : Encodable (Num p) := Encodable.ofCountable _

/-- Two ranks with two nodes each, stale ghosts, one step. -/
example : ∃ (S : Nat → Grids (Num 53)) (D' : Nat → Int → Grids (Num 53)),
    Finished 2 (mpiRun (fun _ => unaryCell (Num 53)) smallWorld (cahnHilliardUpdate 1 (fun _ => 1) (chPotential 1 1 1) (fun phi l => phi + dtNum * 1 * l) 1)
      fun r => .ok fun k => if k = 0 then shared (fun x => if x = 0 then 1 else 0) (-1) r else fun _ => 0) (D' 1) ∧ SameField smallWorld 2 (S 1) (D' 1) 0 ∧
    |ranksMass smallWorld 2 (fun r => D' 1 r 0) - ranksMass (p := 53) smallWorld 2 (fun r => shared (fun x => if x = 0 then 1 else 0) (-1) r)| ≤
      1 * (smallWorld.serial.nodes.toNat * chDrift smallWorld.serial (fun _ => 1) 1 1 1 (dtNum * 1) 1) := by
  have hs : Serial smallWorld.serial := ⟨serial_wf smallWorld_ok, rfl, fun _ _ => Or.inl ⟨rfl, rfl⟩⟩
  obtain ⟨S, D', h0, h⟩ := ranks_drift (p := 53) (by norm_num) (c := fun _ => unaryCell (Num 53)) (fun _ => unaryCell_roundTrips _) (fun _ _ => trivial) smallWorld_ok (by decide) hs
    (fun _ => 1) 1 1 1 1 dtNum (σ := fun k => if k = 0 then fun x => if x = 0 then 1 else 0 else fun _ => 0)
    (D := fun r k => if k = 0 then shared (fun x => if x = 0 then 1 else 0) (-1) r else fun _ => 0) (shared_same _ (-1) rfl fun _ => rfl) 1
  obtain ⟨-, a, b, c⟩ := h 1
  refine ⟨S, D', a, b, ?_⟩
  have := c (fun j hj i _ _ => by
    have : j = 0 := by omega
    rw [this, h0]
    show |(if i = 0 then (1 : Num 53) else 0).val| ≤ 1
    split_ifs
    · rw [Num.one_val, abs_one]
    · rw [Num.zero_val, abs_zero]; norm_num)
  simpa using this

end MMSP.RoundConserve
