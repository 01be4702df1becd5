import Verif.AsyncReduce
import Verif.AsyncRunProps
import Verif.ParallelBoardLink
/-!
# Property C98: reductions under every schedule
-/

namespace MMSP.Collective

open ParallelRun Async Ghost

variable {V : Type}

section
variable (c : Nat → Cell V) (w : World) (np : Nat)

/-- Steps of a phase: those of the statements (C90), and leaving the reduction before it. -/
def phaseSteps (p : List (Stmt V)) : Nat := np + np * (16 * w.d * (segs p).length + p.length)

/-- What a program does when all ranks execute a statement before the next one begins: it ends with a code and memories for which `Q` holds, after no more than `N` steps of ranks. -/
def Follows (Q : Option Int → (Int → Grids V) → Prop) : Prog V → (Int → Grids V) → Nat → Prop
  | .fin p code, D, N => phaseSteps w np p ≤ N ∧ ∃ D', Finished np (mpiRun c w p fun r => .ok (D r)) D' ∧ Q code D'
  | .collect p act R _ f next, D, N => ∃ (D' : Int → Grids V) (e : Rank np → R) (N' : Nat), Finished np (mpiRun c w p fun r => .ok (D r)) D' ∧
      (∀ r : Rank np, f (w.shape r.1) (act (D' r.1)) = .ok (e r)) ∧ phaseSteps w np p + 1 + N' ≤ N ∧ Follows Q (next (∑ r, e r)) (fun r => act (D' r)) N'
end

section
variable {np : Nat} {w : World} {c : Nat → Cell V} {h : w.Ok np} {Q : Option Int → (Int → Grids V) → Prop}

theorem Follows.finished {prog : Prog V} {D : Int → Grids V} {N : Nat} (hF : Follows c w np Q prog D N) :
    phaseSteps w np prog.stmts ≤ N ∧ ∃ D', Finished np (mpiRun c w prog.stmts fun r => .ok (D r)) D' := by
  cases prog with
  | fin p code => exact ⟨hF.1, hF.2.imp fun _ h => h.1⟩
  | collect p act R inst f next =>
    obtain ⟨D', e, N', h1, -, h3, -⟩ := hF
    exact ⟨by show phaseSteps w np p ≤ N; omega, D', h1⟩

/-- The state of a job: the present phase was reached after `a` steps, `m` of the steps since then are steps of C90. -/
structure Inv (c : Nat → Cell V) (h : w.Ok np) (Q : Option Int → (Int → Grids V) → Prop) (eager : Bool) (N n : Nat) (X : Job V np) : Prop where
  phase : ∃ (D : Int → Grids V) (N' a m : Nat), Async.Run c h eager m (start X.prog.stmts D) X.ranks ∧ Follows c w np Q X.prog D N' ∧ a + N' ≤ N ∧
    n ≤ a + m + (Finset.univ.filter fun r => X.out r = true).card

theorem card_rank : Fintype.card (Rank np) = np := by
  rw [Fintype.card_of_subtype (Finset.Ico (0 : Int) np) fun x => by simp [IsRank]]; simp

theorem done_values {X : Job V np} {D D' : Int → Grids V} {e : Bool} {m : Nat} (hr : Async.Run c h e m (start X.prog.stmts D) X.ranks) (hd : Done X.ranks)
    (hf : Finished np (mpiRun c w X.prog.stmts fun r => .ok (D r)) D') : (∀ r, (X.ranks.loc r).mem = .ok ⟨D' r.1, 0⟩) ∧ X.ranks.net = [] := by
  obtain ⟨h1, h2⟩ := runs_agree hr hd
  exact ⟨fun r => by rw [h1 r, hf r.1 r.2]; rfl, h2⟩

theorem run_inv {prog : Prog V} {D : Int → Grids V} {N : Nat} (hF : Follows c w np Q prog D N) {e : Bool} {n : Nat} {X : Job V np} (hrun : Run c h e n (begin prog D) X) :
    Inv c h Q e N n X := by
  generalize hb : begin prog D = B at hrun
  induction hrun with
  | nil =>
    subst hb
    exact ⟨D, N, 0, 0, .nil _, hF, by omega, Nat.zero_le _⟩
  | @snoc n _ Y Z _ hs ih =>
    obtain ⟨D1, N', a, m, hr, hfo, ha, hn⟩ := (ih hb).phase
    cases hs with
    | leave r ho =>
      refine ⟨D1, N', a, m, hr, hfo, ha, ?_⟩
      have : (Finset.univ.filter fun s => Function.update Y.out r true s = true) = insert r (Finset.univ.filter fun s => Y.out s = true) := by
        ext s
        by_cases hs : s = r
        · subst hs; simp
        · simp [hs]
      simp only
      rw [this, Finset.card_insert_of_notMem (by simp [ho])]
      omega
    | work S hs ho => exact ⟨D1, N', a, m + 1, hr.snoc hs, hfo, ha, by simp only; omega⟩
    | collect p act R inst f next hp ho hd D2 hD e' he =>
      obtain ⟨prog', ranks, out⟩ := Y
      simp only at hp; subst hp
      obtain ⟨D', e2, N2, h1, h2, h3, h4⟩ := hfo
      obtain ⟨hm, hnet⟩ := done_values hr hd h1
      have hDD : ∀ r : Rank np, D2 r.1 = D' r.1 := fun r => by
        obtain ⟨k, hk⟩ := hD r
        have := (hm r).symm.trans hk
        injection this with this; injection this with this _
        exact this.symm
      have hee : e' = e2 := funext fun r => by
        have := he r
        rw [hDD r, h2 r] at this
        exact (Outcome.ok.inj this).symm
      subst hee
      have hb := runs_end hr
      have hcard : (Finset.univ.filter fun r => out r = true).card ≤ np := (Finset.card_filter_le _ _).trans (by rw [Finset.card_univ, card_rank])
      refine ⟨fun r => act (D' r), N2, a + phaseSteps w np p + 1, 0, ?_, h4, by omega, ?_⟩
      · have : ({ start (next (∑ r, e' r)).stmts (fun r => act (D2 r)) with net := ranks.net } : State V np) = start (next (∑ r, e' r)).stmts fun r => act (D' r) := by
          simp only at hnet
          rw [hnet]
          simp only [start, startEach, hDD]
        simp only
        rw [this]
        exact .nil _
      · simp only [phaseSteps]
        have : m ≤ np * (16 * w.d * (segs p).length + p.length) := hb
        simp only at hn
        omega

/-- **C98, termination.** No run has more than `N` steps, -/
theorem run_bounded {prog : Prog V} {D : Int → Grids V} {N : Nat} (hF : Follows c w np Q prog D N) {e : Bool} {n : Nat} {X : Job V np} (hrun : Run c h e n (begin prog D) X) : n ≤ N := by
  obtain ⟨D1, N', a, m, hr, hfo, ha, hn⟩ := (run_inv hF hrun).phase
  have hb := runs_end hr
  have hcard : (Finset.univ.filter fun r => X.out r = true).card ≤ np := (Finset.card_filter_le _ _).trans (by rw [Finset.card_univ, card_rank])
  have := hfo.finished.1
  unfold phaseSteps at this
  omega

/-- **C98, one result.** a job that has ended holds what lock-step execution gives, and no message is left, -/
theorem run_ended {prog : Prog V} {D : Int → Grids V} {N : Nat} (hF : Follows c w np Q prog D N) {e : Bool} {n : Nat} {X : Job V np} (hrun : Run c h e n (begin prog D) X) (hX : Ended X) :
    X.ranks.net = [] ∧ ∃ D', Q none D' ∧ ∀ r, (X.ranks.loc r).mem = .ok ⟨D' r.1, 0⟩ := by
  obtain ⟨D1, N', a, m, hr, hfo, ha, hn⟩ := (run_inv hF hrun).phase
  obtain ⟨⟨p, hp⟩, -, hd⟩ := hX
  rw [hp] at hfo
  obtain ⟨-, D', h1, hq⟩ := hfo
  obtain ⟨hm, hnet⟩ := done_values hr hd (by rw [hp]; exact h1)
  exact ⟨hnet, D', hq, hm⟩

/-- a rank calls `Abort` only if lock-step execution does, with the same code, -/
theorem run_aborts {prog : Prog V} {D : Int → Grids V} {N : Nat} (hF : Follows c w np Q prog D N) {e : Bool} {n : Nat} {X : Job V np} (hrun : Run c h e n (begin prog D) X) {r : Rank np}
    {code : Int} (hX : Aborts X r code) : ∃ D', Q (some code) D' := by
  obtain ⟨D1, N', a, m, hr, hfo, ha, hn⟩ := (run_inv hF hrun).phase
  obtain ⟨⟨p, hp⟩, -⟩ := hX
  rw [hp] at hfo
  obtain ⟨-, D', h1, hq⟩ := hfo
  exact ⟨D', hq⟩

theorem rank_zero (h : w.Ok np) : IsRank np 0 := by
  have h1 := h.setup.grid.2
  have h2 : 0 < ∏ j ∈ Finset.range w.d, w.p j := Finset.prod_pos fun j hj => h.setup.grid.1 j (Finset.mem_range.mp hj)
  exact ⟨le_refl 0, by omega⟩

/-- **C98, no deadlock.** and as long as a job has not ended and no rank calls `Abort`, some rank can go on, even if a send completes only after its message was taken. -/
theorem run_goes_on {prog : Prog V} {D : Int → Grids V} {N : Nat} (hF : Follows c w np Q prog D N) {e : Bool} {n : Nat} {X : Job V np} (hrun : Run c h e n (begin prog D) X)
    (hE : ¬ Ended X) (hA : ∀ r code, ¬ Aborts X r code) : ∃ Y, Step c h false X Y := by
  obtain ⟨D1, N', a, m, hr, hfo, ha, hn⟩ := (run_inv hF hrun).phase
  by_cases ho : ∃ r, X.out r = false
  · obtain ⟨r, ho⟩ := ho
    exact ⟨_, .leave X r ho⟩
  have ho : ∀ r, X.out r = true := fun r => by
    by_contra hc; exact ho ⟨r, by simpa using hc⟩
  by_cases hd : Done X.ranks
  · cases hp : X.prog with
    | fin p code =>
      cases code with
      | none => exact absurd ⟨⟨p, hp⟩, ho, hd⟩ hE
      | some code =>
        obtain ⟨r, -, hmin⟩ := Finset.exists_min_image Finset.univ (fun r => (X.ranks.loc r).k) ⟨(⟨0, rank_zero h⟩ : Rank np), Finset.mem_univ _⟩
        exact absurd ⟨⟨p, hp⟩, ho r, hd r, fun s => hmin s (Finset.mem_univ s)⟩ (hA r code)
    | collect p act R inst f next =>
      rw [hp] at hfo
      obtain ⟨D', e2, N2, h1, h2, h3, h4⟩ := hfo
      obtain ⟨hm, hnet⟩ := done_values hr hd (by rw [hp]; exact h1)
      exact ⟨_, .collect X p act R inst f next hp ho hd D' (fun r => ⟨0, hm r⟩) e2 h2⟩
  · obtain ⟨S, hS⟩ := runs_go_on hr hd
    exact ⟨_, .work X S hS fun r hr => by rw [ho r] at hr; cases hr⟩

/-- Runs that come to an end exist. -/
theorem run_exists {prog : Prog V} {D : Int → Grids V} {N : Nat} (hF : Follows c w np Q prog D N) :
    ∃ n X, Run c h false n (begin prog D) X ∧ (Ended X ∨ ∃ r code, Aborts X r code) := by
  by_contra hcon
  push Not at hcon
  have : ∀ n, ∃ X, Run c h false n (begin prog D) X := fun n => by
    induction n with
    | zero => exact ⟨_, .nil _⟩
    | succ n ih =>
      obtain ⟨X, hX⟩ := ih
      obtain ⟨Y, hY⟩ := run_goes_on hF hX (hcon n X hX).1 (hcon n X hX).2
      exact ⟨Y, hX.snoc hY⟩
  obtain ⟨X, hX⟩ := this (N + 1)
  have := run_bounded hF hX
  omega

end

/-! ## Convex splitting -/

section
open Board
variable {np : Nat} {w : World} {c : Nat → Cell V}

theorem sum_rank {R : Type} [AddCommMonoid R] (F : Int → R) : ∑ r : Rank np, F r.1 = ∑ i ∈ Finset.range np, F (i : Int) := by
  refine (Finset.sum_bij (fun (i : Nat) (hi : i ∈ Finset.range np) => (⟨(i : Int), by omega, by have := Finset.mem_range.mp hi; omega⟩ : Rank np)) (fun _ _ => Finset.mem_univ _) ?_ ?_ ?_).symm
  · intro i _ j _ hij
    have := congrArg Subtype.val hij
    simp only at this
    omega
  · intro r _
    obtain ⟨r, h0, h1⟩ := r
    exact ⟨r.toNat, Finset.mem_range.mpr (by omega), Subtype.ext (by simp only; omega)⟩
  · intro i _; rfl

theorem allreduce_ok {R : Type} [AddCommMonoid R] {f : Int → Outcome R} : ∀ {n : Nat} {s : R}, allreduce n f = .ok s →
    ∃ e : Int → R, (∀ r, IsRank n r → f r = .ok (e r)) ∧ s = ∑ i ∈ Finset.range n, e (i : Int)
  | 0, s, hs => ⟨fun _ => 0, fun r hr => absurd hr (by rintro ⟨h0, h1⟩; omega), by injection hs with hs; rw [← hs]; rfl⟩
  | n + 1, s, hs => by
    unfold allreduce at hs
    rw [List.range_succ, List.foldlM_append] at hs
    cases hp : allreduce n f with
    | ok t =>
      unfold allreduce at hp
      rw [hp] at hs
      simp only [List.foldlM_cons, List.foldlM_nil, Outcome.bind_eq, Outcome.ok_bind, Outcome.pure_eq] at hs
      cases hn : f (n : Int) with
      | ok v =>
        rw [hn] at hs
        obtain ⟨e, he, ht⟩ := allreduce_ok (n := n) hp
        refine ⟨Function.update e n v, fun r hr => ?_, ?_⟩
        · by_cases hrn : r = n
          · subst hrn; rw [Function.update_self]; exact hn
          · rw [Function.update_of_ne hrn]; exact he r ⟨hr.1, by have := hr.2; omega⟩
        · rw [Finset.sum_range_succ, Function.update_self, Finset.sum_congr rfl fun i hi => Function.update_of_ne (by have := Finset.mem_range.mp hi; omega) v e, ← ht]
          exact (Outcome.ok.inj hs).symm
      | ub => rw [hn] at hs; cases hs
      | abort k => rw [hn] at hs; cases hs
    | ub => unfold allreduce at hp; rw [hp] at hs; cases hs
    | abort k => unfold allreduce at hp; rw [hp] at hs; cases hs

theorem mpiRun_append (p q : List (Stmt V)) (S : Int → Outcome (Grids V)) : mpiRun c w (p ++ q) S = mpiRun c w q (mpiRun c w p S) := by
  unfold mpiRun; rw [List.foldl_append]

/-- Both colours. -/
theorem colours_finished (hc : ∀ k, RoundTrips (c k)) (hall : ∀ k v, (c k).Valid v) (h : w.Ok np) (hgh : 1 ≤ w.ghosts) (hw : Colourable w) {kern : Kernel V} (hst : Star w.d kern)
    (htot : Total w.d kern) {σ : Grids V} {D : Int → Grids V} {S : Int → Outcome (Grids V)} (hS : Finished np S D) (hA : Agree w np pairKnown σ D) :
    ∃ σ' D', serialRun w.serial (colours w.d kern) σ = .ok σ' ∧ Finished np (mpiRun c w (colours w.d kern) S) D' ∧ Agree w np pairKnown σ' D' := by
  obtain ⟨σ1, D1, e1, p1, A1⟩ := stmt_agree_board h hgh hw (color := 1) (Or.inr rfl) hst htot (K := pairKnown) (by decide : 0 ≤ 1) (le_refl 1) rfl hA
  have fin1 : Finished np (mpiStmt c w (.loop 1 (boardKernel w.d 1 kern)) S) D1 := fun r hr => by simp only [mpiStmt]; rw [hS r hr, Outcome.ok_bind, p1 r hr]
  obtain ⟨D2, p2, A2, -⟩ := stmt_agree_ghostswap (P := fun _ _ => True) hc (fun k v _ => hall k v) h (a := 1) (Or.inr rfl) fin1 A1 allTrue
  obtain ⟨σ3, D3, e3, p3, A3⟩ := stmt_agree_board h hgh hw (color := 0) (Or.inl rfl) hst htot (Or.inl (by decide : 0 ≤ 1)) (Or.inr rfl) (Or.inr rfl) A2
  have fin3 : Finished np (mpiStmt c w (.loop 1 (boardKernel w.d 0 kern)) (mpiStmt c w (.ghostswap 1) (mpiStmt c w (.loop 1 (boardKernel w.d 1 kern)) S))) D3 := fun r hr => by
    rw [mpiStmt]; beta_reduce; rw [p2 r hr, Outcome.ok_bind, p3 r hr]
  obtain ⟨D4, p4, A4, -⟩ := stmt_agree_ghostswap (P := fun _ _ => True) hc (fun k v _ => hall k v) h (a := 1) (Or.inr rfl) fin3 A3 allTrue
  refine ⟨σ3, D4, ?_, p4, agree_le A4 ⟨fun k hk => Or.inl (Or.inl hk), fun k hk => Or.inr hk⟩⟩
  unfold serialRun colours
  simp only [List.foldlM_cons, List.foldlM_nil, Outcome.bind_eq, Outcome.pure_eq, e1, Outcome.ok_bind]
  rw [show serialStmt w.serial (.ghostswap 1) σ1 = .ok σ1 from rfl, Outcome.ok_bind, e3, Outcome.ok_bind]
  rfl

variable {R₁ R₂ : Type} [AddCommMonoid R₁] [AddCommMonoid R₂] {kern : Kernel V} {res : (Nat → (Nat → Int) → Outcome V) → (Nat → Int) → Outcome (R₁ × R₂)}

theorem solve_follows (again : R₁ × R₂ → Bool) (hc : ∀ k, RoundTrips (c k)) (hall : ∀ k v, (c k).Valid v) (h : w.Ok np) (hgh : 1 ≤ w.ghosts) (hw : Colourable w) (hst : Star w.d kern)
    (htot : Total w.d kern) (hsr : Star w.d res) (htr : Total w.d res) {Q : Option Int → (Int → Grids V) → Prop} {k : List (Stmt V) → Prog V} :
    ∀ (left iter : Nat) (go : Bool) (acc : List (Stmt V)) {σ : Grids V} {D D1 : Int → Grids V}, Finished np (mpiRun c w acc fun r => .ok (D r)) D1 → Agree w np pairKnown σ D1 →
    (∀ σ' acc D D1, serialSolve w.serial kern res again left iter go σ = .ok σ' → Finished np (mpiRun c w acc fun r => .ok (D r)) D1 → Agree w np pairKnown σ' D1 →
      ∃ N, Follows c w np Q (k acc) D N) → (serialSolve w.serial kern res again left iter go σ = .abort (-1) → ∀ D', Q (some (-1)) D') →
    ∃ N, Follows c w np Q (solveProg w.d kern res again k left iter go acc) D N
  | 0, _, _, acc, σ, D, D1, hf, _, _, hq => ⟨_, le_refl _, D1, hf, hq rfl D1⟩
  | left + 1, iter, false, acc, σ, D, D1, hf, hA, hk, _ => hk σ acc D D1 rfl hf hA
  | left + 1, iter, true, acc, σ, D, D1, hf, hA, hk, hq => by
    obtain ⟨σ2, D2, e1, hf2, A2⟩ := colours_finished hc hall h hgh hw hst htot hf hA
    rw [← mpiRun_append] at hf2
    obtain ⟨s, f1, f2⟩ := residual_agree h hgh hsr htr (A2.same 0 (by decide : 0 ≤ 1)) (A2.same 1 (le_refl 1)) (A2.synced 1 rfl)
    have e1' : serialRun w.serial (colours w.serial.dim kern) σ = .ok σ2 := e1
    simp only [serialSolve, if_true, e1', Outcome.ok_bind, f1] at hk hq
    simp only [solveProg, if_true]
    split_ifs at hk hq ⊢
    · simp only [Outcome.ok_bind] at hk hq
      obtain ⟨e, he, hs⟩ := allreduce_ok f2
      have hnil : Finished np (mpiRun c w [] fun r => .ok (D2 r)) D2 := fun _ _ => rfl
      obtain ⟨N, hN⟩ := solve_follows again hc hall h hgh hw hst htot hsr htr (Q := Q) (k := k) left (iter + 1) (again s) [] hnil A2 hk hq
      have hs1 : s.1 = ∑ r : Rank np, (e r.1).1 := by rw [hs, sum_rank fun r => (e r).1, Prod.fst_sum]
      have hs2 : s.2 = ∑ r : Rank np, (e r.1).2 := by rw [hs, sum_rank fun r => (e r).2, Prod.snd_sum]
      refine ⟨_, D2, fun r => (e r.1).1, _, hf2, fun r => by simp only [id, he r.1 r.2, Outcome.ok_bind], le_refl _, D2, fun r => (e r.1).2, N, hnil,
        fun r => by simp only [id, he r.1 r.2, Outcome.ok_bind], le_refl _, ?_⟩
      rw [← hs1, ← hs2]
      exact hN
    · simp only [Outcome.ok_bind] at hk hq
      exact solve_follows again hc hall h hgh hw hst htot hsr htr left (iter + 1) true _ hf2 A2 hk hq

/-- How a run ends: with the field of the serial program, or with its code. -/
def Result (w : World) (np : Nat) (o : Outcome (Grids V)) : Option Int → (Int → Grids V) → Prop
  | none, D => ∃ σ, o = .ok σ ∧ SameField w np σ D 0
  | some code, _ => o = .abort code

theorem steps_follows (again : R₁ × R₂ → Bool) (hc : ∀ k, RoundTrips (c k)) (hall : ∀ k v, (c k).Valid v) (h : w.Ok np) (hgh : 1 ≤ w.ghosts) (hw : Colourable w) (hst : Star w.d kern)
    (htot : Total w.d kern) (hsr : Star w.d res) (htr : Total w.d res) (maxIter : Nat) : ∀ (steps : Nat) (acc : List (Stmt V)) {σ : Grids V} {D D1 : Int → Grids V},
    Finished np (mpiRun c w acc fun r => .ok (D r)) D1 → Agree w np ⟨fun k => k ≤ 1, fun _ => False⟩ σ D1 →
    ∃ N, Follows c w np (Result w np (serialSteps w.serial kern res again maxIter steps σ)) (stepsProg w.d kern res again maxIter steps acc) D N
  | 0, acc, σ, D, D1, hf, hA => ⟨_, le_refl _, D1, hf, σ, rfl, hA.same 0 (by decide : 0 ≤ 1)⟩
  | n + 1, acc, σ, D, D1, hf, hA => by
    have hd : Disciplined w.d w.ghosts (fun _ (_ : V) => True) ⟨fun k => k ≤ 1, fun _ => False⟩ [.ghostswap 0, .ghostswap 1] pairKnown :=
      .ghostswap (by decide : 0 ≤ 1) (.ghostswap (le_refl 1) (.nil ⟨fun _ => id, fun _ hk => Or.inr hk⟩))
    obtain ⟨σ2, D2, e1, hf2, A2, -⟩ := parallel_eq_serial (P := fun _ _ => True) hc (fun k v _ => hall k v) h hd hf hA allTrue
    have eσ : σ2 = σ := (Outcome.ok.inj e1).symm
    subst eσ
    rw [← mpiRun_append] at hf2
    refine solve_follows again hc hall h hgh hw hst htot hsr htr maxIter 0 true _ hf2 A2 (fun σ' acc D D3 hs hf3 A3 => ?_) fun hs D' => ?_
    · have hs' : Disciplined w.d w.ghosts (fun _ (_ : V) => True) pairKnown [.swap 0 1] ⟨fun k => k ≤ 1, fun _ => False⟩ :=
        .swap rfl (.nil ⟨fun k hk => by
          show (if k = 0 then _ else if k = 1 then _ else _)
          split_ifs
          · exact le_refl 1
          · exact (by decide : 0 ≤ 1)
          · exact hk, fun _ hk => hk.elim⟩)
      obtain ⟨σ4, D4, k1, hf4, A4, -⟩ := parallel_eq_serial (P := fun _ _ => True) hc (fun k v _ => hall k v) h hs' hf3 A3 allTrue
      have eσ : σ4 = swapGrids 0 1 σ' := (Outcome.ok.inj k1).symm
      subst eσ
      rw [← mpiRun_append] at hf4
      simp only [serialSteps, hs, Outcome.ok_bind]
      exact steps_follows again hc hall h hgh hw hst htot hsr htr maxIter n _ hf4 A4
    · show serialSteps _ _ _ _ _ _ _ = _
      simp only [serialSteps, hs]; rfl

theorem update_follows (again : Nat → R₁ × R₂ → Bool) (hc : ∀ k, RoundTrips (c k)) (hall : ∀ k v, (c k).Valid v) (h : w.Ok np) (hgh : 1 ≤ w.ghosts) (hw : Colourable w)
    (hst : Star w.d kern) (htot : Total w.d kern) (hsr : Star w.d res) (htr : Total w.d res) (maxIter steps : Nat) {σ : Grids V} {D : Int → Grids V} (hF : SameField w np σ D 0) :
    ∃ N, Follows c w np (Result w np (serialSteps w.serial kern res (again w.serial.nodes.toNat) maxIter steps (Function.update σ 1 (σ 0))))
      (updateProg w.d kern res again maxIter steps) D N := by
  have hd : Disciplined w.d w.ghosts (fun _ (_ : V) => True) ⟨fun k => k = 0, fun _ => False⟩ [.ghostswap 0] oldKnown := .ghostswap rfl (.nil ⟨fun _ => id, fun _ hk => Or.inr hk⟩)
  obtain ⟨σ1, D1, e1, hf, A1, -⟩ := parallel_eq_serial (P := fun _ _ => True) hc (fun k v _ => hall k v) h hd (σ := σ) (D := D) (S := fun r => .ok (D r)) (fun _ _ => rfl)
    ⟨fun k hk => hk ▸ hF, fun _ hk => hk.elim⟩ allTrue
  have eσ : σ1 = σ := (Outcome.ok.inj e1).symm
  subst eσ
  obtain ⟨N, hN⟩ := steps_follows (again w.serial.nodes.toNat) hc hall h hgh hw hst htot hsr htr maxIter steps [] (σ := Function.update σ1 1 (σ1 0))
    (D := fun r => Function.update (D1 r) 1 (D1 r 0)) (fun _ _ => rfl) ⟨fun k hk r hr x hx => by
      have hk' : k = 0 ∨ k = 1 := by have : k ≤ 1 := hk; omega
      rcases hk' with rfl | rfl
      · exact A1.same 0 rfl r hr x hx
      · simp only [Function.update_self]; exact A1.same 0 rfl r hr x hx, fun _ hk => hk.elim⟩
  refine ⟨_, D1, fun r => (w.shape r.1).nodes.toNat, N, hf, fun _ => rfl, le_refl _, ?_⟩
  have : ∑ r : Rank np, (w.shape r.1).nodes.toNat = w.serial.nodes.toNat := by
    rw [sum_rank fun r => (w.shape r).nodes.toNat, ← size_agree h]
    have key : ∀ (f : Nat → Nat) (n : Nat), ((List.range n).map f).sum = ∑ r ∈ Finset.range n, f r := fun f n => by
      induction n with
      | zero => rfl
      | succ n ih => rw [List.range_succ, List.map_append, List.sum_append, ih, Finset.sum_range_succ]; simp
    exact (key _ _).symm
  rw [this]
  exact hN
end

section
open Board ConvexSplit
variable {α : Type} [Field α] [LinearOrder α]

/-- **C98.** `update` of the convex splitting example on ranks that run at their own speed, started from the field the serial build is started from. Runs have bounded length and do not
get stuck; when all ranks have returned from `update`, the serial program returns too and they hold its field; a rank calls `Abort` only if the serial program does. -/
theorem convex_every_schedule {c : Nat → Cell (α × α)} (hc : ∀ k, RoundTrips (c k)) (hall : ∀ k v, (c k).Valid v) {w : World} {np : Nat} (h : w.Ok np) (hgh : 1 ≤ w.ghosts)
    (hw : Colourable w) (p : Params α) (dx : Nat → α) (sqrt : α → α) (maxIter steps : Nat) {field : Int → α × α} {D : Int → Grids (α × α)}
    (hF : ∀ r, IsRank np r → ∀ x, (w.shape r).IsNode x → cellAt (w.shape r) (D r 0) x = cellAt w.serial field x) :
    (∃ N, ∀ e n X, Run c h e n (begin (convexProg p w.d dx sqrt maxIter steps) D) X → n ≤ N) ∧
    (∀ e n X, Run c h e n (begin (convexProg p w.d dx sqrt maxIter steps) D) X → ¬ Ended X → (∀ r code, ¬ Aborts X r code) → ∃ Y, Step c h false X Y) ∧
    (∀ e n X, Run c h e n (begin (convexProg p w.d dx sqrt maxIter steps) D) X → Ended X → X.ranks.net = [] ∧ ∃ s, update p w.serial dx sqrt maxIter steps (field, field) = .ok s ∧
      ∀ r, ∃ σ, (X.ranks.loc r).mem = .ok ⟨σ, 0⟩ ∧ ∀ x, (w.shape r.1).IsNode x → cellAt (w.shape r.1) (σ 0) x = cellAt w.serial s.1 x) ∧
    (∀ e n X, Run c h e n (begin (convexProg p w.d dx sqrt maxIter steps) D) X → ∀ r code, Aborts X r code → update p w.serial dx sqrt maxIter steps (field, field) = .abort code) ∧
    ∃ n X, Run c h false n (begin (convexProg p w.d dx sqrt maxIter steps) D) X ∧ (Ended X ∨ ∃ r code, Aborts X r code) := by
  have link := steps_serial (serial_wf h) rfl p dx sqrt maxIter steps (Function.update (fun _ => field) 1 field)
  have link : ((serialSteps w.serial (nodeKernel p w.d dx) (residualKernel p w.d dx) (tooLargeAll p sqrt w.serial.nodes.toNat) maxIter steps
      (Function.update (fun _ => field) 1 field)).bind fun σ' => .ok (σ' 0, σ' 1)) = update p w.serial dx sqrt maxIter steps (field, field) := link
  obtain ⟨N, hN⟩ := update_follows (c := c) (tooLargeAll p sqrt) hc hall h hgh hw (nodeKernel_star p w.d dx) (nodeKernel_total p w.d dx) (residualKernel_star p w.d dx)
    (residualKernel_total p w.d dx) maxIter steps (σ := fun _ => field) (D := D) hF
  refine ⟨⟨N, fun e n X hX => run_bounded hN hX⟩, fun e n X hX => run_goes_on hN hX, fun e n X hX hE => ?_, fun e n X hX r code hA => ?_, run_exists hN⟩
  · obtain ⟨h1, D', ⟨σ, e1, hS⟩, h2⟩ := run_ended hN hX hE
    refine ⟨h1, (σ 0, σ 1), ?_, fun r => ⟨D' r.1, h2 r, fun x hx => hS r.1 r.2 x hx⟩⟩
    rw [← link, e1]; rfl
  · obtain ⟨D', e1⟩ := run_aborts hN hX hA
    have e1 : serialSteps _ _ _ _ _ _ _ = Outcome.abort code := e1
    rw [← link, e1]; rfl

/-- Two ranks, four nodes, the parameters of the example, any number of steps: a run comes to an end. -/
example (sqrt : ℚ → ℚ) (maxIter steps : Nat) : ∃ n X, Run (fun _ => pairCell) smallWorld_ok false n
    (begin (convexProg vanilla 1 (fun _ => 1) sqrt maxIter steps) fun r _ => shared bumpAt (9, 9) r) X ∧ (Ended X ∨ ∃ r code, Aborts X r code) :=
  (convex_every_schedule (fun _ => pairCell_roundTrips) (fun _ _ => trivial) smallWorld_ok (by decide) smallWorld_colourable vanilla (fun _ => 1) sqrt maxIter steps
    (field := bumpAt) (D := fun r _ => shared bumpAt (9, 9) r) (shared_same (σ := fun _ => bumpAt) (D := fun r _ => shared bumpAt (9, 9) r) bumpAt (9, 9) rfl fun _ => rfl)).2.2.2.2
end

end MMSP.Collective
