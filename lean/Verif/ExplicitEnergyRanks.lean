import Verif.ExplicitEnergy
import Verif.RoundConserveRanks
/-!
# Property C110 on several ranks

The fields of the ranks, read at their own nodes, are those of a serial run (C50) whose energy falls from pass to pass.
-/

namespace MMSP.Explicit

open MMSP.ParallelRun
open Conserve (Serial Fields update chPotential)
open ConvexSplit (bonds)
open Relax (weight energy Between)

section
variable {α : Type} [Field α] [LinearOrder α] [IsStrictOrderedRing α] {w : World} {np : Nat}

/-- **C110.** On any decomposition the run that starts with energy at most `E` ends without undefined behaviour on every rank; the ranks hold the fields of a serial run all of whose values stay within `±B`
and whose energy falls from pass to pass. -/
theorem ranks_energy {c : Nat → Cell α} (hc : ∀ k, RoundTrips (c k)) (hv : ∀ k v, (c k).Valid v) (h : w.Ok np) (hgh : 1 ≤ w.ghosts) (hs : Serial w.serial) {dx : Nat → α} {dt m r u k B L E : α}
    (ht : Trapped w.serial dx (dt * m) r u k B L E) {σ : Grids α} {D : Int → Grids α} (hF : SameField w np σ D 0) (he : energy w.serial dx r u k (σ 0) ≤ E) :
    ∃ (S : Nat → Grids α) (D' : Nat → Int → Grids α), S 0 = σ ∧ ∀ n,
      Finished np (mpiRun c w (cahnHilliardUpdate w.d dx (chPotential r u k) (fun phi l => phi + dt * m * l) n) fun r => .ok (D r)) (D' n) ∧
      SameField w np (S n) (D' n) 0 ∧ Between w.serial (-B) B (S n 0) ∧
      energy w.serial dx r u k (S (n + 1) 0) + dt * m * (1 - dt * m * weight w.serial dx * L) * bonds w.serial dx (S (n + 1) 2) (S (n + 1) 2) ≤ energy w.serial dx r u k (S n 0) := by
  obtain ⟨S, h1, h2, h3, h4⟩ := cahnHilliard_trapped hs ht (s := ⟨σ 0, σ 1, σ 2⟩) he
  have hser : ∀ n, serialRun w.serial (cahnHilliardUpdate w.d dx (chPotential r u k) (fun phi l => phi + dt * m * l) n) σ = .ok (RoundConserve.asGrids σ (S n)) := by
    intro n
    have := RoundConserve.serialRun_update hs dx (chPotential r u k) (dt * m) n σ
    rw [show (update w.serial dx (fun _ _ => chPotential r u k) (dt * m) n ⟨σ 0, σ 1, σ 2⟩) = .ok (S n) from h1 n, Outcome.ok_bind] at this
    exact this
  have hpar : ∀ n, ∃ D', Finished np (mpiRun c w (cahnHilliardUpdate w.d dx (chPotential r u k) (fun phi l => phi + dt * m * l) n) fun r => .ok (D r)) D' ∧
      SameField w np (RoundConserve.asGrids σ (S n)) D' 0 := by
    intro n
    have hd : Disciplined w.d w.ghosts (fun _ (_ : α) => True) ⟨fun k => k = 0, fun _ => False⟩ (cahnHilliardUpdate w.d dx (chPotential r u k) (fun phi l => phi + dt * m * l) n) oldKnown :=
      .ghostswap rfl (((cahnHilliard_disciplined w.d hgh dx _ _).steps n).mono ⟨fun _ => id, fun _ hk => Or.inr hk⟩)
    obtain ⟨σ', D', e1, e2, hA, _⟩ := parallel_eq_serial hc (fun k v _ => hv k v) h hd (σ := σ) (D := D) (S := fun r => .ok (D r)) (fun _ _ => rfl)
      ⟨fun k hk => hk ▸ hF, fun _ hk => hk.elim⟩ (fun _ => ⟨fun _ _ _ => trivial, fun _ _ _ _ _ => trivial⟩)
    rw [hser n] at e1
    cases e1
    exact ⟨D', e2, hA.same 0 rfl⟩
  choose D' hD' using hpar
  refine ⟨fun n => RoundConserve.asGrids σ (S n), D', ?_, fun n => ⟨(hD' n).1, (hD' n).2, h3 n, h4 n⟩⟩
  beta_reduce
  rw [h2]
  funext k; unfold RoundConserve.asGrids
  split_ifs with h0 h1 h2
  · rw [h0]
  · rw [h1]
  · rw [h2]
  · rfl

end

/-- Two ranks with two nodes each and stale ghosts, the constants of the example: the values stay within `±2.1`. -/
example : ∃ (S : Nat → Grids ℚ) (D' : Nat → Int → Grids ℚ), ∀ n,
    Finished 2 (mpiRun (fun _ => unaryCell ℚ) smallWorld (cahnHilliardUpdate 1 (fun _ => 1) (chPotential 1 1 1) (fun phi l => phi + 1 / 100 * 1 * l) n)
      fun r => .ok fun k => if k = 0 then shared (fun x => if x = 0 then 1 else 0) (-1) r else fun _ => 0) (D' n) ∧ SameField smallWorld 2 (S n) (D' n) 0 ∧
    Between smallWorld.serial (-(21 / 10)) (21 / 10) (S n 0) := by
  have hs : Serial smallWorld.serial := ⟨serial_wf smallWorld_ok, rfl, fun _ _ => Or.inl ⟨rfl, rfl⟩⟩
  have hw : weight smallWorld.serial (fun _ => (1 : ℚ)) = 2 := by unfold weight; norm_num [smallWorld, World.serial, FileIO.serialShape]
  have hr : reachOf smallWorld.serial (fun _ => (1 : ℚ)) (1 / 100 * 1) 1 1 1 (21 / 10) = 289044 / 100000 := by unfold reachOf; rw [hw]; norm_num
  have ht : Trapped smallWorld.serial (fun _ => (1 : ℚ)) (1 / 100 * 1) 1 1 1 (21 / 10) 29 1 := by
    refine ⟨⟨by norm_num, by norm_num, by norm_num, by rw [hw]; norm_num, by norm_num, by rw [hw, hr]; norm_num, by rw [hw]; norm_num⟩, by norm_num, by norm_num, by norm_num, ?_⟩
    rw [show smallWorld.serial.nodes.toNat = 4 by decide]
    unfold well; norm_num
  obtain ⟨S, D', -, h⟩ := ranks_energy (c := fun _ => unaryCell ℚ) (fun _ => unaryCell_roundTrips _) (fun _ _ => trivial) smallWorld_ok (by decide) hs ht
    (σ := fun k => if k = 0 then fun x => if x = 0 then 1 else 0 else fun _ => 0)
    (D := fun r k => if k = 0 then shared (fun x => if x = 0 then 1 else 0) (-1) r else fun _ => 0) (shared_same _ (-1) rfl fun _ => rfl) (by decide +kernel)
  exact ⟨S, D', fun n => ⟨(h n).1, (h n).2.1, (h n).2.2.1⟩⟩

end MMSP.Explicit
