import Verif.Rounds
import Verif.GhostProps
import Mathlib.Data.Fintype.Basic
import Mathlib.Data.Int.Interval
/-!
# Property C11: ghost exchange under every schedule
-/

namespace MMSP.Ghost

open Finset Decomp

section
variable {T : Type} {c : Cell T} {su : Setup} {np : Nat} {pl : Plan}

theorem sendProc_rank (h : su.Ok np) {i : Nat} (hi : i < su.d) (dir : Dir) {r : Int} (hr : IsRank np r) :
    IsRank np (su.sendProc i dir r) := by
  cases dir
  · have := above_spec h.grid hr.1 hr.2 hi; exact ⟨this.1, this.2.1⟩
  · have := below_spec h.grid hr.1 hr.2 hi; exact ⟨this.1, this.2.1⟩

/-- C11: each send has exactly one matching receive: the process a rank sends to is the one that receives from it. -/
theorem partners_match (h : su.Ok np) {i : Nat} (hi : i < su.d) (dir : Dir) {r : Int} (hr : IsRank np r) :
    su.recvProc i dir (su.sendProc i dir r) = r ∧ su.sendProc i dir (su.recvProc i dir r) = r := by
  cases dir
  · exact ⟨below_above h.grid hr.1 hr.2 hi, above_below h.grid hr.1 hr.2 hi⟩
  · exact ⟨above_below h.grid hr.1 hr.2 hi, below_above h.grid hr.1 hr.2 hi⟩

/-- C11: on every axis the extent of the region sent equals the extent of the region the partner fills. -/
theorem regions_match (h : su.Ok np) {i : Nat} (hi : i < su.d) (dir : Dir) {r : Int} (hr : IsRank np r) {j : Nat}
    (hj : j < su.d) :
    sendMax (su.shape r) i dir j - sendMin (su.shape r) i dir j =
      recvMax (su.shape (su.sendProc i dir r)) i dir j - recvMin (su.shape (su.sendProc i dir r)) i dir j := by
  have hs := sendProc_rank h hi dir hr
  have hm := (partners_match h hi dir hr).1
  simp only [sendMin, sendMax, recvMin, recvMax]
  by_cases hji : j = i
  · subst hji
    simp only [if_true]
    cases dir <;> simp only [shape_ghosts] <;> omega
  · have ho := recvProc_other h hi dir hs hj hji
    rw [hm] at ho
    simp only [if_neg hji, shape_ghosts, ho.1, ho.2]

/-- Ranks as a type. -/
abbrev Rank (np : Nat) := { r : Int // IsRank np r }

instance (np : Nat) : Fintype (Rank np) :=
  Fintype.subtype (Finset.Ico (0 : Int) np) (by intro x; simp [IsRank])

/-- The round number `k` of the call. -/
def roundAt (d k : Nat) : Round := (rounds d).getD k ⟨0, .up, false⟩

theorem rounds_axis {d : Nat} {rd : Round} (h : rd ∈ rounds d) : rd.axis < d := by
  simp only [rounds, List.mem_flatMap, List.mem_range] at h
  obtain ⟨i, hi, h⟩ := h
  simp only [List.mem_cons, List.not_mem_nil, or_false] at h
  rcases h with rfl | rfl | rfl | rfl <;> exact hi

theorem length_rounds (d : Nat) : (rounds d).length = 4 * d := by
  simp [rounds, List.length_flatMap, mul_comm]

theorem roundAt_eq {d k : Nat} (h : k < (rounds d).length) : roundAt d k = (rounds d)[k] := by
  unfold roundAt
  rw [List.getD_eq_getElem?_getD, List.getElem?_eq_getElem h]; rfl

theorem roundAt_mem {d k : Nat} (h : k < 4 * d) : roundAt d k ∈ rounds d := by
  rw [← length_rounds] at h
  rw [roundAt_eq h]; exact List.getElem_mem _

theorem roundAt_axis {d k : Nat} (h : k < 4 * d) : (roundAt d k).axis < d := rounds_axis (roundAt_mem h)

/-- Message tags, `include/MMSP.grid.cpp` 445-446, 456-457, 491-492, 502-503. -/
def tagOf (rd : Round) : Nat :=
  match rd.dir, rd.isData with
  | .up, false => 100
  | .up, true => 200
  | .down, false => 300
  | .down, true => 400

/-- The message-passing program of `ghostswap()`, `include/MMSP.grid.cpp` 414-515, and `ghostswap(sublattice)`, 517-1054
(same sequence of calls and tags). A rank that has failed sends its
failure on, so that a failure anywhere is visible in the result. -/
def prog (pl : Plan) (c : Cell T) (h : su.Ok np) : Rounds.Prog (Rank np) (Outcome Payload) (Outcome (RankSt T)) where
  len := 4 * su.d
  dst := fun k r =>
    if hk : k < 4 * su.d then
      ⟨su.sendProc (roundAt su.d k).axis (roundAt su.d k).dir r.1, sendProc_rank h (roundAt_axis hk) _ r.2⟩
    else r
  src := fun k r =>
    if hk : k < 4 * su.d then
      ⟨su.recvProc (roundAt su.d k).axis (roundAt su.d k).dir r.1, recvProc_rank h (roundAt_axis hk) _ r.2⟩
    else r
  tag := fun k => tagOf (roundAt su.d k)
  out := fun k r st => st.bind (payload pl c (su.shape r.1) (roundAt su.d k))
  inp := fun k r st m => st.bind fun st => m.bind fun m => consume pl c (su.shape r.1) (roundAt su.d k) st m

theorem prog_matched (pl : Plan) (c : Cell T) (h : su.Ok np) : Rounds.Matched (prog pl c h) := by
  intro k hk r
  have hk : k < 4 * su.d := hk
  have := partners_match h (roundAt_axis hk) (roundAt su.d k).dir r.2
  constructor
  · apply Subtype.ext
    simp only [prog, dif_pos hk]
    exact this.2
  · apply Subtype.ext
    simp only [prog, dif_pos hk]
    exact this.1

theorem take_rounds_foldl (pl : Plan) (c : Cell T) (su : Setup) (S : Int → Outcome (RankSt T)) {k : Nat} (hk : k < 4 * su.d) :
    ((rounds su.d).take (k + 1)).foldl (fun S rd => syncRound pl c su rd S) S =
      syncRound pl c su (roundAt su.d k) (((rounds su.d).take k).foldl (fun S rd => syncRound pl c su rd S) S) := by
  have hk' : k < (rounds su.d).length := by rw [length_rounds]; exact hk
  rw [List.take_succ_eq_append_getElem hk', List.foldl_append]
  simp only [List.foldl_cons, List.foldl_nil]
  rw [roundAt_eq hk']

theorem sync_eq (pl : Plan) (c : Cell T) (h : su.Ok np) (S : Int → Outcome (RankSt T)) {k : Nat} (hk : k ≤ 4 * su.d) (r : Rank np) :
    Rounds.sync (prog pl c h) (fun r => S r.1) k r =
      ((rounds su.d).take k).foldl (fun S rd => syncRound pl c su rd S) S r.1 := by
  induction k generalizing r with
  | zero => rfl
  | succ k ih =>
    rw [take_rounds_foldl pl c su S hk]
    simp only [Rounds.sync]
    rw [ih (by omega), ih (by omega)]
    simp only [prog, dif_pos (show k < 4 * su.d from hk), syncRound]
    cases hA : ((rounds su.d).take k).foldl (fun S rd => syncRound pl c su rd S) S r.1 with
    | ok st =>
      simp only [Outcome.ok_bind]
      cases ((rounds su.d).take k).foldl (fun S rd => syncRound pl c su rd S) S
        (su.recvProc (roundAt su.d k).axis (roundAt su.d k).dir r.1) <;> rfl
    | ub => rfl
    | abort e => rfl

/-- C11: every schedule of the ranks terminates within a fixed number of steps, can always go on until all ranks are done
(even if a send completes only when its message is received), and ends in the state that the lock-step execution
`ghostswap` produces, with no message left over. -/
theorem ghostswap_schedules (h : su.Ok np) (S : Int → Outcome (RankSt T)) {eager : Bool} {n : Nat}
    {X : Rounds.State (Rank np) (Outcome Payload) (Outcome (RankSt T))}
    (hrun : Rounds.Run (prog pl c h) eager n (Rounds.start fun r => S r.1) X) :
    n ≤ 4 * (4 * su.d) * Fintype.card (Rank np) ∧
    ((∃ r, (X.loc r).k ≠ 4 * su.d) → ∃ Y, Rounds.Step (prog pl c h) false X Y) ∧
    ((∀ r, (X.loc r).k = 4 * su.d) → (∀ r, (X.loc r).st = ghostswap pl c su S r.1) ∧ X.net = []) := by
  have hm := prog_matched pl c h
  refine ⟨Rounds.run_bounded hm hrun, ?_, ?_⟩
  · rintro ⟨r, hr⟩
    exact Rounds.deadlock_free hm hrun (fun hd => hr (hd r))
  · intro hd
    have := Rounds.result_unique hm hrun hd
    refine ⟨fun r => ?_, this.2⟩
    rw [this.1 r]
    have h2 := sync_eq pl c h S (k := 4 * su.d) le_rfl r
    rw [← length_rounds, List.take_length] at h2
    have h3 : (prog pl c h).len = (rounds su.d).length := (length_rounds _).symm
    rw [h3, h2]; rfl

/-- C11: no receive ever takes a message of another round, although the tags repeat on every axis. -/
theorem ghostswap_no_confusion (h : su.Ok np) (S : Int → Outcome (RankSt T)) {eager : Bool} {n : Nat}
    {X : Rounds.State (Rank np) (Outcome Payload) (Outcome (RankSt T))}
    (hrun : Rounds.Run (prog pl c h) eager n (Rounds.start fun r => S r.1) X) {r : Rank np}
    {m : Rounds.Msg (Rank np) (Outcome Payload)} (hmem : m ∈ X.net) (hp : (X.loc r).posted = true)
    (hr : (X.loc r).recvd = false) (hd : m.dst = r) :
    (X.loc m.src).k = (X.loc r).k ∧ m.tag = tagOf (roundAt su.d (X.loc r).k) := by
  have := Rounds.no_confusion (prog_matched pl c h) hrun hmem hp hr hd
  exact ⟨this.1, this.2.2⟩

/-- C11 with C09: under every schedule, no rank aborts on a truncated message or runs into undefined behaviour, and every
cell ends with its owner's value. -/
theorem ghostswap_scheduled_correct (hc : RoundTrips c) (h : su.Ok np) {S : Int → Outcome (RankSt T)}
    {D0 : Int → Int → T} (hS : Running np S D0) (hv : AllValid c su np D0) {eager : Bool} {n : Nat}
    {X : Rounds.State (Rank np) (Outcome Payload) (Outcome (RankSt T))}
    (hrun : Rounds.Run (prog fullPlan c h) eager n (Rounds.start fun r => S r.1) X) (hdone : ∀ r, (X.loc r).k = 4 * su.d) :
    ∀ r, ∃ st : RankSt T, (X.loc r).st = .ok st ∧
      ∀ x, (su.shape r.1).IsCell x → ∀ s, IsRank np s → ∀ y, (su.shape s).IsNode y → Wraps su x y →
        cellAt (su.shape r.1) st.data x = cellAt (su.shape s) (D0 s) y := by
  obtain ⟨D, hR, hD⟩ := ghostswap_correct hc h hS hv
  have h2 := ((ghostswap_schedules h S hrun).2.2 hdone).1
  intro r
  obtain ⟨k, hk⟩ := hR r.1 r.2
  exact ⟨_, by rw [h2 r, hk], fun x hx s hs y hy hw => hD r.1 r.2 x hx s hs y hy hw⟩

/-- Not vacuous: from every start there is a run that finishes, with rendezvous sends only. -/
theorem complete_run_exists (h : su.Ok np) (S : Int → Outcome (RankSt T)) :
    ∃ n X, Rounds.Run (prog pl c h) false n (Rounds.start fun r => S r.1) X ∧ ∀ r, (X.loc r).k = 4 * su.d := by
  by_contra hcon
  push Not at hcon
  have : ∀ n, ∃ X, Rounds.Run (prog pl c h) false n (Rounds.start fun r => S r.1) X := by
    intro n
    induction n with
    | zero => exact ⟨_, .nil _⟩
    | succ n ih =>
      obtain ⟨X, hX⟩ := ih
      obtain ⟨Y, hY⟩ := (ghostswap_schedules h S hX).2.1 (hcon n X hX)
      exact ⟨Y, hX.snoc hY⟩
  obtain ⟨X, hX⟩ := this (4 * (4 * su.d) * Fintype.card (Rank np) + 1)
  have := (ghostswap_schedules h S hX).1
  omega

end

example : ∃ n X, Rounds.Run (prog fullPlan (primCell byteCodec) sampleSetup_ok) false n
    (Rounds.start fun _ => .ok ⟨fun _ => (0 : Byte), 0⟩) X ∧ ∀ r, (X.loc r).k = 4 * sampleSetup.d :=
  complete_run_exists sampleSetup_ok fun _ => .ok ⟨fun _ => (0 : Byte), 0⟩

end MMSP.Ghost
