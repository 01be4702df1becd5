import Mathlib.Logic.Function.Basic
import Mathlib.Tactic.SplitIfs
/-!
# Processes with blocking sends and receives

A message-passing machine for programs written with `MPI_Send`, `MPI_Recv` and `MPI_Barrier`.

* A process is the tree of its remaining actions; local computation happens inside the tree.
* `MPI_Send` may either hand its message to the network and go on (buffered), or wait for the matching receive
  (rendezvous). Which of the two happens may differ from message to message and is not under anybody's control.
* Messages with the same source, destination and tag are received in the order they were sent; nothing is assumed about
  the order of other messages.
* A barrier lets all processes go on when all have reached it.

Assumed of MPI: messages are neither lost nor altered.
-/

namespace MMSP.Comm

/-- What a process still has to do. `fail` is a local error (undefined behaviour or abort). -/
inductive Proc (ρ μ α : Type) where
  | done (a : α)
  | fail
  | send (dst : ρ) (tag : Nat) (m : μ) (k : Proc ρ μ α)
  | recv (src : ρ) (tag : Nat) (k : μ → Proc ρ μ α)
  | barrier (k : Proc ρ μ α)

variable {ρ μ α : Type}

/-- All processes, and the messages in flight by source, destination and tag. -/
structure State (ρ μ α : Type) where
  proc : ρ → Proc ρ μ α
  chan : ρ → ρ → Nat → List μ

/-- Nothing in flight. -/
def start (p : ρ → Proc ρ μ α) : State ρ μ α := ⟨p, fun _ _ _ => []⟩

/-- Everybody finished with the given results, nothing in flight. -/
def final (a : ρ → α) : State ρ μ α := ⟨fun r => .done (a r), fun _ _ _ => []⟩

variable [DecidableEq ρ]

/-- Replacing one process. -/
def State.setProc (S : State ρ μ α) (r : ρ) (p : Proc ρ μ α) : State ρ μ α := { S with proc := Function.update S.proc r p }

/-- Replacing one channel. -/
def State.setChan (S : State ρ μ α) (s d : ρ) (t : Nat) (l : List μ) : State ρ μ α :=
  { S with chan := fun s' d' t' => if s' = s ∧ d' = d ∧ t' = t then l else S.chan s' d' t' }

/-- Steps that do not rely on buffering; the number is the number of action halves performed. -/
inductive Strict : Nat → State ρ μ α → State ρ μ α → Prop
  | recv (S : State ρ μ α) (s d : ρ) (t : Nat) (k : μ → Proc ρ μ α) (m : μ) (ms : List μ)
      (hd : S.proc d = .recv s t k) (hc : S.chan s d t = m :: ms) :
      Strict 1 S ((S.setProc d (k m)).setChan s d t ms)
  | rdv (S : State ρ μ α) (s d : ρ) (t : Nat) (k : μ → Proc ρ μ α) (m : μ) (k' : Proc ρ μ α)
      (hd : S.proc d = .recv s t k) (hs : S.proc s = .send d t m k') (hc : S.chan s d t = []) :
      Strict 2 S ((S.setProc d (k m)).setProc s k')
  | barrier (S : State ρ μ α) (k : ρ → Proc ρ μ α) (h : ∀ r, S.proc r = .barrier (k r)) :
      Strict 1 S { S with proc := k }

/-- A buffered send. -/
inductive Buf : State ρ μ α → State ρ μ α → Prop
  | send (S : State ρ μ α) (s d : ρ) (t : Nat) (m : μ) (k : Proc ρ μ α) (hs : S.proc s = .send d t m k) :
      Buf S ((S.setProc s k).setChan s d t (S.chan s d t ++ [m]))

/-- Any step the machine can make. -/
def Step (S S' : State ρ μ α) : Prop := (∃ w, Strict w S S') ∨ Buf S S'

/-- Runs of `n` steps. -/
inductive Run : Nat → State ρ μ α → State ρ μ α → Prop
  | nil (S : State ρ μ α) : Run 0 S S
  | snoc {n : Nat} {S S' S'' : State ρ μ α} : Run n S S' → Step S' S'' → Run (n + 1) S S''

/-- Runs without buffering, with the number of action halves. -/
inductive SRun : Nat → State ρ μ α → State ρ μ α → Prop
  | nil (S : State ρ μ α) : SRun 0 S S
  | cons {w n : Nat} {S S' S'' : State ρ μ α} : Strict w S S' → SRun n S' S'' → SRun (w + n) S S''

theorem SRun.trans {n n' : Nat} {S S' S'' : State ρ μ α} (h : SRun n S S') (h' : SRun n' S' S'') : SRun (n + n') S S'' := by
  induction h with
  | nil S => simpa using h'
  | cons s _ ih => rw [Nat.add_assoc]; exact SRun.cons s (ih h')

theorem SRun.single {w : Nat} {S S' : State ρ μ α} (h : Strict w S S') : SRun w S S' := by
  simpa using SRun.cons h (SRun.nil S')

omit [DecidableEq ρ] in
@[ext] theorem State.ext' {S S' : State ρ μ α} (h1 : ∀ r, S.proc r = S'.proc r)
    (h2 : ∀ s d t, S.chan s d t = S'.chan s d t) : S = S' := by
  cases S; cases S'
  congr
  · funext r; exact h1 r
  · funext s d t; exact h2 s d t

@[simp] theorem setProc_chan (S : State ρ μ α) (r : ρ) (p) : (S.setProc r p).chan = S.chan := rfl
@[simp] theorem setChan_proc (S : State ρ μ α) (s d : ρ) (t l) : (S.setChan s d t l).proc = S.proc := rfl
theorem setProc_proc (S : State ρ μ α) (r : ρ) (p) (q : ρ) : (S.setProc r p).proc q = if q = r then p else S.proc q := by
  simp [State.setProc, Function.update_apply]
theorem setChan_chan (S : State ρ μ α) (s d : ρ) (t l) (s' d' : ρ) (t') :
    (S.setChan s d t l).chan s' d' t' = if s' = s ∧ d' = d ∧ t' = t then l else S.chan s' d' t' := rfl

/-- Two different strict steps commute. -/
theorem diamond {S A B : State ρ μ α} {v w : Nat} (ha : Strict v S A) (hb : Strict w S B) :
    (v = w ∧ A = B) ∨ ∃ C, Strict w A C ∧ Strict v B C := by
  cases ha with
  | barrier _ k h =>
    cases hb with
    | barrier _ k' h' =>
      left
      refine ⟨rfl, ?_⟩
      have : k = k' := by
        funext r; have := (h r).symm.trans (h' r); injection this
      rw [this]
    | recv _ s d t k' m ms hd hc => rw [h d] at hd; cases hd
    | rdv _ s d t k' m k'' hd hs hc => rw [h d] at hd; cases hd
  | recv _ s d t k m ms hd hc =>
    cases hb with
    | barrier _ k' h' => rw [h' d] at hd; cases hd
    | recv _ s' d' t' k' m' ms' hd' hc' =>
      by_cases e : d = d'
      · subst e
        rw [hd] at hd'
        injection hd' with e1 e2 e3
        subst e1; subst e2; subst e3
        rw [hc] at hc'
        injection hc' with e4 e5
        subst e4; subst e5
        exact Or.inl ⟨rfl, rfl⟩
      · right
        refine ⟨_, Strict.recv _ s' d' t' k' m' ms' ?_ ?_, ?_⟩
        · simp [setProc_proc, Ne.symm e, hd']
        · simp [setChan_chan, Ne.symm e, hc']
        · have := Strict.recv ((S.setProc d' (k' m')).setChan s' d' t' ms') s d t k m ms
            (by simp [setProc_proc, e, hd]) (by simp [setChan_chan, e, hc])
          refine Eq.subst (motive := fun C => Strict 1 _ C) ?_ this
          ext
          · simp only [setChan_proc, setProc_proc]; split_ifs <;> simp_all
          · simp only [setChan_chan, setProc_chan]; split_ifs <;> simp_all
    | rdv _ s' d' t' k' m' k'' hd' hs' hc' =>
      by_cases e : d = d'
      · subst e
        rw [hd] at hd'
        injection hd' with e1 e2 e3
        subst e1; subst e2
        rw [hc] at hc'; cases hc'
      · have e' : d ≠ s' := by rintro rfl; rw [hd] at hs'; cases hs'
        have e'' : d' ≠ s' := by rintro rfl; rw [hd'] at hs'; cases hs'
        right
        refine ⟨_, Strict.rdv _ s' d' t' k' m' k'' ?_ ?_ ?_, ?_⟩
        · simp [setProc_proc, Ne.symm e, hd']
        · simp [setProc_proc, Ne.symm e', hs']
        · simp [setChan_chan, Ne.symm e, hc']
        · have := Strict.recv ((S.setProc d' (k' m')).setProc s' k'') s d t k m ms
            (by simp [setProc_proc, e, e', hd]) (by simp [hc])
          refine Eq.subst (motive := fun C => Strict 1 _ C) ?_ this
          ext
          · simp only [setChan_proc, setProc_proc]; split_ifs <;> simp_all
          · simp only [setChan_chan, setProc_chan]
  | rdv _ s d t k m k₁ hd hs hc =>
    cases hb with
    | barrier _ k' h' => rw [h' d] at hd; cases hd
    | recv _ s' d' t' k' m' ms' hd' hc' =>
      by_cases e : d = d'
      · subst e
        rw [hd] at hd'
        injection hd' with e1 e2 e3
        subst e1; subst e2
        rw [hc] at hc'; cases hc'
      · have e' : d' ≠ s := by rintro rfl; rw [hd'] at hs; cases hs
        right
        refine ⟨_, Strict.recv _ s' d' t' k' m' ms' ?_ ?_, ?_⟩
        · simp [setProc_proc, Ne.symm e, e', hd']
        · simp [hc']
        · have := Strict.rdv ((S.setProc d' (k' m')).setChan s' d' t' ms') s d t k m k₁
            (by simp [setProc_proc, e, hd]) (by simp [setProc_proc, Ne.symm e', hs]) (by simp [setChan_chan, e, hc])
          refine Eq.subst (motive := fun C => Strict 2 _ C) ?_ this
          ext
          · simp only [setChan_proc, setProc_proc]; split_ifs <;> simp_all
          · simp only [setChan_chan, setProc_chan]
    | rdv _ s' d' t' k' m' k'' hd' hs' hc' =>
      by_cases e : d = d'
      · subst e
        rw [hd] at hd'
        injection hd' with e1 e2 e3
        subst e1; subst e2; subst e3
        rw [hs] at hs'
        injection hs' with _ _ e4 e5
        subst e4; subst e5
        exact Or.inl ⟨rfl, rfl⟩
      · have e1 : s ≠ s' := by
          rintro rfl; rw [hs] at hs'; injection hs' with e1; exact e e1
        have e2 : d ≠ s' := by rintro rfl; rw [hd] at hs'; cases hs'
        have e3 : d' ≠ s := by rintro rfl; rw [hd'] at hs; cases hs
        right
        refine ⟨_, Strict.rdv _ s' d' t' k' m' k'' ?_ ?_ ?_, ?_⟩
        · simp [setProc_proc, Ne.symm e, e3, hd']
        · simp [setProc_proc, Ne.symm e1, Ne.symm e2, hs']
        · simp [hc']
        · have := Strict.rdv ((S.setProc d' (k' m')).setProc s' k'') s d t k m k₁
            (by simp [setProc_proc, e, e2, hd]) (by simp [setProc_proc, e1, Ne.symm e3, hs]) (by simp [hc])
          refine Eq.subst (motive := fun C => Strict 2 _ C) ?_ this
          ext
          · simp only [setProc_proc]; split_ifs <;> simp_all
          · simp only [setProc_chan]

theorem Strict.pos {w : Nat} {S S' : State ρ μ α} (h : Strict w S S') : 1 ≤ w := by cases h <;> omega

omit [DecidableEq ρ] in
theorem no_send_final {a : ρ → α} {s d : ρ} {t : Nat} {m : μ} {k : Proc ρ μ α} :
    (final a : State ρ μ α).proc s ≠ .send d t m k := by
  intro h; cases h

/-- A strict run to completion survives a strict step. -/
theorem SRun.strict {n w : Nat} {S S' : State ρ μ α} {a : ρ → α} (h : SRun n S (final a)) (hs : Strict w S S')
    (hfin : ∀ v F, ¬ Strict v (final a : State ρ μ α) F) : ∃ n', n = w + n' ∧ SRun n' S' (final a) := by
  generalize hF : (final a : State ρ μ α) = F at h
  induction h generalizing S' w with
  | nil S => subst hF; exact absurd hs (hfin _ _)
  | cons h1 h2 ih =>
    rename_i v n S S1 F
    rcases diamond h1 hs with ⟨e1, e2⟩ | ⟨C, hc1, hc2⟩
    · subst e1; subst e2; exact ⟨_, rfl, hF ▸ h2⟩
    · obtain ⟨n', e, hr⟩ := ih hc1 hF
      exact ⟨v + n', by omega, SRun.cons hc2 hr⟩

/-- It survives a buffered send as well, which then counts as one half of the exchange. -/
theorem SRun.buf {n : Nat} {S S' : State ρ μ α} {a : ρ → α} (h : SRun n S (final a)) (hs : Buf S S') :
    ∃ n', n = 1 + n' ∧ SRun n' S' (final a) := by
  generalize hF : (final a : State ρ μ α) = F at h
  induction h generalizing S' with
  | nil S =>
    subst hF
    cases hs with
    | send s d t m k hs => exact absurd hs no_send_final
  | cons h1 h2 ih =>
    rename_i v n S S1 F
    cases hs with
    | send s d t m k hs =>
      cases h1 with
      | barrier _ k' h' => rw [h' s] at hs; cases hs
      | recv _ s' d' t' k' m' ms' hd' hc' =>
        have e : s ≠ d' := by rintro rfl; rw [hs] at hd'; cases hd'
        obtain ⟨n', en, hr⟩ := ih (Buf.send _ s d t m k (by simp [setProc_proc, e, hs])) hF
        refine ⟨1 + n', by omega, ?_⟩
        refine SRun.cons (Strict.recv _ s' d' t' k' m' (if s' = s ∧ d' = d ∧ t' = t then ms' ++ [m] else ms') ?_ ?_) ?_
        · simp [setProc_proc, Ne.symm e, hd']
        · simp only [setChan_chan, setProc_chan]
          split_ifs with h
          · obtain ⟨rfl, rfl, rfl⟩ := h; simp [hc']
          · exact hc'
        · refine Eq.subst (motive := fun C => SRun n' C _) ?_ hr
          ext
          · simp only [setChan_proc, setProc_proc]; split_ifs <;> simp_all
          · simp only [setChan_chan, setProc_chan]; grind
      | rdv _ s' d' t' k' m' k'' hd' hs' hc' =>
        have e : s ≠ d' := by rintro rfl; rw [hs] at hd'; cases hd'
        by_cases e' : s = s'
        · subst e'
          rw [hs] at hs'
          injection hs' with e1 e2 e3 e4
          subst e1; subst e2; subst e3; subst e4
          refine ⟨1 + n, by omega, ?_⟩
          refine SRun.cons (Strict.recv _ s d t k' m [] ?_ ?_) ?_
          · simp [setProc_proc, Ne.symm e, hd']
          · simp [setChan_chan, hc']
          · refine Eq.subst (motive := fun C => SRun n C _) ?_ h2
            ext
            · simp only [setChan_proc, setProc_proc]; split_ifs <;> simp_all
            · simp only [setChan_chan, setProc_chan]; split_ifs <;> simp_all
        · obtain ⟨n', en, hr⟩ := ih (Buf.send _ s d t m k (by simp [setProc_proc, e, e', hs])) hF
          have e3 : d' ≠ s' := by rintro rfl; rw [hd'] at hs'; cases hs'
          refine ⟨2 + n', by omega, ?_⟩
          refine SRun.cons (Strict.rdv _ s' d' t' k' m' k'' ?_ ?_ ?_) ?_
          · simp [setProc_proc, Ne.symm e, hd']
          · simp [setProc_proc, Ne.symm e', hs']
          · simp [setChan_chan, Ne.symm e', hc']
          · refine Eq.subst (motive := fun C => SRun n' C _) ?_ hr
            ext
            · simp only [setChan_proc, setProc_proc]; split_ifs <;> simp_all
            · simp only [setChan_chan, setProc_chan]

omit [DecidableEq ρ] in
theorem final_inj {a b : ρ → α} (h : (final a : State ρ μ α) = final b) : a = b := by
  funext r
  have := congrArg (fun S => S.proc r) h
  simpa [final] using this

theorem final_no_strict [Nonempty ρ] (a : ρ → α) (v : Nat) (F : State ρ μ α) : ¬ Strict v (final a) F := by
  intro h
  cases h with
  | recv _ s d t k m ms hd hc => cases hd
  | rdv _ s d t k m k' hd hs hc => cases hd
  | barrier _ k h => exact absurd (h (Classical.arbitrary ρ)) (by intro h; cases h)

/-- If one bufferless schedule completes with results `a`, then every run, with any mixture of buffered and waiting sends,
has at most that many action halves and can always go on to the same completion without relying on buffering. -/
theorem schedules [Nonempty ρ] {n w : Nat} {S₀ S : State ρ μ α} {a : ρ → α} (href : SRun w S₀ (final a)) (h : Run n S₀ S) :
    ∃ w', n + w' ≤ w ∧ SRun w' S (final a) := by
  induction h with
  | nil S => exact ⟨w, by omega, href⟩
  | snoc _ hstep ih =>
    obtain ⟨w', hle, hr⟩ := ih href
    rcases hstep with ⟨v, hv⟩ | hb
    · obtain ⟨n', e, hr'⟩ := hr.strict hv (final_no_strict a)
      have := hv.pos
      exact ⟨n', by omega, hr'⟩
    · obtain ⟨n', e, hr'⟩ := hr.buf hb
      exact ⟨n', by omega, hr'⟩

/-- No run gets stuck before completion, even if from then on no send is buffered. -/
theorem deadlock_free [Nonempty ρ] {n w : Nat} {S₀ S : State ρ μ α} {a : ρ → α} (href : SRun w S₀ (final a))
    (h : Run n S₀ S) (hne : S ≠ final a) : ∃ v S', Strict v S S' := by
  obtain ⟨w', -, hr⟩ := schedules href h
  cases hr with
  | nil _ => exact absurd rfl hne
  | cons h1 _ => exact ⟨_, _, h1⟩

/-- Every run that cannot go on has completed with results `a` and no message is left over. -/
theorem result_unique [Nonempty ρ] {n w : Nat} {S₀ S : State ρ μ α} {a : ρ → α} (href : SRun w S₀ (final a))
    (h : Run n S₀ S) (hstuck : ∀ v S', ¬ Strict v S S') : S = final a := by
  by_contra hne
  obtain ⟨v, S', hs⟩ := deadlock_free href h hne
  exact hstuck v S' hs

/-- A process that has finished has the result `a`, whatever the others still have to do. -/
theorem done_result [Nonempty ρ] {n w : Nat} {S₀ S : State ρ μ α} {a : ρ → α} (href : SRun w S₀ (final a))
    (h : Run n S₀ S) {r : ρ} {b : α} (hr : S.proc r = .done b) : b = a r := by
  obtain ⟨w', -, hs⟩ := schedules href h
  clear h href
  generalize hF : (final a : State ρ μ α) = F at hs
  induction hs with
  | nil S =>
    subst hF
    simp [final] at hr; exact hr.symm
  | cons h1 h2 ih =>
    apply ih _ hF
    cases h1 with
    | recv _ s d t k m ms hd hc =>
      have : r ≠ d := by rintro rfl; rw [hr] at hd; cases hd
      simp [setProc_proc, this, hr]
    | rdv _ s d t k m k' hd hs hc =>
      have h1 : r ≠ d := by rintro rfl; rw [hr] at hd; cases hd
      have h2 : r ≠ s := by rintro rfl; rw [hr] at hs; cases hs
      simp [setProc_proc, h1, h2, hr]
    | barrier _ k h => rw [h r] at hr; cases hr

/-- No process ever runs into a local error. -/
theorem no_fail [Nonempty ρ] {n w : Nat} {S₀ S : State ρ μ α} {a : ρ → α} (href : SRun w S₀ (final a))
    (h : Run n S₀ S) (r : ρ) : S.proc r ≠ .fail := by
  obtain ⟨w', -, hs⟩ := schedules href h
  clear h href
  intro hr
  generalize hF : (final a : State ρ μ α) = F at hs
  induction hs with
  | nil S => subst hF; simp [final] at hr
  | cons h1 h2 ih =>
    apply ih _ hF
    cases h1 with
    | recv _ s d t k m ms hd hc =>
      have : r ≠ d := by rintro rfl; rw [hr] at hd; cases hd
      simp [setProc_proc, this, hr]
    | rdv _ s d t k m k' hd hs hc =>
      have h1 : r ≠ d := by rintro rfl; rw [hr] at hd; cases hd
      have h2 : r ≠ s := by rintro rfl; rw [hr] at hs; cases hs
      simp [setProc_proc, h1, h2, hr]
    | barrier _ k h => rw [h r] at hr; cases hr

end MMSP.Comm
