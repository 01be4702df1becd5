import Verif.AsyncRunProps
import Mathlib.Data.Nat.Count
/-!
# Programs whose ranks call `ghostswap` different numbers of times

Helper for C101: such a program does not return on all ranks, whatever the barriers do.
-/

namespace MMSP.Async

open ParallelRun Ghost

variable {V : Type} {np : Nat}

section
variable {w : World} (c : Nat → Cell V) (h : w.Ok np)

/-- The steps of the program if barriers held nobody back: `Step` without what is asked of the other ranks. -/
inductive FreeStep (eager : Bool) : State V np → State V np → Prop
  | compute (S : State V np) (r : Rank np) (s : Stmt V) (rest : List (Stmt V)) (ht : (S.loc r).todo = s :: rest) (hs : IsLocal s) :
      FreeStep eager S { S with loc := Function.update S.loc r { S.loc r with todo := rest, mem := (S.loc r).mem.bind (localStmt (w.shape r.1) s) } }
  | post (S : State V np) (r : Rank np) (a : Nat) (rest : List (Stmt V)) (ht : (S.loc r).todo = .ghostswap a :: rest) (hp : (S.loc r).posted = false) :
      FreeStep eager S
        { loc := Function.update S.loc r { S.loc r with posted := true }
          net := S.net ++ [⟨r, sendTo h (S.loc r).j r, tagOf (roundAt w.d (S.loc r).j), (S.loc r).mem.bind (message c (w.toSetup.shape r.1) a (roundAt w.d (S.loc r).j))⟩] }
  | deliver (S : State V np) (r : Rank np) (a : Nat) (rest : List (Stmt V)) (m : Rounds.Msg (Rank np) (Outcome Payload)) (l₁ l₂ : List (Rounds.Msg (Rank np) (Outcome Payload)))
      (ht : (S.loc r).todo = .ghostswap a :: rest) (hn : S.net = l₁ ++ m :: l₂) (hp : (S.loc r).posted = true) (hr : (S.loc r).recvd = false) (hd : m.dst = r)
      (hs : m.src = recvFrom h (S.loc r).j r) (htag : m.tag = tagOf (roundAt w.d (S.loc r).j)) :
      FreeStep eager S
        { loc := Function.update S.loc r
            { S.loc r with
              recvd := true
              mem := (S.loc r).mem.bind fun x => m.body.bind fun b => receive c (w.toSetup.shape r.1) a (roundAt w.d (S.loc r).j) ((S.loc r).j + 1 = 4 * w.d) x b }
          net := l₁ ++ l₂ }
  | sent (S : State V np) (r : Rank np) (hp : (S.loc r).posted = true) (hs : (S.loc r).sent = false) (hn : eager = true ∨ ∀ m ∈ S.net, m.src ≠ r) :
      FreeStep eager S { S with loc := Function.update S.loc r { S.loc r with sent := true } }
  | pass (S : State V np) (r : Rank np) (a : Nat) (rest : List (Stmt V)) (ht : (S.loc r).todo = .ghostswap a :: rest)
      (hr : (S.loc r).posted = true ∧ (S.loc r).recvd = true ∧ (S.loc r).sent = true) :
      FreeStep eager S
        { S with
          loc := Function.update S.loc r
            (if (S.loc r).j + 1 = 4 * w.d then ⟨rest, (S.loc r).k + 1, 0, false, false, false, (S.loc r).mem⟩
             else ⟨(S.loc r).todo, (S.loc r).k + 1, (S.loc r).j + 1, false, false, false, (S.loc r).mem⟩) }

theorem Step.free {e : Bool} {S S' : State V np} (hs : Step c h e S S') : FreeStep c h e S S' := by
  cases hs with
  | compute r s rest ht hs hb => exact .compute S r s rest ht hs
  | post r a rest ht hp hb => exact .post S r a rest ht hp
  | deliver r a rest m l₁ l₂ ht hn hp hr hd hs htag => exact .deliver S r a rest m l₁ l₂ ht hn hp hr hd hs htag
  | sent r hp hs hn => exact .sent S r hp hs hn
  | pass r a rest ht hr hb => exact .pass S r a rest ht hr

/-- Runs of `n` steps without barriers. -/
inductive FreeRun (eager : Bool) : Nat → State V np → State V np → Prop
  | nil (S : State V np) : FreeRun eager 0 S S
  | snoc {n : Nat} {S S' S'' : State V np} : FreeRun eager n S S' → FreeStep c h eager S' S'' → FreeRun eager (n + 1) S S''

theorem Run.free {e : Bool} {n : Nat} {S S' : State V np} (hr : Run c h e n S S') : FreeRun c h e n S S' := by
  induction hr with
  | nil S => exact .nil S
  | snoc _ hs ih => exact .snoc ih (Step.free c h hs)

variable {c h}

/-! ## Where the ranks are -/

def Proc.work (q : Proc V) : Nat := 4 * q.k + q.posted.toNat + q.recvd.toNat + q.sent.toNat

theorem update_all {P : Rank np → Proc V → Prop} {loc : Rank np → Proc V} (hP : ∀ r, P r (loc r)) (r : Rank np) {q : Proc V} (hq : P r q) (t : Rank np) : P t (Function.update loc r q t) := by
  by_cases e : t = r
  · subst e; rw [Function.update_self]; exact hq
  · rw [Function.update_of_ne e]; exact hP t

theorem free_fits {p : Rank np → List (Stmt V)} {e : Bool} {S S' : State V np} (hf : ∀ r, Fits w (p r) (S.loc r)) (hs : FreeStep c h e S S') : ∀ r, Fits w (p r) (S'.loc r) := by
  cases hs with
  | compute r s rest ht hs =>
    have hno : ¬ ∃ a rest, (S.loc r).todo = .ghostswap a :: rest := by
      rintro ⟨a, rest', e'⟩
      rw [ht] at e'
      have : s = .ghostswap a := (List.cons.inj e').1
      subst this
      exact hs.elim
    refine update_all (P := fun r => Fits w (p r)) hf r ⟨?_, (hf r).small, fun hh => absurd ((hf r).busy hh) hno, (hf r).idle⟩
    obtain ⟨i, h1, h2, h3⟩ := (hf r).place
    rw [ht, segs_local hs] at h3
    exact ⟨i, h1, h2, h3⟩
  | post r a rest ht hp => exact update_all (P := fun r => Fits w (p r)) hf r ⟨(hf r).place, (hf r).small, fun _ => ⟨a, rest, ht⟩, fun hh => by cases hh⟩
  | deliver r a rest m l₁ l₂ ht hn hp hr hd hs htag =>
    exact update_all (P := fun r => Fits w (p r)) hf r ⟨(hf r).place, (hf r).small, fun _ => ⟨a, rest, ht⟩, fun hh => absurd (hp.symm.trans hh) (by simp)⟩
  | sent r hp hs hn => exact update_all (P := fun r => Fits w (p r)) hf r ⟨(hf r).place, (hf r).small, (hf r).busy, fun hh => absurd (hp.symm.trans hh) (by simp)⟩
  | pass r a rest ht hr =>
    obtain ⟨hk, hmod, hseg, i, hi, hki, hrest⟩ := (hf r).at_ghostswap ht
    refine update_all (P := fun r => Fits w (p r)) hf r ?_
    split_ifs with hj
    · exact ⟨⟨i + 1, hi, by show (S.loc r).k + 1 = 4 * w.d * (i + 1) + 0; rw [hki, add_assoc, hj]; ring, hrest⟩, by have := h.setup.dim; show 0 < _; omega, fun hh => by simp at hh, fun _ => ⟨rfl, rfl⟩⟩
    · obtain ⟨i, h1, h2, h3⟩ := (hf r).place
      exact ⟨⟨i, h1, by show (S.loc r).k + 1 = _ + ((S.loc r).j + 1); rw [h2]; ring, h3⟩, by have := (hf r).small; show (S.loc r).j + 1 < _; omega, fun _ => ⟨a, rest, ht⟩, fun _ => ⟨rfl, rfl⟩⟩

/-! ## Messages sent and received -/

open Classical in
/-- Messages of rank `b` to rank `a` with tag `t` in its first `m` rounds. -/
noncomputable def sentTo (h : w.Ok np) (b a : Rank np) (t m : Nat) : Nat := Nat.count (fun i => sendTo h (i % (4 * w.d)) b = a ∧ tagOf (roundAt w.d (i % (4 * w.d))) = t) m

open Classical in
/-- Messages that rank `a` takes from rank `b` with tag `t` in its first `m` rounds. -/
noncomputable def takenBy (h : w.Ok np) (a b : Rank np) (t m : Nat) : Nat := Nat.count (fun i => recvFrom h (i % (4 * w.d)) a = b ∧ tagOf (roundAt w.d (i % (4 * w.d))) = t) m

open Classical in
/-- Messages under way. -/
noncomputable def underWay (net : List (Rounds.Msg (Rank np) (Outcome Payload))) (b a : Rank np) (t : Nat) : Nat := net.countP fun m => m.src = b ∧ m.dst = a ∧ m.tag = t

/-- Messages are sent before they are taken. -/
def Balanced (h : w.Ok np) (S : State V np) : Prop :=
  ∀ a b t, underWay S.net b a t + takenBy h a b t ((S.loc a).k + (S.loc a).recvd.toNat) = sentTo h b a t ((S.loc b).k + (S.loc b).posted.toNat)

theorem free_balanced {p : Rank np → List (Stmt V)} {e : Bool} {S S' : State V np} (hf : ∀ r, Fits w (p r) (S.loc r)) (hB : Balanced h S) (hs : FreeStep c h e S S') : Balanced h S' := by
  classical
  have same : ∀ (r : Rank np) (q : Proc V), q.k + q.recvd.toNat = (S.loc r).k + (S.loc r).recvd.toNat → q.k + q.posted.toNat = (S.loc r).k + (S.loc r).posted.toNat →
      Balanced h ⟨Function.update S.loc r q, S.net⟩ := fun r q h1 h2 a b t => by
    have := hB a b t
    have e1 : (Function.update S.loc r q a).k + (Function.update S.loc r q a).recvd.toNat = (S.loc a).k + (S.loc a).recvd.toNat := by
      by_cases ea : a = r
      · subst ea; rw [Function.update_self]; exact h1
      · rw [Function.update_of_ne ea]
    have e2 : (Function.update S.loc r q b).k + (Function.update S.loc r q b).posted.toNat = (S.loc b).k + (S.loc b).posted.toNat := by
      by_cases eb : b = r
      · subst eb; rw [Function.update_self]; exact h2
      · rw [Function.update_of_ne eb]
    show underWay S.net b a t + takenBy h a b t _ = sentTo h b a t _
    rw [e1, e2]; exact this
  cases hs with
  | compute r s rest ht hs => exact same r _ rfl rfl
  | post r a rest ht hp =>
    obtain ⟨-, hmod, -⟩ := (hf r).at_ghostswap ht
    intro a' b t
    have hB' := hB a' b t
    have e1 : (Function.update S.loc r { S.loc r with posted := true } a').k + (Function.update S.loc r { S.loc r with posted := true } a').recvd.toNat = (S.loc a').k + (S.loc a').recvd.toNat := by
      by_cases ea : a' = r
      · subst ea; rw [Function.update_self]
      · rw [Function.update_of_ne ea]
    show underWay (S.net ++ _) b a' t + takenBy h a' b t _ = sentTo h b a' t _
    rw [e1, underWay, List.countP_append, List.countP_cons, List.countP_nil]
    dsimp only
    by_cases eb : b = r
    · subst eb
      rw [Function.update_self]
      have e2 : (S.loc b).k + (S.loc b).posted.toNat = (S.loc b).k := by rw [hp]; rfl
      rw [e2] at hB'
      show _ = sentTo h b a' t ((S.loc b).k + 1)
      unfold underWay at hB'
      unfold sentTo at hB' ⊢
      rw [Nat.count_succ, hmod]
      simp only [true_and, decide_eq_true_eq]
      omega
    · rw [Function.update_of_ne eb]
      have : ¬ (r = b ∧ sendTo h (S.loc r).j r = a' ∧ tagOf (roundAt w.d (S.loc r).j) = t) := fun hh => eb hh.1.symm
      simp only [this, decide_false, Bool.false_eq_true, if_false]
      exact hB'
  | deliver r a rest m l₁ l₂ ht hn hp hr hd hs htag =>
    obtain ⟨-, hmod, -⟩ := (hf r).at_ghostswap ht
    intro a' b t
    have hB' := hB a' b t
    have e2 : ∀ q : Proc V, q.k = (S.loc r).k → q.posted = (S.loc r).posted → (Function.update S.loc r q b).k + (Function.update S.loc r q b).posted.toNat = (S.loc b).k + (S.loc b).posted.toNat := fun q h1 h2 => by
      by_cases eb : b = r
      · subst eb; rw [Function.update_self, h1, h2]
      · rw [Function.update_of_ne eb]
    show underWay (l₁ ++ l₂) b a' t + takenBy h a' b t _ = sentTo h b a' t _
    rw [e2 _ (by rfl) (by rfl), ← hB', underWay, underWay, hn, List.countP_append, List.countP_append, List.countP_cons]
    dsimp only
    by_cases ea : a' = r
    · subst ea
      rw [Function.update_self, hr]
      show _ + takenBy h a' b t ((S.loc a').k + 1) = _ + takenBy h a' b t ((S.loc a').k + 0)
      unfold takenBy
      rw [Nat.count_succ, hmod, Nat.add_zero]
      have : (m.src = b ∧ m.dst = a' ∧ m.tag = t) ↔ (recvFrom h (S.loc a').j a' = b ∧ tagOf (roundAt w.d (S.loc a').j) = t) := by rw [hs, hd, htag]; simp
      simp only [this, decide_eq_true_eq]
      omega
    · rw [Function.update_of_ne ea]
      have : ¬ (m.src = b ∧ m.dst = a' ∧ m.tag = t) := fun hh => ea (hh.2.1.symm.trans hd)
      simp only [this, decide_false, Bool.false_eq_true, if_false]
      omega
  | sent r hp hs hn => exact same r _ rfl rfl
  | pass r a rest ht hr =>
    refine same r _ ?_ ?_
    · rw [hr.2.1]; split_ifs <;> rfl
    · rw [hr.1]; split_ifs <;> rfl

theorem free_inv {p : Rank np → List (Stmt V)} {D : Int → Grids V} {e : Bool} {n : Nat} {X : State V np} (hrun : FreeRun c h e n (startEach p D) X) :
    (∀ r, Fits w (p r) (X.loc r)) ∧ Balanced h X := by
  generalize hS : startEach p D = S at hrun
  induction hrun with
  | nil S =>
    subst hS
    refine ⟨fun r => fits_start h (p r) _, fun a b t => ?_⟩
    simp [startEach, underWay, takenBy, sentTo]
  | snoc hr hst ih =>
    obtain ⟨hf, hB⟩ := ih hS
    exact ⟨free_fits hf hst, free_balanced hf hB hst⟩

/-! ## Runs that finish -/

theorem count_periodic (p : Nat → Prop) [DecidablePred p] {T : Nat} (hp : ∀ i, p (T + i) ↔ p i) : ∀ N, Nat.count p (T * N) = N * Nat.count p T
  | 0 => by simp
  | N + 1 => by
    have e : T * (N + 1) = T + T * N := by ring
    have : Nat.count (fun k => p (T + k)) (T * N) = Nat.count p (T * N) := by simp only [hp]
    rw [e, Nat.count_add, this, count_periodic p hp N]; ring

theorem taken_eq_sent (a b : Rank np) (t m : Nat) : takenBy h a b t m = sentTo h b a t m := by
  unfold takenBy sentTo
  congr 1
  funext i
  have := partners h (i % (4 * w.d))
  refine propext (and_congr_left fun _ => ⟨fun e => ?_, fun e => ?_⟩)
  · rw [← e]; exact (this a).2
  · rw [← e]; exact (this b).1

theorem calls_le {p : Rank np → List (Stmt V)} {D : Int → Grids V} {e : Bool} {n : Nat} {X : State V np} (hrun : FreeRun c h e n (startEach p D) X) (hX : Done X) {j : Nat} (hj : j < 4 * w.d)
    (a : Rank np) : (segs (p a)).length ≤ (segs (p (recvFrom h j a))).length := by
  classical
  obtain ⟨hf, hB⟩ := free_inv hrun
  have hend : ∀ r, (X.loc r).k = 4 * w.d * (segs (p r)).length ∧ (X.loc r).posted = false := fun r => by
    have hno : ¬ ∃ a rest, (X.loc r).todo = .ghostswap a :: rest := by
      rintro ⟨a, rest, ht⟩; rw [hX r] at ht; cases ht
    have hjr : (X.loc r).j = 0 := by by_contra hj; exact hno ((hf r).busy (Or.inr hj))
    exact ⟨(hf r).at_end (by rw [hX r]; rfl) hjr, by by_contra hp; exact hno ((hf r).busy (Or.inl (by simpa using hp)))⟩
  have hb := hB a (recvFrom h j a) (tagOf (roundAt w.d j))
  rw [((hf a).idle (hend a).2).1, (hend (recvFrom h j a)).2, (hend a).1, (hend (recvFrom h j a)).1] at hb
  have hle : takenBy h a (recvFrom h j a) (tagOf (roundAt w.d j)) (4 * w.d * (segs (p a)).length) ≤ sentTo h (recvFrom h j a) a (tagOf (roundAt w.d j)) (4 * w.d * (segs (p (recvFrom h j a))).length) := by
    simp only [Bool.toNat_false, Nat.add_zero] at hb
    omega
  rw [taken_eq_sent] at hle
  unfold sentTo at hle
  have hper := fun N => count_periodic (fun i => sendTo h (i % (4 * w.d)) (recvFrom h j a) = a ∧ tagOf (roundAt w.d (i % (4 * w.d))) = tagOf (roundAt w.d j)) (T := 4 * w.d)
    (fun i => by rw [Nat.add_mod_left]) N
  rw [hper, hper] at hle
  refine Nat.le_of_mul_le_mul_right hle (lt_of_le_of_lt (Nat.zero_le _) (Nat.count_strict_mono ?_ hj))
  rw [Nat.mod_eq_of_lt hj]
  exact ⟨(partners h j a).2, rfl⟩

/-- Functions of the rank that are the same for neighbours are constant. -/
theorem const_of_neighbours (h : w.Ok np) {N : Rank np → Nat} (hup : ∀ j, j < 4 * w.d → ∀ a, N a = N (recvFrom h j a)) (a b : Rank np) : N a = N b := by
  have hg := h.setup.grid
  let P : Rank np → Nat → Int := fun a i => Decomp.pos w.d w.p a.1 i
  have hP : ∀ a i, i < w.d → 0 ≤ P a i := fun a i hi => (Decomp.pos_bounds hg a.2.1 a.2.2 hi).1
  have down : ∀ a i, i < w.d → 0 < P a i → ∃ a', N a = N a' ∧ ∑ j ∈ Finset.range w.d, P a' j < ∑ j ∈ Finset.range w.d, P a j := fun a i hi hpos => by
    have hmem : (⟨i, .up, false⟩ : Round) ∈ rounds w.d := by simp only [rounds, List.mem_flatMap, List.mem_range]; exact ⟨i, hi, by simp⟩
    obtain ⟨j, hj, ej⟩ := List.getElem_of_mem hmem
    have hj' : j < 4 * w.d := by rw [← length_rounds]; exact hj
    have er : roundAt w.d j = ⟨i, .up, false⟩ := by rw [roundAt_eq hj, ej]
    have eb : (recvFrom h j a).1 = Decomp.below w.d w.p a.1 i := by
      unfold recvFrom; rw [dif_pos hj']; show w.toSetup.recvProc (roundAt w.d j).axis (roundAt w.d j).dir a.1 = _; rw [er]; rfl
    have hs := (Decomp.below_spec hg a.2.1 a.2.2 hi).2.2
    have hne : Decomp.pos w.d w.p a.1 i ≠ 0 := ne_of_gt hpos
    refine ⟨_, hup j hj' a, Finset.sum_lt_sum (fun l hl => ?_) ⟨i, Finset.mem_range.2 hi, ?_⟩⟩
    · show Decomp.pos w.d w.p (recvFrom h j a).1 l ≤ Decomp.pos w.d w.p a.1 l
      rw [eb, hs l (Finset.mem_range.1 hl)]
      split_ifs with e
      · subst e; unfold Decomp.stepDown; rw [if_neg hne]; omega
      · exact le_refl _
    · show Decomp.pos w.d w.p (recvFrom h j a).1 i < Decomp.pos w.d w.p a.1 i
      rw [eb, hs i hi, if_pos rfl]; unfold Decomp.stepDown; rw [if_neg hne]; omega
  have key : ∀ (n : Nat) (a b : Rank np), (∑ j ∈ Finset.range w.d, P a j + ∑ j ∈ Finset.range w.d, P b j).toNat = n → N a = N b := fun n => by
    induction n using Nat.strong_induction_on with
    | _ n ih =>
      intro a b hn
      have h0 : ∀ a, 0 ≤ ∑ j ∈ Finset.range w.d, P a j := fun a => Finset.sum_nonneg fun i hi => hP a i (Finset.mem_range.1 hi)
      by_cases ha : ∃ i, i < w.d ∧ 0 < P a i
      · obtain ⟨i, hi, hpos⟩ := ha
        obtain ⟨a', e, hlt⟩ := down a i hi hpos
        have := h0 a'; have := h0 b
        rw [e]; exact ih _ (by omega) a' b rfl
      · by_cases hb : ∃ i, i < w.d ∧ 0 < P b i
        · obtain ⟨i, hi, hpos⟩ := hb
          obtain ⟨b', e, hlt⟩ := down b i hi hpos
          have := h0 a; have := h0 b'
          rw [e]; exact ih _ (by omega) a b' rfl
        · have : a = b := Subtype.ext (Decomp.eq_of_pos_eq hg a.2.1 a.2.2 b.2.1 b.2.2 fun i hi => by
            have h1 := hP a i hi; have h2 := hP b i hi
            have h3 : ¬ 0 < P a i := fun hh => ha ⟨i, hi, hh⟩
            have h4 : ¬ 0 < P b i := fun hh => hb ⟨i, hi, hh⟩
            show P a i = P b i
            omega)
          rw [this]
  exact key _ a b rfl

/-- The dual of every round is a round in the other direction. -/
theorem round_back {j : Nat} (hj : j < 4 * w.d) : ∃ i, i < 4 * w.d ∧ ∀ a : Rank np, recvFrom h i a = sendTo h j a := by
  have hax := roundAt_axis hj
  have hmem : (⟨(roundAt w.d j).axis, match (roundAt w.d j).dir with | .up => .down | .down => .up, false⟩ : Round) ∈ rounds w.d := by
    simp only [rounds, List.mem_flatMap, List.mem_range]
    exact ⟨_, hax, by cases (roundAt w.d j).dir <;> simp⟩
  obtain ⟨i, hi, ei⟩ := List.getElem_of_mem hmem
  have hi' : i < 4 * w.d := by rw [← length_rounds]; exact hi
  refine ⟨i, hi', fun a => Subtype.ext ?_⟩
  unfold recvFrom sendTo
  rw [dif_pos hi', dif_pos hj]
  show w.toSetup.recvProc (roundAt w.d i).axis (roundAt w.d i).dir a.1 = w.toSetup.sendProc (roundAt w.d j).axis (roundAt w.d j).dir a.1
  rw [roundAt_eq hi, ei]
  cases (roundAt w.d j).dir <;> rfl

/-- **C101.** If all ranks finish, even with barriers that hold nobody back, they have called `ghostswap` equally often. -/
theorem finished_calls {p : Rank np → List (Stmt V)} {D : Int → Grids V} {e : Bool} {n : Nat} {X : State V np} (hrun : FreeRun c h e n (startEach p D) X) (hX : Done X) (a b : Rank np) :
    (segs (p a)).length = (segs (p b)).length := by
  refine const_of_neighbours h (N := fun r => (segs (p r)).length) (fun j hj a => le_antisymm (calls_le hrun hX hj a) ?_) a b
  obtain ⟨i, hi, ei⟩ := round_back (h := h) hj
  have := calls_le hrun hX hi (recvFrom h j a)
  rw [ei, (partners h j a).2] at this
  exact this

/-! ## Stuck runs -/

theorem free_bounded {p : Rank np → List (Stmt V)} {D : Int → Grids V} {e : Bool} {n : Nat} {X : State V np} (hrun : FreeRun c h e n (startEach p D) X) :
    n + ∑ r, (X.loc r).todo.length ≤ ∑ r, ((X.loc r).work + (p r).length) := by
  generalize hS : startEach p D = S at hrun
  induction hrun with
  | nil S => subst hS; simp [startEach, Proc.work]
  | snoc hr hst ih =>
    rename_i n S X X'
    have ih := ih hS
    subst hS
    have hf := (free_inv hr).1
    have key : ∀ (r : Rank np) (q : Proc V), (X.loc r).work + q.todo.length + 1 ≤ q.work + (X.loc r).todo.length →
        n + 1 + ∑ t, (Function.update X.loc r q t).todo.length ≤ ∑ t, ((Function.update X.loc r q t).work + (p t).length) := fun r q hq => by
      have f1 := Finset.add_sum_erase Finset.univ (fun t => (X.loc t).todo.length) (Finset.mem_univ r)
      have f2 := Finset.add_sum_erase Finset.univ (fun t => (X.loc t).work + (p t).length) (Finset.mem_univ r)
      have f3 := Finset.add_sum_erase Finset.univ (fun t => (Function.update X.loc r q t).todo.length) (Finset.mem_univ r)
      have f4 := Finset.add_sum_erase Finset.univ (fun t => (Function.update X.loc r q t).work + (p t).length) (Finset.mem_univ r)
      have e3 : ∑ t ∈ Finset.univ.erase r, (Function.update X.loc r q t).todo.length = ∑ t ∈ Finset.univ.erase r, (X.loc t).todo.length :=
        Finset.sum_congr rfl fun t ht => by rw [Function.update_of_ne (Finset.ne_of_mem_erase ht)]
      have e4 : ∑ t ∈ Finset.univ.erase r, ((Function.update X.loc r q t).work + (p t).length) = ∑ t ∈ Finset.univ.erase r, ((X.loc t).work + (p t).length) :=
        Finset.sum_congr rfl fun t ht => by rw [Function.update_of_ne (Finset.ne_of_mem_erase ht)]
      simp only [Function.update_self] at f3 f4
      omega
    cases hst with
    | compute r s rest ht hs => exact key r _ (by simp only [Proc.work, ht, List.length_cons]; omega)
    | post r a rest ht hp => exact key r _ (by simp only [Proc.work, hp, Bool.toNat_false, Bool.toNat_true]; omega)
    | deliver r a rest m l₁ l₂ ht hn hp hr hd hs htag => exact key r _ (by simp only [Proc.work, hr, Bool.toNat_false, Bool.toNat_true]; omega)
    | sent r hp hs hn => exact key r _ (by simp only [Proc.work, hs, Bool.toNat_false, Bool.toNat_true]; omega)
    | pass r a rest ht hr =>
      refine key r _ ?_
      split_ifs
      · simp only [Proc.work, hr, ht, List.length_cons, Bool.toNat_false, Bool.toNat_true]; omega
      · simp only [Proc.work, hr, Bool.toNat_false, Bool.toNat_true]; omega

/-- Every run has a bounded number of steps, whatever the programs of the ranks. -/
theorem all_end {p : Rank np → List (Stmt V)} {D : Int → Grids V} {e : Bool} {n : Nat} {X : State V np} (hrun : FreeRun c h e n (startEach p D) X) :
    n ≤ ∑ r, (16 * w.d * (segs (p r)).length + 3 + (p r).length) := by
  have h1 := free_bounded hrun
  refine le_trans (le_trans (Nat.le_add_right _ _) h1) (Finset.sum_le_sum fun r _ => Nat.add_le_add_right ?_ _)
  have hf := (free_inv hrun).1 r
  have hflag : ∀ b : Bool, b.toNat ≤ 1 := fun b => by cases b <;> simp
  have g1 := hflag (X.loc r).posted; have g2 := hflag (X.loc r).recvd; have g3 := hflag (X.loc r).sent
  obtain ⟨i, hi, hk, hs⟩ := hf.place
  have hle : (X.loc r).k ≤ 4 * w.d * (segs (p r)).length := by
    cases ht : (X.loc r).todo with
    | nil =>
      have : (X.loc r).j = 0 := by
        by_contra hj
        obtain ⟨a, rest, ht'⟩ := hf.busy (Or.inr hj)
        rw [ht] at ht'; cases ht'
      rw [hk, this]; exact Nat.mul_le_mul_left _ hi
    | cons s rest =>
      by_cases hl : IsLocal s
      · have : (X.loc r).j = 0 := by
          by_contra hj
          obtain ⟨a, rest', ht'⟩ := hf.busy (Or.inr hj)
          rw [ht] at ht'
          rw [(List.cons.inj ht').1] at hl
          exact hl
        rw [hk, this]; exact Nat.mul_le_mul_left _ hi
      · cases s with
        | ghostswap a => exact le_of_lt (hf.at_ghostswap ht).1
        | loop dst kern => exact absurd trivial hl
        | swap a b => exact absurd trivial hl
  unfold Proc.work
  calc 4 * (X.loc r).k + (X.loc r).posted.toNat + (X.loc r).recvd.toNat + (X.loc r).sent.toNat ≤ 4 * (4 * w.d * (segs (p r)).length) + 3 := by omega
    _ = _ := by ring

/-- Every run can be continued to a state in which no rank can take a step. -/
theorem runs_stop {p : Rank np → List (Stmt V)} {D : Int → Grids V} {e : Bool} {n : Nat} {X : State V np} (hrun : Run c h e n (startEach p D) X) :
    ∃ m Y, Run c h e m (startEach p D) Y ∧ n ≤ m ∧ ∀ Z, ¬ Step c h e Y Z := by
  by_contra hcon
  push Not at hcon
  have : ∀ k, ∃ Y, Run c h e (n + k) (startEach p D) Y := fun k => by
    induction k with
    | zero => exact ⟨X, hrun⟩
    | succ k ih =>
      obtain ⟨Y, hY⟩ := ih
      obtain ⟨Z, hZ⟩ := hcon _ Y hY (Nat.le_add_right _ _)
      exact ⟨Z, hY.snoc hZ⟩
  obtain ⟨Y, hY⟩ := this (∑ r, (16 * w.d * (segs (p r)).length + 3 + (p r).length) + 1)
  have := all_end (Run.free c h hY)
  omega

end

end MMSP.Async
