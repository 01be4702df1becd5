import Verif.AsyncRun
import Verif.ParallelExamplesProps
import Verif.ParallelExamplesLink
/-!
# Property C90: whole programs under every schedule
-/

namespace MMSP.Async

open ParallelRun Ghost

variable {V : Type} {np : Nat}

/-! ## The program as rounds

Helper: a rank that executes all statements up to the next `ghostswap` at once is a process of the machine of `Rounds`. -/

/-- The statements up to the next `ghostswap`. -/
def eagerRun (g : Shape) : List (Stmt V) → Outcome (Mem V) → Outcome (Mem V)
  | [], m => m
  | .ghostswap _ :: _, m => m
  | .loop dst kern :: p, m => eagerRun g p (m.bind (localStmt g (.loop dst kern)))
  | .swap a b :: p, m => eagerRun g p (m.bind (localStmt g (.swap a b)))

theorem eagerRun_local (g : Shape) {s : Stmt V} (hs : IsLocal s) (p : List (Stmt V)) (m : Outcome (Mem V)) : eagerRun g (s :: p) m = eagerRun g p (m.bind (localStmt g s)) := by
  cases s with
  | loop dst kern => rfl
  | swap a b => rfl
  | ghostswap a => exact hs.elim

/-- The calls of `ghostswap`, each with the rest of the program. -/
def segs : List (Stmt V) → List (Nat × List (Stmt V))
  | [] => []
  | .ghostswap a :: p => (a, p) :: segs p
  | .loop _ _ :: p => segs p
  | .swap _ _ :: p => segs p

theorem segs_local {s : Stmt V} (hs : IsLocal s) (p : List (Stmt V)) : segs (s :: p) = segs p := by
  cases s with
  | loop dst kern => rfl
  | swap a b => rfl
  | ghostswap a => exact hs.elim

section
variable {w : World} (c : Nat → Cell V) (h : w.Ok np)

def roundIn (g : Shape) (a : Nat) (rest : List (Stmt V)) (g' : Shape) (j : Nat) (st : Outcome (Mem V)) (m : Outcome Payload) : Outcome (Mem V) :=
  if j + 1 = 4 * w.d then eagerRun g' rest (st.bind fun x => m.bind fun b => receive c g a (roundAt w.d j) (j + 1 = 4 * w.d) x b)
  else st.bind fun x => m.bind fun b => receive c g a (roundAt w.d j) (j + 1 = 4 * w.d) x b

/-- The programs of the ranks, each with `N` calls of `ghostswap`, as a program in rounds. -/
def whole (N : Nat) (p : Rank np → List (Stmt V)) : Rounds.Prog (Rank np) (Outcome Payload) (Outcome (Mem V)) where
  len := 4 * w.d * N
  dst := fun k r => sendTo h (k % (4 * w.d)) r
  src := fun k r => recvFrom h (k % (4 * w.d)) r
  tag := fun k => tagOf (roundAt w.d (k % (4 * w.d)))
  out := fun k r st => match (segs (p r))[k / (4 * w.d)]? with
    | some q => st.bind (message c (w.toSetup.shape r.1) q.1 (roundAt w.d (k % (4 * w.d))))
    | none => .ub
  inp := fun k r st m => match (segs (p r))[k / (4 * w.d)]? with
    | some q => roundIn (w := w) c (w.toSetup.shape r.1) q.1 q.2 (w.shape r.1) (k % (4 * w.d)) st m
    | none => st

theorem partners (j : Nat) (r : Rank np) : recvFrom h j (sendTo h j r) = r ∧ sendTo h j (recvFrom h j r) = r := by
  unfold sendTo recvFrom
  split_ifs with hj
  · have := partners_match h.setup (roundAt_axis hj) (roundAt w.d j).dir r.2
    exact ⟨Subtype.ext this.1, Subtype.ext this.2⟩
  · exact ⟨rfl, rfl⟩

theorem whole_matched (N : Nat) (p : Rank np → List (Stmt V)) : Rounds.Matched (whole c h N p) := fun k _ r => ⟨(partners h (k % (4 * w.d)) r).2, (partners h (k % (4 * w.d)) r).1⟩

/-- A process of the machine of `Rounds`. -/
def absP (w : World) (r : Int) (q : Proc V) : Rounds.Loc (Outcome (Mem V)) :=
  ⟨q.k, q.posted, q.recvd, q.sent, if q.recvd = true ∧ q.j + 1 = 4 * w.d then eagerRun (w.shape r) q.todo.tail q.mem else eagerRun (w.shape r) q.todo q.mem⟩

def abs (w : World) (S : State V np) : Rounds.State (Rank np) (Outcome Payload) (Outcome (Mem V)) := ⟨fun r => absP w r.1 (S.loc r), S.net⟩

theorem abs_update (w : World) (S : State V np) (r : Rank np) (q : Proc V) (net : List (Rounds.Msg (Rank np) (Outcome Payload))) :
    abs w ⟨Function.update S.loc r q, net⟩ = ⟨Function.update (abs w S).loc r (absP w r.1 q), net⟩ := by
  unfold abs
  congr 1
  funext t
  by_cases e : t = r
  · subst e; simp only [Function.update_self]
  · simp only [Function.update_of_ne e]

/-- Where a process can be in the program. -/
structure Fits (w : World) (p : List (Stmt V)) (q : Proc V) : Prop where
  place : ∃ i, i ≤ (segs p).length ∧ q.k = 4 * w.d * i + q.j ∧ segs q.todo = (segs p).drop i
  small : q.j < 4 * w.d
  busy : q.posted = true ∨ q.j ≠ 0 → ∃ a rest, q.todo = .ghostswap a :: rest
  idle : q.posted = false → q.recvd = false ∧ q.sent = false

theorem Fits.at_ghostswap {p : List (Stmt V)} {q : Proc V} (hf : Fits w p q) {a : Nat} {rest : List (Stmt V)} (ht : q.todo = .ghostswap a :: rest) :
    q.k < 4 * w.d * (segs p).length ∧ q.k % (4 * w.d) = q.j ∧ (segs p)[q.k / (4 * w.d)]? = some (a, rest) ∧
      ∃ i, i + 1 ≤ (segs p).length ∧ q.k = 4 * w.d * i + q.j ∧ segs rest = (segs p).drop (i + 1) := by
  obtain ⟨i, hi, hk, hs⟩ := hf.place
  rw [ht] at hs
  have hlt : i < (segs p).length := by
    by_contra hge
    rw [List.drop_eq_nil_of_le (by omega)] at hs
    simp [segs] at hs
  have hsm := hf.small
  have hdiv : q.k / (4 * w.d) = i := by rw [hk, Nat.mul_add_div (by omega), Nat.div_eq_of_lt hsm, Nat.add_zero]
  rw [List.drop_eq_getElem_cons hlt] at hs
  have h1 : (a, rest) = (segs p)[i] := (List.cons.inj hs).1
  have h2 : segs rest = (segs p).drop (i + 1) := (List.cons.inj hs).2
  refine ⟨?_, ?_, ?_, i, hlt, hk, h2⟩
  · rw [hk]
    calc 4 * w.d * i + q.j < 4 * w.d * i + 4 * w.d := by omega
      _ = 4 * w.d * (i + 1) := by ring
      _ ≤ 4 * w.d * (segs p).length := Nat.mul_le_mul_left _ hlt
  · rw [hk, Nat.mul_add_mod, Nat.mod_eq_of_lt hsm]
  · rw [hdiv, List.getElem?_eq_getElem hlt, h1]

theorem Fits.at_end {p : List (Stmt V)} {q : Proc V} (hf : Fits w p q) (ht : segs q.todo = []) (hj : q.j = 0) : q.k = 4 * w.d * (segs p).length := by
  obtain ⟨i, hi, hk, hs⟩ := hf.place
  rw [ht] at hs
  have := List.drop_eq_nil_iff.1 hs.symm
  rw [hk, hj, show i = (segs p).length by omega]
  rfl

include h in
theorem fits_start (p : List (Stmt V)) (m : Outcome (Mem V)) : Fits w p ⟨p, 0, 0, false, false, false, m⟩ :=
  ⟨⟨0, Nat.zero_le _, rfl, rfl⟩, by have := h.setup.dim; show 0 < _; omega, fun hb => by simp at hb, fun _ => ⟨rfl, rfl⟩⟩

/-- A step is a step of the machine of `Rounds` or is not seen there. -/
theorem step_abs {N : Nat} {p : Rank np → List (Stmt V)} (hN : ∀ r, (segs (p r)).length = N) {e : Bool} {S S' : State V np} (hf : ∀ r, Fits w (p r) (S.loc r)) (hs : Step c h e S S') :
    (∀ r, Fits w (p r) (S'.loc r)) ∧
      ((Rounds.Step (whole c h N p) e (abs w S) (abs w S') ∧ ∀ r, (S'.loc r).todo.length ≤ (S.loc r).todo.length) ∨
        (abs w S' = abs w S ∧ ∃ r, (S.loc r).todo.length = (S'.loc r).todo.length + 1 ∧ ∀ t, t ≠ r → (S'.loc t).todo.length = (S.loc t).todo.length)) := by
  have upd : ∀ (r : Rank np) (q : Proc V), Fits w (p r) q → ∀ t, Fits w (p t) (Function.update S.loc r q t) := fun r q hq t => by
    by_cases et : t = r
    · subst et; rw [Function.update_self]; exact hq
    · rw [Function.update_of_ne et]; exact hf t
  have len : ∀ (r : Rank np) (q : Proc V), q.todo.length ≤ (S.loc r).todo.length → ∀ t, (Function.update S.loc r q t).todo.length ≤ (S.loc t).todo.length := fun r q hq t => by
    by_cases et : t = r
    · subst et; rw [Function.update_self]; exact hq
    · rw [Function.update_of_ne et]
  cases hs with
  | compute r s rest ht hs =>
    have hb : (S.loc r).posted = false ∧ (S.loc r).j = 0 := by
      have hno : ¬ ∃ a rest, (S.loc r).todo = .ghostswap a :: rest := by
        rintro ⟨a, rest', e'⟩
        rw [ht] at e'
        have : s = .ghostswap a := (List.cons.inj e').1
        subst this
        exact hs.elim
      constructor
      · by_contra hp; exact hno ((hf r).busy (Or.inl (by simpa using hp)))
      · by_contra hj; exact hno ((hf r).busy (Or.inr hj))
    have hi := (hf r).idle hb.1
    refine ⟨upd r _ ⟨?_, (hf r).small, fun hh => ?_, (hf r).idle⟩, Or.inr ⟨?_, r, ?_, fun t et => ?_⟩⟩
    · obtain ⟨i, h1, h2, h3⟩ := (hf r).place
      rw [ht, segs_local hs] at h3
      exact ⟨i, h1, h2, h3⟩
    · rcases hh with hh | hh
      · exact absurd (hb.1.symm.trans hh) (by simp)
      · exact absurd hb.2 hh
    · rw [abs_update]
      have : absP w r.1 { S.loc r with todo := rest, mem := (S.loc r).mem.bind (localStmt (w.shape r.1) s) } = (abs w S).loc r := by
        simp only [abs, absP, hi.1, Bool.false_eq_true, false_and, if_false, ht, eagerRun_local _ hs]
      rw [this, Function.update_eq_self]; rfl
    · simp only [Function.update_self, ht, List.length_cons]
    · simp only [Function.update_of_ne et]
  | post r a rest ht hp =>
    have hi := (hf r).idle hp
    obtain ⟨hk, hmod, hseg, -⟩ := (hf r).at_ghostswap ht
    refine ⟨upd r _ ⟨(hf r).place, (hf r).small, fun _ => ⟨a, rest, ht⟩, fun hh => by cases hh⟩, Or.inl ⟨?_, len r _ (le_refl _)⟩⟩
    have hst : ((abs w S).loc r).st = (S.loc r).mem := by simp only [abs, absP, hi.1, Bool.false_eq_true, false_and, if_false, ht, eagerRun]
    have hstep := Rounds.Step.post (P := whole c h N p) (eager := e) (abs w S) r (by show _ < 4 * w.d * N; rw [← hN r]; exact hk) hp
    rw [abs_update]
    have e1 : absP w r.1 { S.loc r with posted := true } = { (abs w S).loc r with posted := true } := rfl
    have e2 : (whole c h N p).out ((abs w S).loc r).k r ((abs w S).loc r).st = (S.loc r).mem.bind (message c (w.toSetup.shape r.1) a (roundAt w.d (S.loc r).j)) := by
      rw [hst]
      have hkk : ((abs w S).loc r).k = (S.loc r).k := rfl
      simp only [whole, hkk, hseg, hmod]
    have e3 : (whole c h N p).dst ((abs w S).loc r).k r = sendTo h (S.loc r).j r := by
      show sendTo h ((S.loc r).k % (4 * w.d)) r = _
      rw [hmod]
    have e4 : (whole c h N p).tag ((abs w S).loc r).k = tagOf (roundAt w.d (S.loc r).j) := by
      show tagOf (roundAt w.d ((S.loc r).k % (4 * w.d))) = _
      rw [hmod]
    rw [e2, e3, e4] at hstep
    rw [e1]
    exact hstep
  | deliver r a rest m l₁ l₂ ht hn hp hr hd hs htag =>
    obtain ⟨hk, hmod, hseg, -⟩ := (hf r).at_ghostswap ht
    refine ⟨upd r _ ⟨(hf r).place, (hf r).small, fun _ => ⟨a, rest, ht⟩, fun hh => absurd (hp.symm.trans hh) (by simp)⟩, Or.inl ⟨?_, len r _ (le_refl _)⟩⟩
    have hst : ((abs w S).loc r).st = (S.loc r).mem := by simp only [abs, absP, hr, Bool.false_eq_true, false_and, if_false, ht, eagerRun]
    have e3 : (whole c h N p).src ((abs w S).loc r).k r = recvFrom h (S.loc r).j r := by
      show recvFrom h ((S.loc r).k % (4 * w.d)) r = _
      rw [hmod]
    have e4 : (whole c h N p).tag ((abs w S).loc r).k = tagOf (roundAt w.d (S.loc r).j) := by
      show tagOf (roundAt w.d ((S.loc r).k % (4 * w.d))) = _
      rw [hmod]
    have hstep := Rounds.Step.deliver (P := whole c h N p) (eager := e) (abs w S) r m l₁ l₂ hn hp hr hd (by rw [e3]; exact hs) (by rw [e4]; exact htag)
    have e2 : (whole c h N p).inp ((abs w S).loc r).k r ((abs w S).loc r).st m.body =
        roundIn (w := w) c (w.toSetup.shape r.1) a rest (w.shape r.1) (S.loc r).j (S.loc r).mem m.body := by
      rw [hst]
      have hkk : ((abs w S).loc r).k = (S.loc r).k := rfl
      simp only [whole, hkk, hseg, hmod]
    rw [e2] at hstep
    rw [abs_update]
    have e1 : absP w r.1 { S.loc r with
          recvd := true
          mem := (S.loc r).mem.bind fun x => m.body.bind fun b => receive c (w.toSetup.shape r.1) a (roundAt w.d (S.loc r).j) ((S.loc r).j + 1 = 4 * w.d) x b } =
        { (abs w S).loc r with recvd := true, st := roundIn (w := w) c (w.toSetup.shape r.1) a rest (w.shape r.1) (S.loc r).j (S.loc r).mem m.body } := by
      simp only [abs, absP, roundIn, true_and, ht, List.tail_cons]
      split_ifs <;> rfl
    rw [e1]
    exact hstep
  | sent r hp hs hn =>
    refine ⟨upd r _ ⟨(hf r).place, (hf r).small, (hf r).busy, fun hh => absurd (hp.symm.trans hh) (by simp)⟩, Or.inl ⟨?_, len r _ (le_refl _)⟩⟩
    have hstep := Rounds.Step.sent (P := whole c h N p) (eager := e) (abs w S) r hp hs hn
    rw [abs_update]
    exact hstep
  | pass r a rest ht hr hb =>
    obtain ⟨hk, hmod, hseg, i, hi, hki, hrest⟩ := (hf r).at_ghostswap ht
    have hstep := Rounds.Step.pass (P := whole c h N p) (eager := e) (abs w S) r hr hb
    refine ⟨upd r _ ?_, Or.inl ⟨?_, len r _ ?_⟩⟩
    · split_ifs with hj
      · exact ⟨⟨i + 1, hi, by show (S.loc r).k + 1 = 4 * w.d * (i + 1) + 0; rw [hki, add_assoc, hj]; ring, hrest⟩, by have := h.setup.dim; show 0 < _; omega, fun hh => by simp at hh, fun _ => ⟨rfl, rfl⟩⟩
      · obtain ⟨i, h1, h2, h3⟩ := (hf r).place
        exact ⟨⟨i, h1, by show (S.loc r).k + 1 = _ + ((S.loc r).j + 1); rw [h2]; ring, h3⟩, by have := (hf r).small; show (S.loc r).j + 1 < _; omega, fun _ => ⟨a, rest, ht⟩, fun _ => ⟨rfl, rfl⟩⟩
    · rw [abs_update]
      have e1 : absP w r.1 (if (S.loc r).j + 1 = 4 * w.d then ⟨rest, (S.loc r).k + 1, 0, false, false, false, (S.loc r).mem⟩
             else ⟨(S.loc r).todo, (S.loc r).k + 1, (S.loc r).j + 1, false, false, false, (S.loc r).mem⟩) = ⟨((abs w S).loc r).k + 1, false, false, false, ((abs w S).loc r).st⟩ := by
        split_ifs with hj
        · simp only [abs, absP, hr.2.1, hj, true_and, if_true, Bool.false_eq_true, false_and, if_false, ht, List.tail_cons]
        · simp only [abs, absP, hr.2.1, hj, true_and, if_false, Bool.false_eq_true, false_and]
      rw [e1]
      exact hstep
    · split_ifs
      · simp only [ht, List.length_cons]; omega
      · exact le_refl _

/-! ## The lock-step result -/

theorem sync_congr {ρ μ σ : Type} {P Q : Rounds.Prog ρ μ σ} (s : ρ → σ) : ∀ k, (∀ i, i < k → P.src i = Q.src i ∧ P.out i = Q.out i ∧ P.inp i = Q.inp i) →
    Rounds.sync P s k = Rounds.sync Q s k
  | 0, _ => rfl
  | k + 1, hpq => by
    funext r
    obtain ⟨h1, h2, h3⟩ := hpq k (by omega)
    simp only [Rounds.sync, h1, h2, h3, sync_congr s k fun i hi => hpq i (by omega)]

def shift {ρ μ σ : Type} (P : Rounds.Prog ρ μ σ) (m : Nat) : Rounds.Prog ρ μ σ where
  len := P.len - m
  dst := fun k => P.dst (m + k)
  src := fun k => P.src (m + k)
  tag := fun k => P.tag (m + k)
  out := fun k => P.out (m + k)
  inp := fun k => P.inp (m + k)

theorem sync_add {ρ μ σ : Type} (P : Rounds.Prog ρ μ σ) (s : ρ → σ) (m : Nat) : ∀ k, Rounds.sync P s (m + k) = Rounds.sync (shift P m) (Rounds.sync P s m) k
  | 0 => rfl
  | k + 1 => by
    funext r
    show Rounds.sync P s (m + k + 1) r = _
    simp only [Rounds.sync, sync_add P s m k, shift]

/-- Memory with `recv_size` 0. -/
def fresh (S : Outcome (Grids V)) : Outcome (Mem V) := S.bind fun σ => .ok ⟨σ, 0⟩

/-- The state of a call of `ghostswap(grid a)` after `k` rounds. -/
def during (a : Nat) (S : Int → Outcome (Grids V)) (k : Nat) (r : Rank np) : Outcome (RankSt V) :=
  Rounds.sync (prog fullPlan (c a) h.setup) (fun r => (S r.1).bind fun σ => .ok ⟨σ a, 0⟩) k r

theorem during_failed (a : Nat) (S : Int → Outcome (Grids V)) (r : Rank np) : ∀ k, ((S r.1).bind fun _ => during c h a S k r) = during c h a S k r
  | 0 => by
    simp only [during, Rounds.sync]
    cases S r.1 <;> rfl
  | k + 1 => by
    have ih := during_failed a S r k
    have e : during c h a S (k + 1) r = (prog fullPlan (c a) h.setup).inp k r (during c h a S k r)
      ((prog fullPlan (c a) h.setup).out k ((prog fullPlan (c a) h.setup).src k r) (during c h a S k ((prog fullPlan (c a) h.setup).src k r))) := rfl
    rw [e]
    cases hS : S r.1 with
    | ok σ => rfl
    | ub => rw [hS] at ih; rw [← ih]; rfl
    | abort z => rw [hS] at ih; rw [← ih]; rfl

theorem round_step (a N : Nat) (p : Rank np → List (Stmt V)) (S : Int → Outcome (Grids V)) {k : Nat} (hk : k < 4 * w.d)
    (ih : ∀ r : Rank np, Rounds.sync (whole c h N fun r => .ghostswap a :: p r) (fun r => fresh (S r.1)) k r =
      (S r.1).bind fun σ => (during c h a S k r).bind fun st => .ok ⟨Function.update σ a st.data, st.recvSize⟩) (r : Rank np) :
    Rounds.sync (whole c h N fun r => .ghostswap a :: p r) (fun r => fresh (S r.1)) (k + 1) r =
      if k + 1 = 4 * w.d then eagerRun (w.shape r.1) (p r) ((S r.1).bind fun σ => (during c h a S (k + 1) r).bind fun st => .ok ⟨Function.update σ a st.data, 0⟩)
      else (S r.1).bind fun σ => (during c h a S (k + 1) r).bind fun st => .ok ⟨Function.update σ a st.data, st.recvSize⟩ := by
  have hmod : k % (4 * w.d) = k := Nat.mod_eq_of_lt hk
  have hdiv : k / (4 * w.d) = 0 := Nat.div_eq_of_lt hk
  have hsrc : (prog fullPlan (c a) h.setup).src k r = recvFrom h k r := rfl
  have eT : during c h a S (k + 1) r = (during c h a S k r).bind fun st => ((during c h a S k (recvFrom h k r)).bind (payload fullPlan (c a) (w.toSetup.shape (recvFrom h k r).1) (roundAt w.d k))).bind
      fun m => consume fullPlan (c a) (w.toSetup.shape r.1) (roundAt w.d k) st m := by
    rw [← hsrc]; rfl
  have eM : ((S (recvFrom h k r).1).bind fun σ => (during c h a S k (recvFrom h k r)).bind fun st => Outcome.ok (⟨Function.update σ a st.data, st.recvSize⟩ : Mem V)).bind
      (message c (w.toSetup.shape (recvFrom h k r).1) a (roundAt w.d k)) = (during c h a S k (recvFrom h k r)).bind (payload fullPlan (c a) (w.toSetup.shape (recvFrom h k r).1) (roundAt w.d k)) := by
    have hfail := during_failed c h a S (recvFrom h k r) k
    cases hS : S (recvFrom h k r).1 with
    | ok σ =>
      cases during c h a S k (recvFrom h k r) with
      | ok st => simp only [Outcome.ok_bind, message, Function.update_self]
      | ub => rfl
      | abort z => rfl
    | ub => rw [hS] at hfail; rw [← hfail]; rfl
    | abort z => rw [hS] at hfail; rw [← hfail]; rfl
  have inner : (((S r.1).bind fun σ => (during c h a S k r).bind fun st => Outcome.ok (⟨Function.update σ a st.data, st.recvSize⟩ : Mem V)).bind fun x =>
      ((during c h a S k (recvFrom h k r)).bind (payload fullPlan (c a) (w.toSetup.shape (recvFrom h k r).1) (roundAt w.d k))).bind fun b =>
        receive c (w.toSetup.shape r.1) a (roundAt w.d k) (k + 1 = 4 * w.d) x b) =
      (S r.1).bind fun σ => (during c h a S (k + 1) r).bind fun st => .ok ⟨Function.update σ a st.data, if k + 1 = 4 * w.d then 0 else st.recvSize⟩ := by
    rw [eT]
    cases S r.1 with
    | ok σ =>
      cases during c h a S k r with
      | ok st =>
        simp only [Outcome.ok_bind]
        cases (during c h a S k (recvFrom h k r)).bind (payload fullPlan (c a) (w.toSetup.shape (recvFrom h k r).1) (roundAt w.d k)) with
        | ok b => simp only [Outcome.ok_bind, receive, Function.update_self, Function.update_idem]
        | ub => rfl
        | abort z => rfl
      | ub => rfl
      | abort z => rfl
    | ub => rfl
    | abort z => rfl
  rw [Rounds.sync]
  beta_reduce
  rw [ih r]
  have es : (whole c h N fun r => .ghostswap a :: p r).src k r = recvFrom h k r := by simp only [whole, hmod]
  rw [es, ih (recvFrom h k r)]
  simp only [whole, hmod, hdiv, segs, List.getElem?_cons_zero]
  rw [eM, roundIn, inner]
  split_ifs <;> rfl

/-- The first call of `ghostswap`. -/
theorem first_rounds (a N : Nat) (p : Rank np → List (Stmt V)) (S : Int → Outcome (Grids V)) : ∀ k, k < 4 * w.d → ∀ r : Rank np,
    Rounds.sync (whole c h N fun r => .ghostswap a :: p r) (fun r => fresh (S r.1)) k r =
      (S r.1).bind fun σ => (during c h a S k r).bind fun st => .ok ⟨Function.update σ a st.data, st.recvSize⟩
  | 0, _, r => by
    simp only [during, Rounds.sync, fresh]
    cases S r.1 with
    | ok σ => simp only [Outcome.ok_bind, Function.update_eq_self]
    | ub => rfl
    | abort z => rfl
  | k + 1, hk, r => by rw [round_step c h a N p S (by omega) (first_rounds a N p S k (by omega)) r, if_neg (by omega)]

theorem first_call (a N : Nat) (p : Rank np → List (Stmt V)) (S : Int → Outcome (Grids V)) (r : Rank np) :
    Rounds.sync (whole c h N fun r => .ghostswap a :: p r) (fun r => fresh (S r.1)) (4 * w.d) r = eagerRun (w.shape r.1) (p r) (fresh (mpiStmt c w (.ghostswap a) S r.1)) := by
  have hd := h.setup.dim
  obtain ⟨k, hk⟩ : ∃ k, 4 * w.d = k + 1 := ⟨4 * w.d - 1, by have : 0 < w.d := hd; omega⟩
  have h1 := round_step c h a N p S (k := k) (by omega) (first_rounds c h a N p S k (by omega)) r
  rw [hk, h1, if_pos hk.symm]
  congr 1
  have h2 := sync_eq fullPlan (c a) h.setup (fun r => (S r).bind fun σ => .ok ⟨σ a, 0⟩) (k := 4 * w.d) (le_refl _) r
  rw [← length_rounds, List.take_length, length_rounds] at h2
  have h3 : during c h a S (k + 1) r = ghostswap fullPlan (c a) w.toSetup (fun r => (S r).bind fun σ => .ok ⟨σ a, 0⟩) r.1 := by rw [← hk]; exact h2
  rw [h3]
  simp only [mpiStmt, fresh]
  cases S r.1 with
  | ok σ =>
    simp only [Outcome.ok_bind]
    cases ghostswap fullPlan (c a) w.toSetup (fun r => (S r).bind fun σ => .ok ⟨σ a, 0⟩) r.1 <;> rfl
  | ub => rfl
  | abort z => rfl

/-- The rounds of the whole program give what `mpiRun` gives. -/
theorem whole_result : ∀ (p : List (Stmt V)) (S : Int → Outcome (Grids V)) (r : Rank np),
    Rounds.sync (whole c h (segs p).length fun _ => p) (fun r => eagerRun (w.shape r.1) p (fresh (S r.1))) (4 * w.d * (segs p).length) r = fresh (mpiRun c w p S r.1)
  | [], S, r => rfl
  | .loop dst kern :: p, S, r => by
    have e : ∀ r : Rank np, eagerRun (w.shape r.1) (.loop dst kern :: p) (fresh (S r.1)) = eagerRun (w.shape r.1) p (fresh (mpiStmt c w (.loop dst kern) S r.1)) := fun r => by
      simp only [eagerRun, fresh, mpiStmt]
      cases S r.1 <;> rfl
    simp only [e]
    exact whole_result p (mpiStmt c w (.loop dst kern) S) r
  | .swap a b :: p, S, r => by
    have e : ∀ r : Rank np, eagerRun (w.shape r.1) (.swap a b :: p) (fresh (S r.1)) = eagerRun (w.shape r.1) p (fresh (mpiStmt c w (.swap a b) S r.1)) := fun r => by
      simp only [eagerRun, fresh, mpiStmt]
      cases S r.1 <;> rfl
    simp only [e]
    exact whole_result p (mpiStmt c w (.swap a b) S) r
  | .ghostswap a :: p, S, r => by
    have hd := h.setup.dim
    have hd' : 0 < 4 * w.d := by have : 0 < w.d := hd; omega
    have el : 4 * w.d * (segs (.ghostswap a :: p)).length = 4 * w.d + 4 * w.d * (segs p).length := by simp only [segs, List.length_cons]; ring
    have es : (fun r : Rank np => eagerRun (w.shape r.1) (.ghostswap a :: p) (fresh (S r.1))) = fun r => fresh (S r.1) := rfl
    rw [el, es, sync_add, sync_congr (Q := whole c h (segs p).length fun _ => p)]
    · have : Rounds.sync (whole c h (segs (.ghostswap a :: p)).length fun _ => .ghostswap a :: p) (fun r => fresh (S r.1)) (4 * w.d) = fun r => eagerRun (w.shape r.1) p (fresh (mpiStmt c w (.ghostswap a) S r.1)) :=
        funext fun r => first_call c h a _ (fun _ => p) S r
      rw [this]
      exact whole_result p (mpiStmt c w (.ghostswap a) S) r
    · intro i _
      simp only [shift, whole, Nat.add_mod_left, Nat.add_div_left _ hd', segs, List.getElem?_cons_succ, and_self]

/-! ## The claims -/

variable {c h}

theorem run_abs {N : Nat} {p : Rank np → List (Stmt V)} (hN : ∀ r, (segs (p r)).length = N) {D : Int → Grids V} {e : Bool} {n : Nat} {X : State V np} (hrun : Run c h e n (startEach p D) X) :
    (∀ r, Fits w (p r) (X.loc r)) ∧ ∃ m, Rounds.Run (whole c h N p) e m (Rounds.start fun r => eagerRun (w.shape r.1) (p r) (fresh (.ok (D r.1)))) (abs w X) ∧
      n + ∑ r, (X.loc r).todo.length ≤ m + ∑ r, (p r).length := by
  generalize hS : startEach p D = S at hrun
  induction hrun with
  | nil S =>
    subst hS
    refine ⟨fun r => fits_start h (p r) _, 0, ?_, ?_⟩
    · have : abs w (startEach (np := np) p D) = Rounds.start fun r => eagerRun (w.shape r.1) (p r) (fresh (.ok (D r.1))) := by
        unfold abs startEach Rounds.start absP fresh
        simp only [Bool.false_eq_true, false_and, if_false, Outcome.ok_bind]
      rw [this]; exact .nil _
    · simp [startEach]
  | snoc hr hst ih =>
    obtain ⟨hf, m, hR, hle⟩ := ih hS
    obtain ⟨hf', ⟨hstep, hlen⟩ | ⟨hsame, r, hr1, hr2⟩⟩ := step_abs c h hN hf hst
    · refine ⟨hf', m + 1, .snoc hR hstep, ?_⟩
      have := Finset.sum_le_sum fun r (_ : r ∈ Finset.univ) => hlen r
      omega
    · refine ⟨hf', m, by rw [hsame]; exact hR, ?_⟩
      have hr0 := fun X : State V np => Finset.add_sum_erase Finset.univ (fun r => (X.loc r).todo.length) (Finset.mem_univ r)
      beta_reduce at hr0
      rw [← hr0] at hle ⊢
      rw [Finset.sum_congr rfl fun t ht => hr2 t (Finset.ne_of_mem_erase ht)]
      omega

theorem card_rank : Fintype.card (Rank np) = np := by
  rw [Fintype.card_of_subtype (Finset.Ico (0 : Int) np) fun x => by simp [IsRank]]; simp

/-- Every run of programs with equal numbers of calls of `ghostswap` has a bounded number of steps, -/
theorem each_ends {N : Nat} {p : Rank np → List (Stmt V)} (hN : ∀ r, (segs (p r)).length = N) {D : Int → Grids V} {e : Bool} {n : Nat} {X : State V np} (hrun : Run c h e n (startEach p D) X) :
    n ≤ np * (16 * w.d * N) + ∑ r, (p r).length := by
  obtain ⟨-, m, hR, hle⟩ := run_abs hN hrun
  have h1 := Rounds.run_bounded (whole_matched c h N p) hR
  have h2 : (whole c h N p).len = 4 * w.d * N := rfl
  rw [card_rank, h2] at h1
  calc n ≤ m + ∑ r, (p r).length := by omega
    _ ≤ 4 * (4 * w.d * N) * np + ∑ r, (p r).length := by omega
    _ = _ := by ring

/-- can go on as long as a rank has statements left, -/
theorem each_go_on {N : Nat} {p : Rank np → List (Stmt V)} (hN : ∀ r, (segs (p r)).length = N) {D : Int → Grids V} {e : Bool} {n : Nat} {X : State V np} (hrun : Run c h e n (startEach p D) X)
    (hX : ¬ Done X) : ∃ Y, Step c h false X Y := by
  obtain ⟨hf, m, hR, -⟩ := run_abs hN hrun
  have I := Rounds.inv_run (whole_matched c h N p) hR
  have hlag : ∀ s r, (X.loc s).k < (X.loc r).k → (X.loc s).k + 1 = (X.loc r).k ∧ (X.loc s).posted = true ∧ (X.loc s).recvd = true ∧ (X.loc s).sent = true := fun s r hsr => I.lag s r hsr
  have hpass : ∀ s r, (X.loc s).k < (X.loc r).k → ∃ Y, Step c h false X Y := fun s r hlt => by
    obtain ⟨e1, e2⟩ := hlag s r hlt
    obtain ⟨b, rs, hsr⟩ := (hf s).busy (Or.inl e2.1)
    refine ⟨_, .pass X s b rs hsr e2 fun t => ?_⟩
    by_cases htr : (X.loc t).k < (X.loc r).k
    · have := hlag t r htr
      exact Or.inr ⟨by omega, this.2⟩
    · exact Or.inl (by omega)
  by_cases hloc : ∃ r s rest, (X.loc r).todo = s :: rest ∧ IsLocal s
  · obtain ⟨r, s, rest, ht, hs⟩ := hloc
    by_cases hb : ∀ t, (X.loc r).k ≤ (X.loc t).k
    · exact ⟨_, .compute X r s rest ht hs hb⟩
    · obtain ⟨t, ht⟩ := not_forall.1 hb
      exact hpass t r (not_le.1 ht)
  · have hcase : ∀ r, (X.loc r).todo = [] ∨ ∃ a rest, (X.loc r).todo = .ghostswap a :: rest := fun r => by
      cases ht : (X.loc r).todo with
      | nil => exact Or.inl rfl
      | cons s rest =>
        cases s with
        | ghostswap a => exact Or.inr ⟨a, rest, rfl⟩
        | loop dst kern => exact absurd ⟨r, _, _, ht, trivial⟩ hloc
        | swap a b => exact absurd ⟨r, _, _, ht, trivial⟩ hloc
    have hnd : ¬ Rounds.Done (whole c h N p) (abs w X) := fun hd => hX fun r => by
      rcases hcase r with h0 | ⟨a, rest, ht⟩
      · exact h0
      · have h1 := (hN r) ▸ ((hf r).at_ghostswap ht).1
        have h2 : (X.loc r).k = 4 * w.d * N := hd r
        omega
    obtain ⟨Y, hY⟩ := Rounds.deadlock_free (whole_matched c h N p) hR hnd
    have hpost : ∀ r, (X.loc r).posted = true → ∃ a rest, (X.loc r).todo = .ghostswap a :: rest := fun r hp => (hf r).busy (Or.inl hp)
    cases hY with
    | post r hk hp =>
      rcases hcase r with h0 | ⟨a, rest, ht⟩
      · have hj : (X.loc r).j = 0 := by
          by_contra hj
          obtain ⟨a, rest, ht⟩ := (hf r).busy (Or.inr hj)
          rw [h0] at ht; cases ht
        have h1 := (hN r) ▸ (hf r).at_end (by rw [h0]; rfl) hj
        have h2 : (X.loc r).k < 4 * w.d * N := hk
        omega
      · by_cases hb : (X.loc r).j = 0 → ∀ s, (X.loc s).Entered (X.loc r).k
        · exact ⟨_, .post X r a rest ht hp hb⟩
        · have hb : (X.loc r).j = 0 ∧ ∃ s, ¬ (X.loc s).Entered (X.loc r).k := by
            by_contra hcon
            exact hb fun hj s => by_contra fun hs => hcon ⟨hj, s, hs⟩
          obtain ⟨-, s, hs⟩ := hb
          have hle : ¬ (X.loc r).k < (X.loc s).k := fun hlt => hs (Or.inl hlt)
          have hlt : (X.loc s).k < (X.loc r).k := by
            by_contra hge
            have hkk : (X.loc s).k = (X.loc r).k := by omega
            rcases hcase s with h0 | ⟨b, rs, hsr⟩
            · have hj : (X.loc s).j = 0 := by
                by_contra hj
                obtain ⟨b, rs, hsr⟩ := (hf s).busy (Or.inr hj)
                rw [h0] at hsr; cases hsr
              have h1 := (hN s) ▸ (hf s).at_end (by rw [h0]; rfl) hj
              have h2 := (hN r) ▸ ((hf r).at_ghostswap ht).1
              omega
            · exact hs (Or.inr ⟨hkk, b, rs, hsr⟩)
          exact hpass s r hlt
    | deliver r m l₁ l₂ hn hp hr hd hs ht =>
      obtain ⟨a, rest, htodo⟩ := hpost r hp
      obtain ⟨-, hmod, -⟩ := (hf r).at_ghostswap htodo
      refine ⟨_, .deliver X r a rest m l₁ l₂ htodo hn hp hr hd ?_ ?_⟩
      · have : m.src = recvFrom h ((X.loc r).k % (4 * w.d)) r := hs
        rw [this, hmod]
      · have : m.tag = tagOf (roundAt w.d ((X.loc r).k % (4 * w.d))) := ht
        rw [this, hmod]
    | sent r hp hs hn => exact ⟨_, .sent X r hp hs hn⟩
    | pass r hr hb =>
      obtain ⟨a, rest, htodo⟩ := hpost r hr.1
      exact ⟨_, .pass X r a rest htodo hr hb⟩

/-- and when all ranks are done, they hold what lock-step rounds give, and no message is left. -/
theorem each_agree {N : Nat} {p : Rank np → List (Stmt V)} (hN : ∀ r, (segs (p r)).length = N) {D : Int → Grids V} {e : Bool} {n : Nat} {X : State V np} (hrun : Run c h e n (startEach p D) X)
    (hX : Done X) : (∀ r, (X.loc r).mem = Rounds.sync (whole c h N p) (fun r => eagerRun (w.shape r.1) (p r) (fresh (.ok (D r.1)))) (4 * w.d * N) r) ∧ X.net = [] := by
  obtain ⟨hf, m, hR, -⟩ := run_abs hN hrun
  have hj : ∀ r, (X.loc r).posted = false ∧ (X.loc r).j = 0 := fun r => by
    have hno : ¬ ∃ a rest, (X.loc r).todo = .ghostswap a :: rest := by
      rintro ⟨a, rest, ht⟩; rw [hX r] at ht; cases ht
    constructor
    · by_contra hp; exact hno ((hf r).busy (Or.inl (by simpa using hp)))
    · by_contra hj; exact hno ((hf r).busy (Or.inr hj))
  have hd : Rounds.Done (whole c h N p) (abs w X) := fun r => (hN r) ▸ (hf r).at_end (by rw [hX r]; rfl) (hj r).2
  obtain ⟨h1, h2⟩ := Rounds.result_unique (whole_matched c h N p) hR hd
  refine ⟨fun r => ?_, h2⟩
  have h3 := h1 r
  have hi := (hf r).idle (hj r).1
  simp only [abs, absP, hi.1, Bool.false_eq_true, false_and, if_false, hX r, eagerRun] at h3
  exact h3

/-- Runs that finish exist. -/
theorem each_exist {N : Nat} {p : Rank np → List (Stmt V)} (hN : ∀ r, (segs (p r)).length = N) (D : Int → Grids V) : ∃ n X, Run c h false n (startEach p D) X ∧ Done X := by
  by_contra hcon
  push Not at hcon
  have : ∀ n, ∃ X, Run c h false n (startEach p D) X := fun n => by
    induction n with
    | zero => exact ⟨_, .nil _⟩
    | succ n ih =>
      obtain ⟨X, hX⟩ := ih
      obtain ⟨Y, hY⟩ := each_go_on hN hX (hcon n X hX)
      exact ⟨Y, hX.snoc hY⟩
  obtain ⟨X, hX⟩ := this (np * (16 * w.d * N) + ∑ r, (p r).length + 1)
  have := each_ends hN hX
  omega

/-- **C90, termination.** Every run has a bounded number of steps, -/
theorem runs_end {p : List (Stmt V)} {D : Int → Grids V} {e : Bool} {n : Nat} {X : State V np} (hrun : Run c h e n (start p D) X) :
    n ≤ np * (16 * w.d * (segs p).length + p.length) := by
  have h1 := each_ends (fun _ => rfl) (p := fun _ => p) hrun
  rw [Finset.sum_const, Finset.card_univ, card_rank, smul_eq_mul, ← Nat.mul_add] at h1
  exact h1

/-- **C90, no deadlock.** can go on as long as a rank has statements left, even if a send completes only after its message was taken, -/
theorem runs_go_on {p : List (Stmt V)} {D : Int → Grids V} {e : Bool} {n : Nat} {X : State V np} (hrun : Run c h e n (start p D) X) (hX : ¬ Done X) : ∃ Y, Step c h false X Y :=
  each_go_on (fun _ => rfl) (p := fun _ => p) hrun hX

/-- **C90, one result.** and when all ranks are done, they hold what lock-step execution gives, and no message is left. -/
theorem runs_agree {p : List (Stmt V)} {D : Int → Grids V} {e : Bool} {n : Nat} {X : State V np} (hrun : Run c h e n (start p D) X) (hX : Done X) :
    (∀ r, (X.loc r).mem = (mpiRun c w p (fun r => .ok (D r)) r.1).bind fun σ => .ok ⟨σ, 0⟩) ∧ X.net = [] := by
  obtain ⟨h1, h2⟩ := each_agree (fun _ => rfl) (p := fun _ => p) hrun hX
  exact ⟨fun r => by rw [h1 r, whole_result c h p (fun r => .ok (D r)) r]; rfl, h2⟩

/-- Runs that finish exist. -/
theorem runs_exist (p : List (Stmt V)) (D : Int → Grids V) : ∃ n X, Run c h false n (start p D) X ∧ Done X := each_exist (fun _ => rfl) (p := fun _ => p) D

variable (c h) in
/-- Serially the program does not fail; and whatever the speeds of the ranks and of the messages, when all ranks are done then no message is left, no rank has failed, and the nodes of grid `k`
hold what they hold serially. -/
def EndsAsSerial (p : List (Stmt V)) (σ : Grids V) (D : Int → Grids V) (k : Nat) : Prop :=
  ∃ σ', serialRun w.serial p σ = .ok σ' ∧ ∀ (e : Bool) (n : Nat) (X : State V np), Run c h e n (start p D) X → Done X →
    X.net = [] ∧ ∀ r, ∃ τ, (X.loc r).mem = .ok ⟨τ, 0⟩ ∧ ∀ x, (w.shape r.1).IsNode x → cellAt (w.shape r.1) (τ k) x = cellAt w.serial (σ' k) x

theorem endsAsSerial {p : List (Stmt V)} {σ : Grids V} {D : Int → Grids V} {k : Nat}
    (hs : ∃ σ' D', serialRun w.serial p σ = .ok σ' ∧ Finished np (mpiRun c w p fun r => .ok (D r)) D' ∧ SameField w np σ' D' k) : EndsAsSerial c h p σ D k := by
  obtain ⟨σ', D', e1, e2, hS⟩ := hs
  refine ⟨σ', e1, fun e n X hrun hX => ?_⟩
  obtain ⟨h1, h2⟩ := runs_agree hrun hX
  exact ⟨h2, fun r => ⟨D' r.1, by rw [h1 r, e2 r.1 r.2]; rfl, fun x hx => hS r.1 r.2 x hx⟩⟩

/-- **C90.** Programs that keep the discipline of C50. -/
theorem disciplined_ends {P : Nat → V → Prop} (hc : ∀ k, RoundTrips (c k)) (hPc : ∀ k v, P k v → (c k).Valid v) {K K' : Known} {p : List (Stmt V)}
    (hp : Disciplined w.d w.ghosts P K p K') {σ : Grids V} {D : Int → Grids V} (hA : Agree w np K σ D) (hP : AllCells w np P σ D) {k : Nat} (hk : K'.f k) : EndsAsSerial c h p σ D k := by
  obtain ⟨σ', D', e1, e2, hA', -⟩ := parallel_eq_serial hc hPc h hp (σ := σ) (D := D) (S := fun r => .ok (D r)) (fun _ _ => rfl) hA hP
  exact endsAsSerial ⟨σ', D', e1, e2, hA'.same k hk⟩

end

section Programs

/-- **C90, Allen-Cahn.** -/
theorem allenCahn_ends {T : Type} [Zero T] [One T] [Add T] [Sub T] [Mul T] [Div T] {c : Codec T} {w : World} {np : Nat} (h : w.Ok np) (hgh : 1 ≤ w.ghosts) (dx : Nat → T) (f : T → T → T)
    (steps : Nat) {σ : Grids T} {D : Int → Grids T} (hF : SameField w np σ D 0) : EndsAsSerial (fun _ => primCell c) h (allenCahnUpdate w.d dx f steps) σ D 0 :=
  endsAsSerial (allenCahn_parallel h hgh dx f steps hF)

/-- **C90, Cahn-Hilliard.** -/
theorem cahnHilliard_ends {T : Type} [Zero T] [One T] [Add T] [Sub T] [Mul T] [Div T] {c : Codec T} {w : World} {np : Nat} (h : w.Ok np) (hgh : 1 ≤ w.ghosts) (dx : Nat → T) (mu f : T → T → T)
    (steps : Nat) {σ : Grids T} {D : Int → Grids T} (hF : SameField w np σ D 0) : EndsAsSerial (fun _ => primCell c) h (cahnHilliardUpdate w.d dx mu f steps) σ D 0 :=
  endsAsSerial (cahnHilliard_parallel h hgh dx mu f steps hF)

variable {α : Type} [Zero α] [One α] [Add α] [Sub α] [Mul α] [Div α] {n : Nat} {w : World} {np : Nat} {c : Nat → Cell (List α)}

/-- **C90, isotropic phase field.** -/
theorem isoDense_ends (hc : ∀ k, RoundTrips (c k)) (hPc : ∀ k v, Entries α n k v → (c k).Valid v) (h : w.Ok np) (hgh : 1 ≤ w.ghosts) (dx : Nat → α) (value : List α → List α → Nat → α)
    (steps : Nat) {σ : Grids (List α)} {D : Int → Grids (List α)} (hF : SameField w np σ D 0) (hS : AllCells w np (Entries α n) σ D) :
    EndsAsSerial c h (evolveUpdate (isoKernel w.d n dx value) steps) σ D 0 := endsAsSerial (isoDense_parallel hc hPc h hgh dx value steps hF hS)

/-- **C90, anisotropic phase field.** -/
theorem anisoDense_ends (hc : ∀ k, RoundTrips (c k)) (hPc : ∀ k v, Entries α n k v → (c k).Valid v) (h : w.Ok np) (hgh : 1 ≤ w.ghosts) (pos : α → Bool) (dx : Nat → α)
    (value : List Int → List α → List α → Nat → α) (steps : Nat) {σ : Grids (List α)} {D : Int → Grids (List α)} (hF : SameField w np σ D 0) (hS : AllCells w np (Entries α n) σ D) :
    EndsAsSerial c h (evolveUpdate (anisoKernel pos w.d n dx value) steps) σ D 0 := endsAsSerial (anisoDense_parallel hc hPc h hgh pos dx value steps hF hS)

/-- **C90, sparse phase field.** -/
theorem sparse_ends {c : Nat → Cell (Sparse.Cell α)} {I : Finset Int} (hc : ∀ k, RoundTrips (c k)) (hPc : ∀ k v, Lists I v → (c k).Valid v) (h : w.Ok np) (hgh : 1 ≤ w.ghosts) (dx : Nat → α)
    {f : Sparse.Cell Int → Sparse.Cell α → Sparse.Cell α → Sparse.Cell α → Sparse.Cell α} (hf : LocalFields f) (steps : Nat) {σ : Grids (Sparse.Cell α)} {D : Int → Grids (Sparse.Cell α)}
    (hF : SameField w np σ D 0) (hS : AllCells w np (fun _ => Lists I) σ D) (hσ : ∀ o, σ 1 o = []) (hD : ∀ r o, D r 1 o = []) :
    EndsAsSerial c h (evolveUpdate (sparseKernel w.d dx f) steps) σ D 0 := endsAsSerial (sparse_parallel hc hPc h hgh dx hf steps hF hS hσ hD)

/-- **C90, Ostwald ripening.** -/
theorem ostwald_ends (hc : ∀ k, RoundTrips (c k)) (hPc : ∀ k v, Sizes α n 2 k v → (c k).Valid v) (h : w.Ok np) (hgh : 1 ≤ w.ghosts) (hn : 0 < n) (pow2 : α → α) (dx : Nat → α)
    (pot : List α → α → α) (value : List α → List α → α → Nat → α) (steps : Nat) {σ : Grids (List α)} {D : Int → Grids (List α)} (hF : SameField w np σ D 0)
    (hS : AllCells w np (Sizes α n 2) σ D) : EndsAsSerial c h (ostwaldUpdate w.d n pow2 dx pot value steps) σ D 0 :=
  endsAsSerial (ostwald_parallel hc hPc h hgh hn pow2 dx pot value steps hF hS)

omit [Zero α] [One α] [Add α] [Sub α] [Mul α] [Div α] in
/-- **C90, solidification.** -/
theorem solid_ends (hc : ∀ k, RoundTrips (c k)) (hPc : ∀ k v, Sizes α 2 3 k v → (c k).Valid v) (h : w.Ok np) (hgh : 1 ≤ w.ghosts) (flux : α → α → α → α × α)
    (value : Around α → α × α) (steps : Nat) {σ : Grids (List α)} {D : Int → Grids (List α)} (hF : SameField w np σ D 0) (hS : AllCells w np (Sizes α 2 3) σ D) :
    EndsAsSerial c h (solidUpdate flux value steps) σ D 0 := endsAsSerial (solid_parallel hc hPc h hgh flux value steps hF hS)

end Programs

/-! ## Examples -/

/-- Two ranks, three steps of Allen-Cahn on bytes: a run that finishes, and what it ends with. -/
example (f : Byte → Byte → Byte) : ∃ n X, Run (fun _ => primCell byteCodec) smallWorld_ok false n (start (allenCahnUpdate 1 (fun _ => 1) f 3) fun r _ => shared (fun x => UInt8.ofNat x.toNat) 9 r) X ∧ Done X ∧
    n ≤ 2 * (16 * 1 * 4 + 10) ∧ X.net = [] ∧
    ∃ σ', serialRun smallWorld.serial (allenCahnUpdate 1 (fun _ => 1) f 3) (fun _ x => UInt8.ofNat x.toNat) = .ok σ' ∧
      ∀ r, ∃ τ, (X.loc r).mem = .ok ⟨τ, 0⟩ ∧ ∀ x, (smallWorld.shape r.1).IsNode x → cellAt (smallWorld.shape r.1) (τ 0) x = cellAt smallWorld.serial (σ' 0) x := by
  obtain ⟨n, X, hrun, hX⟩ := runs_exist (c := fun _ => primCell byteCodec) (h := smallWorld_ok) (allenCahnUpdate 1 (fun _ => 1) f 3) fun r _ => shared (fun x => UInt8.ofNat x.toNat) 9 r
  obtain ⟨σ', e1, hall⟩ := allenCahn_ends (c := byteCodec) smallWorld_ok (by decide) (fun _ => 1) f 3
    (shared_same (σ := fun _ x => UInt8.ofNat x.toNat) (D := fun r _ => shared (fun x => UInt8.ofNat x.toNat) 9 r) _ 9 rfl fun _ => rfl)
  obtain ⟨h1, h2⟩ := hall false n X hrun hX
  exact ⟨n, X, hrun, hX, runs_end hrun, h1, σ', e1, h2⟩

end MMSP.Async
