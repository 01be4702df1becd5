import Verif.TessellateHang
import Verif.Conserve
/-!
# `approximate_voronoi` does not end

In a serial build the tessellation by fast marching does not end for any non-empty list of seeds: whatever the loops do, the wave
moves towards larger first coordinates until a voxel on an upper face is propagated.
-/

namespace MMSP.Tessellate

open MMSP.Stencil MMSP.PriorityQueue
open MMSP.Conserve (Serial position_rawOffset)

/-! ## The queue, also with stale indices -/

section
variable {E K : Type} [DecidableEq E] [LinearOrder K]

/-- What holds of the queue even if positions are stale. -/
structure Weak (q : PQ E) : Prop where
  inj : ∀ i k, i < q.size → k < q.size → q.heap i = q.heap k → i = k
  mem : ∀ e, Holds q e ↔ (q.back e).isSome

theorem weak_swap {q : PQ E} {i j : Nat} (h : i ≠ j) (hi : i < q.size) (hj : j < q.size) (hw : Weak q) : Weak (q.swap i j) := by
  obtain ⟨b1, b2, b3⟩ := swap_back h hi hj hw.inj
  refine ⟨swap_inj h hi hj hw.inj, fun e => ?_⟩
  rw [swap_holds h hi hj]
  by_cases h1 : e = q.heap i
  · subst h1; rw [b2]; exact ⟨fun _ => rfl, fun _ => ⟨i, hi, rfl⟩⟩
  · by_cases h2 : e = q.heap j
    · subst h2; rw [b1]; exact ⟨fun _ => rfl, fun _ => ⟨j, hj, rfl⟩⟩
    · rw [b3 e h1 h2]; exact hw.mem e

theorem weak_up (key : E → K) : ∀ (i : Nat) (q q' : PQ E), Weak q → q.percolateUp key i = .ok q' →
    Weak q' ∧ ∀ e, Holds q' e ↔ Holds q e := by
  intro i
  induction i using Nat.strong_induction_on with
  | _ i ih =>
    intro q q' hw h
    rw [PQ.percolateUp] at h
    split_ifs at h with h1 h2 h3
    · cases h; exact ⟨hw, fun _ => Iff.rfl⟩
    · have hp := parent_lt (i := i) (by omega)
      have hi : i < q.size := by omega
      obtain ⟨h4, h5⟩ := ih (parent i) hp _ q' (weak_swap (by omega) hi (by omega) hw) h
      exact ⟨h4, fun e => (h5 e).trans (swap_holds (by omega) hi (by omega) e)⟩
    · cases h; exact ⟨hw, fun _ => Iff.rfl⟩

theorem weak_down (key : E → K) : ∀ (n i : Nat) (q : PQ E), q.size - i = n → Weak q →
    Weak (q.percolateDown key i) ∧ ∀ e, Holds (q.percolateDown key i) e ↔ Holds q e := by
  intro n
  induction n using Nat.strong_induction_on with
  | _ n ih =>
    intro i q hn hw
    rw [PQ.percolateDown]
    split_ifs with h1 h2
    · have hc : i < q.child key i ∧ q.child key i < q.size := by unfold PQ.child; split_ifs <;> omega
      have hw' := weak_swap (i := q.child key i) (j := i) (by omega) hc.2 (by omega) hw
      obtain ⟨h4, h5⟩ := ih (q.size - q.child key i) (by omega) (q.child key i) (q.swap (q.child key i) i) rfl hw'
      exact ⟨h4, fun e => (h5 e).trans (swap_holds (i := q.child key i) (j := i) (by omega) hc.2 (by omega) e)⟩
    · exact ⟨hw, fun _ => Iff.rfl⟩
    · exact ⟨hw, fun _ => Iff.rfl⟩

theorem weak_push {key : E → K} {q q' : PQ E} {e : E} (hw : Weak q) (h : q.push key e = .ok q') :
    Weak q' ∧ ∀ x, Holds q' x ↔ x = e ∨ Holds q x := by
  unfold PQ.push at h
  split_ifs at h with h1
  have hne : ∀ k, k < q.size → q.heap k ≠ e := fun k hk he => h1 ((hw.mem e).1 ⟨k, hk, he⟩)
  have hh : ∀ x, Holds (⟨Function.update q.heap q.size e, q.size + 1, Function.update q.back e (some q.size)⟩ : PQ E) x ↔
      x = e ∨ Holds q x := by
    intro x
    constructor
    · rintro ⟨k, hk, rfl⟩
      by_cases hc : k = q.size
      · subst hc; left; exact Function.update_self ..
      · right
        refine ⟨k, by have : k < q.size + 1 := hk; omega, ?_⟩
        exact (Function.update_of_ne hc ..).symm
    · rintro (rfl | ⟨k, hk, rfl⟩)
      · exact ⟨q.size, Nat.lt_succ_self _, Function.update_self ..⟩
      · exact ⟨k, Nat.lt_succ_of_lt hk, Function.update_of_ne (by omega) ..⟩
  suffices hq : Weak (⟨Function.update q.heap q.size e, q.size + 1, Function.update q.back e (some q.size)⟩ : PQ E) by
    obtain ⟨h4, h5⟩ := weak_up key _ _ q' hq h
    exact ⟨h4, fun x => (h5 x).trans (hh x)⟩
  refine ⟨?_, ?_⟩
  · intro i k hi hk he
    have hi' : i < q.size + 1 := hi
    have hk' : k < q.size + 1 := hk
    simp only [Function.update_apply] at he
    split_ifs at he with c1 c2 c2
    · omega
    · exact absurd he.symm (hne k (by omega))
    · exact absurd he (hne i (by omega))
    · exact hw.inj i k (by omega) (by omega) he
  · intro x
    rw [hh]
    show _ ↔ (Function.update q.back e (some q.size) x).isSome
    rw [Function.update_apply]
    split_ifs with c
    · simp [c]
    · simp [c, hw.mem]

theorem weak_update {key : E → K} {q q' : PQ E} {e : E} (hw : Weak q) (h : q.updatePosition key e = .ok q') :
    Weak q' ∧ ∀ x, Holds q' x ↔ Holds q x := by
  unfold PQ.updatePosition at h
  cases hb : q.back e with
  | none => rw [hb] at h; cases h
  | some i =>
    rw [hb] at h
    obtain ⟨q1, h1, h⟩ := bind_ok h
    obtain ⟨h2, h3⟩ := weak_up key _ _ _ hw h1
    cases hb' : q1.back e with
    | none => rw [hb'] at h; cases h
    | some i =>
      rw [hb'] at h
      cases h
      obtain ⟨h4, h5⟩ := weak_down key _ i q1 rfl h2
      exact ⟨h4, fun x => (h5 x).trans (h3 x)⟩

theorem weak_pop {key : E → K} {q q' : PQ E} (hw : Weak q) (h : q.pop key = .ok q') :
    Weak q' ∧ ∀ x, Holds q' x ↔ Holds q x ∧ x ≠ q.heap 0 := by
  unfold PQ.pop at h
  split_ifs at h with h1 h2
  have hv : ∀ k, Function.update q.heap 0 (q.heap (q.size - 1)) k = q.heap (if k = 0 then q.size - 1 else k) := by
    intro k; rw [Function.update_apply]; split_ifs <;> rfl
  have hh : ∀ x, Holds (⟨Function.update q.heap 0 (q.heap (q.size - 1)), q.size - 1, Function.update q.back (q.heap 0) none⟩ : PQ E) x ↔
      Holds q x ∧ x ≠ q.heap 0 := by
    intro x
    constructor
    · rintro ⟨k, hk, rfl⟩
      have hk' : k < q.size - 1 := hk
      show Holds q (Function.update q.heap 0 (q.heap (q.size - 1)) k) ∧ Function.update q.heap 0 (q.heap (q.size - 1)) k ≠ q.heap 0
      rw [hv]
      refine ⟨⟨_, by split_ifs <;> omega, rfl⟩, fun he => ?_⟩
      have := hw.inj _ _ (by split_ifs <;> omega) (by omega) he
      split_ifs at this <;> omega
    · rintro ⟨⟨k, hk, rfl⟩, hne⟩
      have hk0 : k ≠ 0 := fun e => hne (by rw [e])
      by_cases hc : k = q.size - 1
      · refine ⟨0, by show 0 < q.size - 1; omega, ?_⟩
        show Function.update q.heap 0 (q.heap (q.size - 1)) 0 = _
        rw [hv, if_pos rfl, hc]
      · refine ⟨k, by show k < q.size - 1; omega, ?_⟩
        show Function.update q.heap 0 (q.heap (q.size - 1)) k = _
        rw [hv, if_neg hk0]
  cases h
  suffices hq : Weak (⟨Function.update q.heap 0 (q.heap (q.size - 1)), q.size - 1, Function.update q.back (q.heap 0) none⟩ : PQ E) by
    obtain ⟨h4, h5⟩ := weak_down key _ 0 _ rfl hq
    exact ⟨h4, fun x => (h5 x).trans (hh x)⟩
  refine ⟨?_, ?_⟩
  · intro i k hi hk he
    have hi' : i < q.size - 1 := hi
    have hk' : k < q.size - 1 := hk
    have he' : Function.update q.heap 0 (q.heap (q.size - 1)) i = Function.update q.heap 0 (q.heap (q.size - 1)) k := he
    rw [hv, hv] at he'
    have := hw.inj _ _ (by split_ifs <;> omega) (by split_ifs <;> omega) he'
    split_ifs at this <;> omega
  · intro x
    rw [hh]
    show _ ↔ (Function.update q.back (q.heap 0) none x).isSome
    rw [Function.update_apply]
    split_ifs with c
    · simp [c]
    · simp [c, hw.mem]

end

/-! ## One step of the wave -/

/-- What every part of the wave does: voxels only get closer and keep their place; those that change are in the queue, as those that were. -/
structure Step (s t : State) : Prop where
  x : ∀ e, (t.data e).x = (s.data e).x
  le : ∀ e, (t.data e).value ≤ (s.data e).value
  held : ∀ e, Holds s.queue e → Holds t.queue e
  changed : ∀ e, (t.data e).value < (s.data e).value → Holds t.queue e
  weak : Weak t.queue

theorem Step.refl {s : State} (h : Weak s.queue) : Step s s :=
  ⟨fun _ => rfl, fun _ => le_refl _, fun _ h => h, fun e h => absurd h (lt_irrefl _), h⟩

theorem Step.trans {s t u : State} (a : Step s t) (b : Step t u) : Step s u where
  x e := (b.x e).trans (a.x e)
  le e := (b.le e).trans (a.le e)
  held e h := b.held e (a.held e h)
  changed e h := by
    by_cases hc : (u.data e).value < (t.data e).value
    · exact b.changed e hc
    · exact b.held e (a.changed e (by omega))
  weak := b.weak

section
variable {g : Shape} {pos : Nat → Int} {core id : Int} {fuel : Nat}

theorem visit_step {p : Nat → Int} {s t : State} (hw : Weak s.queue) (h : visit g pos core id p s = .ok t) :
    Step s t ∧ (t.data (g.atVec .serial p)).value ≤ core + ∑ d ∈ Finset.range g.dim, (p d - pos d) * (p d - pos d) := by
  unfold visit radiussq at h
  obtain ⟨r, hr, h⟩ := bind_ok h
  dsimp only at hr
  split_ifs at hr with hr'
  cases hr
  split_ifs at h with h1
  dsimp only at h
  obtain ⟨v, hv, h⟩ := bind_ok h
  have : v = s.data (g.atVec .serial p) := by
    unfold deref at hv; split_ifs at hv; cases hv; rfl
  subst this
  by_cases h2 : (s.data (g.atVec .serial p)).value > core + ∑ d ∈ Finset.range g.dim, (p d - pos d) * (p d - pos d)
  · rw [if_pos h2] at h
    obtain ⟨q, hq, h⟩ := bind_ok h
    cases h
    have hq' : Weak q ∧ Holds q (g.atVec .serial p) ∧ ∀ e, Holds s.queue e → Holds q e := by
      split_ifs at hq with h3
      · obtain ⟨h4, h5⟩ := weak_update hw hq
        exact ⟨h4, (h5 _).2 ((hw.mem _).2 h3), fun e h => (h5 e).2 h⟩
      · obtain ⟨h4, h5⟩ := weak_push hw hq
        exact ⟨h4, (h5 _).2 (.inl rfl), fun e h => (h5 e).2 (.inr h)⟩
    refine ⟨⟨fun e => ?_, fun e => ?_, hq'.2.2, fun e hc => ?_, hq'.1⟩, ?_⟩
    · show (Function.update s.data _ _ e).x = _
      rw [Function.update_apply]; split_ifs with c
      · rw [c]
      · rfl
    · show (Function.update s.data _ _ e).value ≤ _
      rw [Function.update_apply]; split_ifs with c
      · rw [c]; exact le_of_lt h2
      · exact le_refl _
    · have hc' : (Function.update s.data (g.atVec .serial p)
          { s.data (g.atVec .serial p) with value := core + ∑ d ∈ Finset.range g.dim, (p d - pos d) * (p d - pos d), id := id } e).value <
          (s.data e).value := hc
      rw [Function.update_apply] at hc'
      split_ifs at hc' with c
      · rw [c]; exact hq'.2.1
      · exact absurd hc' (lt_irrefl _)
    · show (Function.update s.data _ _ _).value ≤ _
      rw [Function.update_self]
  · rw [if_neg h2] at h
    cases h
    exact ⟨Step.refl hw, by omega⟩

theorem body_step {a a' : (Nat → Int) × State} (hw : Weak a.2.queue) (h : body g pos core id a = .ok a') : Step a.2 a'.2 := by
  unfold body at h
  by_cases h1 : ((List.range g.dim).all fun d => a.1 d == pos d) = true
  · rw [if_pos h1] at h
    cases h; exact Step.refl hw
  · rw [if_neg h1] at h
    dsimp only at h
    split_ifs at h
    · cases h; exact Step.refl hw
    · obtain ⟨st, e1, e⟩ := bind_ok h
      cases e; exact (visit_step hw e1).1

/-- A body away from the voxel, with all coordinates in the grid after `check_boundary`, brings that voxel at most this close. -/
theorem body_visits {a a' : (Nat → Int) × State} (hw : Weak a.2.queue) (h : body g pos core id a = .ok a')
    (hne : ∃ d, d < g.dim ∧ a.1 d ≠ pos d) (hin : g.IsNode (checked g a.1)) :
    (a'.2.data (g.atVec .serial (checked g a.1))).value ≤
      core + ∑ d ∈ Finset.range g.dim, (checked g a.1 d - pos d) * (checked g a.1 d - pos d) := by
  unfold body at h
  have h1 : ¬ ((List.range g.dim).all fun d => a.1 d == pos d) = true := by
    obtain ⟨d, hd, hd'⟩ := hne
    intro hall
    exact hd' (beq_iff_eq.1 (List.all_eq_true.1 hall d (List.mem_range.2 hd)))
  rw [if_neg h1] at h
  dsimp only at h
  rw [if_neg] at h
  · obtain ⟨st, e1, e⟩ := bind_ok h
    cases e; exact (visit_step hw e1).2
  · intro hany
    obtain ⟨d, hd, hd'⟩ := List.any_eq_true.1 hany
    have := hin d (List.mem_range.1 hd)
    rcases (Bool.or_eq_true ..).mp hd' with hd' | hd'
    · have := of_decide_eq_true hd'; omega
    · have := of_decide_eq_true hd'; omega

/-- The loop over an axis, for whatever its inner loops do. -/
theorem loop_step {d : Nat} {test : (Nat → Int) × State → Bool} {f : (Nat → Int) × State → Outcome (Option ((Nat → Int) × State))}
    (hf : ∀ a a' : (Nat → Int) × State, Weak a.2.queue → f a = .ok (some a') → Step a.2 a'.2) {n : Nat} {a a' : (Nat → Int) × State}
    (hw : Weak a.2.queue)
    (h : whileLoop test (fun a => andThen (f a) fun a => .ok (some (bump a.1 d 1, a.2))) n a = .ok (some a')) : Step a.2 a'.2 := by
  refine (while_inv (fun b : (Nat → Int) × State => Step a.2 b.2) (fun b b' hq _ e => ?_) n a a' (Step.refl hw) h).1
  obtain ⟨c, e1, e2⟩ := andThen_some e
  cases e2
  exact hq.trans (hf b c hq.weak e1)

theorem scan_step : ∀ (k : Nat) (a a' : (Nat → Int) × State), Weak a.2.queue → scan g pos core id fuel k a = .ok (some a') → Step a.2 a'.2 := by
  intro k
  induction k with
  | zero =>
    intro a a' hw h
    rw [scan] at h
    obtain ⟨b, e, e'⟩ := bind_ok h
    cases e'
    exact body_step hw e
  | succ k ih =>
    intro a a' hw h
    rw [scan] at h
    exact loop_step ih (a := (Function.update a.1 _ _, a.2)) (by exact hw) h

theorem scan_first : ∀ (k : Nat), k ≤ g.dim → ∀ (a a' : (Nat → Int) × State), Weak a.2.queue → scan g pos core id fuel k a = .ok (some a') →
    ∃ b b' : (Nat → Int) × State, (∀ d, d < g.dim - k → b.1 d = a.1 d) ∧ (∀ d, g.dim - k ≤ d → d < g.dim → b.1 d = pos d - 1) ∧
      b.2 = a.2 ∧ body g pos core id b = .ok b' ∧ Step b'.2 a'.2 := by
  intro k
  induction k with
  | zero =>
    intro _ a a' hw h
    rw [scan] at h
    obtain ⟨b, e, e'⟩ := bind_ok h
    cases e'
    exact ⟨a, a', fun _ _ => rfl, fun d h1 h2 => by omega, rfl, e, Step.refl (body_step hw e).weak⟩
  | succ k ih =>
    intro hk a a' hw h
    have hs := scan_step (k + 1) a a' hw h
    rw [scan] at h
    obtain ⟨m, b, _, e1, e2⟩ := while_true (by
      show decide (Function.update a.1 (g.dim - (k + 1)) (pos (g.dim - (k + 1)) - 1) (g.dim - (k + 1)) < pos (g.dim - (k + 1)) + 2) = true
      rw [Function.update_self]
      exact decide_eq_true (by omega)) h
    obtain ⟨c, e3, e4⟩ := andThen_some e1
    cases e4
    obtain ⟨u, u', h1, h2, h3, h4, h5⟩ := ih (by omega) (Function.update a.1 _ _, a.2) c (by exact hw) e3
    have h6 := scan_step k (Function.update a.1 _ _, a.2) c (by exact hw) e3
    have h7 := loop_step (scan_step k) (a := (bump c.1 _ _, c.2)) (by exact h6.weak) e2
    refine ⟨u, u', fun d hd => ?_, fun d hd hd' => ?_, h3, h4, h5.trans h7⟩
    · rw [h1 d (by omega)]
      exact Function.update_of_ne (by omega) ..
    · by_cases hc : d = g.dim - (k + 1)
      · rw [h1 d (by omega), hc]
        exact Function.update_self ..
      · exact h2 d (by omega) hd'

theorem scan_keep {d : Nat} (hd : d < g.dim) {k : Nat} (hk : k ≤ g.dim) (hdk : d < g.dim - k) {a a' : (Nat → Int) × State}
    (h0 : g.x0 d ≤ a.1 d) (h1 : a.1 d < g.x1 d) (h : scan g pos core id fuel k a = .ok (some a')) : a'.1 d = a.1 d :=
  scan_outer (fun v => v = a.1 d) (fun v => v = a.1 d) (fun b b' hp e => by
    rcases body_coords e with ⟨_, h2⟩ | ⟨_, h2⟩
    · rw [h2]; exact hp
    · rw [h2, checked, if_pos hd, hp]
      exact checkBoundary_inside _ _ _ _ _ _ ⟨h0, h1⟩) (fun v h => h) k hk hdk a a' rfl h

/-- The body that goes one step up on the first axis. -/
theorem scan_up (hdim : 0 < g.dim) (h0 : g.x0 0 < pos 0) (h1 : pos 0 + 1 < g.x1 0) {a a' : (Nat → Int) × State} (hw : Weak a.2.queue)
    (h : scan g pos core id fuel g.dim a = .ok (some a')) :
    ∃ b b' : (Nat → Int) × State, b.1 0 = pos 0 + 1 ∧ (∀ d, 0 < d → d < g.dim → b.1 d = pos d - 1) ∧
      Step a.2 b.2 ∧ body g pos core id b = .ok b' ∧ Step b'.2 a'.2 := by
  obtain ⟨k, hk⟩ : ∃ k, g.dim = k + 1 := ⟨g.dim - 1, by omega⟩
  have hz : g.dim - (k + 1) = 0 := by omega
  rw [show scan g pos core id fuel g.dim a = scan g pos core id fuel (k + 1) a from by rw [hk], scan, hz] at h
  -- one round of the loop from first coordinate `v`
  have round : ∀ (n : Nat) (b : (Nat → Int) × State), Weak b.2.queue → g.x0 0 ≤ b.1 0 → b.1 0 < g.x1 0 → b.1 0 < pos 0 + 2 →
      whileLoop (fun a => decide (a.1 0 < pos 0 + 2)) (fun a => andThen (scan g pos core id fuel k a) fun a => .ok (some (bump a.1 0 1, a.2))) n b =
        .ok (some a') → ∃ m c, scan g pos core id fuel k b = .ok (some c) ∧ c.1 0 = b.1 0 ∧
      whileLoop (fun a => decide (a.1 0 < pos 0 + 2)) (fun a => andThen (scan g pos core id fuel k a) fun a => .ok (some (bump a.1 0 1, a.2))) m
        (bump c.1 0 1, c.2) = .ok (some a') := by
    intro n b hw hb0 hb1 hb2 hl
    obtain ⟨m, b', _, e1, e2⟩ := while_true (test := fun a : (Nat → Int) × State => decide (a.1 0 < pos 0 + 2)) (decide_eq_true hb2) hl
    obtain ⟨c, e3, e4⟩ := andThen_some e1
    cases e4
    exact ⟨m, c, e3, scan_keep hdim (by omega) (by omega) hb0 hb1 e3, e2⟩
  have rest : ∀ (n : Nat) (b : (Nat → Int) × State), Weak b.2.queue →
      whileLoop (fun a => decide (a.1 0 < pos 0 + 2)) (fun a => andThen (scan g pos core id fuel k a) fun a => .ok (some (bump a.1 0 1, a.2))) n b =
        .ok (some a') → Step b.2 a'.2 := by
    intro n b hw hl
    exact loop_step (scan_step k) hw hl
  have hb : ∀ (f : Nat → Int) (t : State), (bump f 0 1, t).1 0 = f 0 + 1 := fun f t => by show bump f 0 1 0 = _; rw [bump, Function.update_self]
  have hs : ∀ (v : Int) (t : State), (Function.update a.1 0 v, t).1 0 = v := fun v t => by show Function.update a.1 0 v 0 = v; rw [Function.update_self]
  obtain ⟨m1, c1, s1, k1, l1⟩ := round _ (Function.update a.1 _ _, _) (by exact hw) (by rw [hs]; omega) (by rw [hs]; omega) (by rw [hs]; omega) h
  have w1 := scan_step k _ _ (by exact hw) s1
  rw [hs] at k1
  obtain ⟨m2, c2, s2, k2, l2⟩ := round _ (bump c1.1 _ _, _) (by exact w1.weak) (by rw [hb]; omega) (by rw [hb]; omega) (by rw [hb]; omega) l1
  have w2 := scan_step k _ _ (by exact w1.weak) s2
  rw [hb] at k2
  obtain ⟨m3, c3, s3, k3, l3⟩ := round _ (bump c2.1 _ _, _) (by exact w2.weak) (by rw [hb]; omega) (by rw [hb]; omega) (by rw [hb]; omega) l2
  obtain ⟨u, u', h1, h2, h3, h4, h5⟩ := scan_first k (by omega) _ _ (by exact w2.weak) s3
  have w3 := scan_step k _ _ (by exact w2.weak) s3
  refine ⟨u, u', ?_, fun d hd hd' => h2 d (by omega) hd', ?_, h4, h5.trans (rest _ (bump c3.1 _ _, _) (by exact w3.weak) l3)⟩
  · rw [h1 0 (by omega), hb]; omega
  · rw [h3]; exact w1.trans w2

end

/-! ## The wave reaches an upper face -/

/-- The serial grid `approximate_voronoi` makes. -/
def box (dim : Nat) (x0 x1 : Nat → Int) : Shape := ⟨dim, x0, x1, fun _ => .periodic, fun _ => .periodic, 0⟩

/-- An upper limit of the distances that matter. -/
def farthest (g : Shape) : Int := g.dim * (g.x1 0 - g.x0 0) + ∑ d ∈ Finset.range g.dim, (g.x1 d - g.x0 d) * (g.x1 d - g.x0 d)

/-- A voxel whose distance is small for its first coordinate, or not large on an upper face. -/
def Ripe (g : Shape) (st : State) (e : Int) : Prop :=
  0 ≤ e ∧ e < g.nodes ∧ ((st.data e).value ≤ g.dim * (g.position e 0 - g.x0 0) ∨
    ((∃ d, d < g.dim ∧ g.position e d = g.x1 d - 1) ∧ (st.data e).value ≤ farthest g))

section
variable {g : Shape}

theorem Ripe.mono {s t : State} (h : Step s t) {e : Int} (hr : Ripe g s e) : Ripe g t e := by
  have := h.le e
  obtain ⟨h1, h2, h3⟩ := hr
  refine ⟨h1, h2, ?_⟩
  rcases h3 with h3 | ⟨h3, h4⟩
  · exact .inl (by omega)
  · exact .inr ⟨h3, by omega⟩

theorem Ripe.back {s t : State} (h : Step s t) {e : Int} (hr : Ripe g t e) : Ripe g s e ∨ Holds t.queue e := by
  by_cases hc : (t.data e).value < (s.data e).value
  · exact .inr (h.changed e hc)
  · have := h.le e
    have he : (t.data e).value = (s.data e).value := by omega
    unfold Ripe at hr ⊢
    rw [he] at hr
    exact .inl hr

/-- Every voxel knows its place. -/
def Sited (g : Shape) (st : State) : Prop := ∀ e, 0 ≤ e → e < g.nodes → (st.data e).x = g.position e

/-- Every ripe voxel is in the queue or was overtaken. -/
def Wave (g : Shape) (st : State) : Prop :=
  Weak st.queue ∧ Sited g st ∧ ∀ e, Ripe g st e → Holds st.queue e ∨ ∃ f, Ripe g st f ∧ g.position e 0 < g.position f 0

variable {dim : Nat} {x0 x1 : Nat → Int}

theorem box_serial (hdim : 0 < dim) (hs : ∀ d, d < dim → x0 d < x1 d) : Serial (box dim x0 x1) :=
  ⟨⟨hdim, hs, le_refl _⟩, rfl, fun _ _ => .inl ⟨rfl, rfl⟩⟩

theorem checked_down {d : Nat} (hd : d < dim) {p : Nat → Int} {v : Int} (h0 : x0 d ≤ v) (h1 : v < x1 d) (hp : p d = v - 1) :
    checked (box dim x0 x1) p d = if v = x0 d then x1 d - 1 else v - 1 := by
  rw [checked, if_pos (show d < (box dim x0 x1).dim from hd), hp]
  show checkBoundary .serial (v - 1) (x0 d) (x1 d) .periodic .periodic = _
  unfold checkBoundary
  split_ifs <;> simp_all <;> omega

theorem sq_le {a b : Int} (h0 : -b ≤ a) (h1 : a ≤ b) : a * a ≤ b * b := by nlinarith

/-- A completed propagation from a ripe voxel makes a voxel with larger first coordinate ripe. -/
theorem overtaken (hdim : 0 < dim) (hs : ∀ d, d < dim → x0 d < x1 d) {fuel : Nat} {e : Int} {s t : State} (hw : Weak s.queue)
    (hx : Sited (box dim x0 x1) s) (he : Ripe (box dim x0 x1) s e) (h : propagate (box dim x0 x1) fuel e s = .ok (some t)) :
    ∃ f, Ripe (box dim x0 x1) t f ∧ (box dim x0 x1).position e 0 < (box dim x0 x1).position f 0 := by
  have hS := box_serial hdim hs
  have hno : ∀ d, d < dim → (box dim x0 x1).position e d ≠ x1 d - 1 := by
    intro d hd hc
    refine propagate_hangs (g := box dim x0 x1) hd ⟨hs d hd, ?_, .inr ?_⟩ ?_ fuel t h
    · intro hc; cases hc
    · intro hc; cases hc
    · rw [hx e he.1 he.2.1]; exact hc
  have hv : (s.data e).value ≤ (dim : Int) * ((box dim x0 x1).position e 0 - x0 0) := by
    rcases he.2.2 with h | ⟨⟨d, hd, hd'⟩, _⟩
    · exact h
    · exact absurd hd' (hno d hd)
  have hpn := Shape.position_isNode hS.wf he.1 he.2.1
  unfold propagate at h
  obtain ⟨v, e1, h⟩ := bind_ok h
  have : v = s.data e := by unfold deref at e1; split_ifs at e1; cases e1; rfl
  subst this
  obtain ⟨v, e2, h⟩ := bind_ok h
  have : v = s.data e := by
    rw [hx e he.1 he.2.1, ← Shape.atNode_eq_atVec hS.wf .serial (fun _ => rfl) he.1 he.2.1] at e2
    unfold deref at e2; split_ifs at e2; cases e2; rfl
  subst this
  obtain ⟨a', hscan, h'⟩ := andThen_some h
  cases h'
  clear h
  rw [hx e he.1 he.2.1] at hscan
  generalize hpos : (box dim x0 x1).position e = pos at *
  have hpn' : ∀ d, d < dim → x0 d ≤ pos d ∧ pos d < x1 d := hpn
  -- the visited voxel
  obtain ⟨b, b', hb0, hb, s1, hbody, s2⟩ : ∃ b b' : (Nat → Int) × State, (b.1 0 = if pos 0 = x0 0 then pos 0 - 1 else pos 0 + 1) ∧
      (∀ d, 0 < d → d < dim → b.1 d = pos d - 1) ∧ Step s b.2 ∧ body (box dim x0 x1) pos (s.data e).value (s.data e).id b = .ok b' ∧ Step b'.2 a'.2 := by
    by_cases hc : pos 0 = x0 0
    · obtain ⟨b, b', h1, h2, h3, h4, h5⟩ := scan_first _ (le_refl _) _ _ (by exact hw) hscan
      refine ⟨b, b', ?_, fun d hd hd' => h2 d (by omega) hd', ?_, h4, h5⟩
      · rw [if_pos hc]; exact h2 0 (by omega) hdim
      · rw [h3]; exact Step.refl hw
    · have := hpn' 0 hdim
      have := hno 0 hdim
      obtain ⟨b, b', h1, h2, h3, h4, h5⟩ := scan_up (g := box dim x0 x1) hdim (by show x0 0 < pos 0; omega) (by show pos 0 + 1 < x1 0; omega) (by exact hw) hscan
      exact ⟨b, b', by rw [if_neg hc]; exact h1, fun d hd hd' => h2 d hd hd', h3, h4, h5⟩
  generalize hp : checked (box dim x0 x1) b.1 = p
  have hp0 : p 0 = if pos 0 = x0 0 then x1 0 - 1 else pos 0 + 1 := by
    have h1 := hpn' 0 hdim
    have h2 := hno 0 hdim
    by_cases hc : pos 0 = x0 0
    · rw [if_pos hc] at hb0 ⊢
      rw [← hp, checked_down hdim h1.1 h1.2 hb0, if_pos hc]
    · rw [if_neg hc] at hb0 ⊢
      rw [← hp, checked, if_pos (show 0 < (box dim x0 x1).dim from hdim), hb0]
      exact checkBoundary_inside _ _ _ _ _ _ ⟨by show x0 0 ≤ pos 0 + 1; omega, by show pos 0 + 1 < x1 0; omega⟩
  have hpd : ∀ d, 0 < d → d < dim → p d = if pos d = x0 d then x1 d - 1 else pos d - 1 := fun d hd hd' => by
    have h1 := hpn' d hd'
    rw [← hp, checked_down hd' h1.1 h1.2 (hb d hd hd')]
  have hin : (box dim x0 x1).IsNode p := by
    intro d hd
    show x0 d ≤ p d ∧ p d < x1 d
    have h1 := hpn' d hd
    have h2 := hno d hd
    have h3 := hs d hd
    rcases Nat.eq_zero_or_pos d with rfl | hd0
    · rw [hp0]; split_ifs <;> omega
    · rw [hpd d hd0 hd]; split_ifs <;> omega
  have hne : b.1 0 ≠ pos 0 := by rw [hb0]; split_ifs <;> omega
  have hvis := body_visits s1.weak hbody ⟨0, hdim, hne⟩ (by rw [hp]; exact hin)
  rw [hp] at hvis
  have hraw : (box dim x0 x1).atVec .serial p = (box dim x0 x1).rawOffset p :=
    Shape.atVec_eq_raw .serial fun j hj => checkBoundary_inside _ _ _ _ _ _ (hin j hj)
  rw [hraw] at hvis
  obtain ⟨f0, f1, f2⟩ := position_rawOffset hS hin
  have hle := s2.le ((box dim x0 x1).rawOffset p)
  have hfar : p 0 > pos 0 := by
    have := hno 0 hdim
    have := hpn' 0 hdim
    rw [hp0]; split_ifs <;> omega
  refine ⟨(box dim x0 x1).rawOffset p, ⟨f0, f1, ?_⟩, by rw [f2 0 hdim]; exact hfar⟩
  by_cases hwrap : ∃ d, d < dim ∧ pos d = x0 d
  · obtain ⟨d, hd, hd'⟩ := hwrap
    right
    refine ⟨⟨d, hd, ?_⟩, ?_⟩
    · rw [f2 d hd]
      rcases Nat.eq_zero_or_pos d with rfl | hd0
      · rw [hp0, if_pos hd']; rfl
      · rw [hpd d hd0 hd, if_pos hd']; rfl
    · have hsum : ∑ d ∈ Finset.range dim, (p d - pos d) * (p d - pos d) ≤ ∑ d ∈ Finset.range dim, (x1 d - x0 d) * (x1 d - x0 d) := by
        apply Finset.sum_le_sum
        intro d hd
        have h1 := hpn' d (Finset.mem_range.1 hd)
        have h2 : x0 d ≤ p d ∧ p d < x1 d := hin d (Finset.mem_range.1 hd)
        exact sq_le (by omega) (by omega)
      have hmul : (dim : Int) * (pos 0 - x0 0) ≤ (dim : Int) * (x1 0 - x0 0) := by
        have := hpn' 0 hdim
        exact mul_le_mul_of_nonneg_left (by omega) (by omega)
      show _ ≤ (dim : Int) * (x1 0 - x0 0) + ∑ d ∈ Finset.range dim, (x1 d - x0 d) * (x1 d - x0 d)
      have hvis' : (b'.2.data ((box dim x0 x1).rawOffset p)).value ≤ (s.data e).value + ∑ d ∈ Finset.range dim, (p d - pos d) * (p d - pos d) := hvis
      have hv' : (s.data e).value ≤ (dim : Int) * (pos 0 - x0 0) := hv
      omega
  · left
    have hnw : ∀ d, d < dim → pos d ≠ x0 d := fun d hd hc => hwrap ⟨d, hd, hc⟩
    have hsum : ∑ d ∈ Finset.range dim, (p d - pos d) * (p d - pos d) ≤ ∑ d ∈ Finset.range dim, (1 : Int) := by
      apply Finset.sum_le_sum
      intro d hd
      have hd := Finset.mem_range.1 hd
      have h3 := hnw d hd
      rcases Nat.eq_zero_or_pos d with rfl | hd0
      · rw [hp0, if_neg h3]
        exact le_of_eq (by ring)
      · rw [hpd d hd0 hd, if_neg h3]
        exact le_of_eq (by ring)
    rw [Finset.sum_const, Finset.card_range, nsmul_eq_mul, mul_one] at hsum
    rw [f2 0 hdim, hp0, if_neg (hnw 0 hdim)]
    have hvis' : (b'.2.data ((box dim x0 x1).rawOffset p)).value ≤ (s.data e).value + ∑ d ∈ Finset.range dim, (p d - pos d) * (p d - pos d) := hvis
    have hv' : (s.data e).value ≤ (dim : Int) * (pos 0 - x0 0) := hv
    show _ ≤ (dim : Int) * (pos 0 + 1 - x0 0)
    have : (dim : Int) * (pos 0 + 1 - x0 0) = (dim : Int) * (pos 0 - x0 0) + dim := by ring
    omega

theorem propagate_step {fuel : Nat} {e : Int} {s t : State} (hw : Weak s.queue) (h : propagate g fuel e s = .ok (some t)) : Step s t := by
  unfold propagate at h
  obtain ⟨v, _, h⟩ := bind_ok h
  obtain ⟨v', _, h⟩ := bind_ok h
  obtain ⟨a, h1, h'⟩ := andThen_some h
  cases h'
  exact scan_step _ _ _ (by exact hw) h1

/-- The wave goes on, `e0` being the voxel just propagated. -/
theorem wave_step {s t : State} {e0 : Int} (hx : Sited g s)
    (hr : ∀ e, e ≠ e0 → Ripe g s e → Holds s.queue e ∨ ∃ f, Ripe g s f ∧ g.position e 0 < g.position f 0) (hst : Step s t)
    (ho : Ripe g s e0 → ∃ f, Ripe g t f ∧ g.position e0 0 < g.position f 0) : Wave g t := by
  refine ⟨hst.weak, fun e h0 h1 => (hst.x e).trans (hx e h0 h1), fun e he => ?_⟩
  rcases he.back hst with h | h
  · by_cases hc : e = e0
    · subst hc; exact .inr (ho h)
    · rcases hr e hc h with h | ⟨f, h1, h2⟩
      · exact .inl (hst.held e h)
      · exact .inr ⟨f, h1.mono hst, h2⟩
  · exact .inl h

/-- With an empty queue no voxel is ripe. -/
theorem wave_empty {s : State} (hwf : g.Wf) (hw : Wave g s) (h0 : s.queue.size = 0) (e : Int) : ¬ Ripe g s e := by
  have : ∀ (n : Nat) (e : Int), (g.x1 0 - g.position e 0).toNat = n → ¬ Ripe g s e := by
    intro n
    induction n using Nat.strong_induction_on with
    | _ n ih =>
      intro e hn hr
      rcases hw.2.2 e hr with ⟨k, hk, _⟩ | ⟨f, hf, hlt⟩
      · omega
      · have h2 := Shape.position_isNode hwf hf.1 hf.2.1 0 hwf.dim_pos
        exact ih _ (by omega) f rfl hf
  exact this _ e rfl

theorem march_never (hdim : 0 < dim) (hs : ∀ d, d < dim → x0 d < x1 d) {s : State} (hw : Wave (box dim x0 x1) s)
    (hr : ∃ e, Ripe (box dim x0 x1) s e) (fuel : Nat) (t : State) : march (box dim x0 x1) fuel s ≠ .ok (some t) := by
  intro h
  have hS := box_serial hdim hs
  unfold march at h
  have := while_inv (fun s => Wave (box dim x0 x1) s ∧ ∃ e, Ripe (box dim x0 x1) s e) (fun s t hi ht h => by
    obtain ⟨e, h1, h⟩ := bind_ok h
    obtain ⟨q, h2, h⟩ := bind_ok h
    have he : e = s.queue.heap 0 := by
      unfold PQ.top at h1; split_ifs at h1; cases h1; rfl
    obtain ⟨h3, h4⟩ := weak_pop hi.1.1 h2
    have hst := propagate_step (s := ⟨s.data, q⟩) h3 h
    have hsame : ∀ x, Ripe (box dim x0 x1) ⟨s.data, q⟩ x ↔ Ripe (box dim x0 x1) s x := fun x => Iff.rfl
    refine ⟨wave_step (s := ⟨s.data, q⟩) (e0 := e) hi.1.2.1 (fun x hx hr => ?_) hst (fun hr => ?_), ?_⟩
    · rcases hi.1.2.2 x hr with hh | hh
      · exact .inl ((h4 x).2 ⟨hh, by rw [← he]; exact hx⟩)
      · exact .inr hh
    · exact overtaken hdim hs (s := ⟨s.data, q⟩) h3 hi.1.2.1 hr h
    · obtain ⟨x, hx⟩ := hi.2
      exact ⟨x, ((hsame x).2 hx).mono hst⟩) fuel s t ⟨hw, hr⟩ h
  obtain ⟨⟨h1, e, h2⟩, h3⟩ := this
  have : ¬ t.queue.size ≠ 0 := of_decide_eq_false h3
  exact wave_empty hS.wf h1 (by omega) e h2

theorem seedLoop_wave (hdim : 0 < dim) (hs : ∀ d, d < dim → x0 d < x1 d) {fuel : Nat} : ∀ (ss : List Seed) (i : Nat) (s t : State),
    Wave (box dim x0 x1) s → seedLoop (box dim x0 x1) fuel i ss s = .ok (some t) →
    Wave (box dim x0 x1) t ∧ ((∃ e, Ripe (box dim x0 x1) s e) ∨ ss ≠ [] → ∃ e, Ripe (box dim x0 x1) t e) := by
  intro ss
  induction ss with
  | nil =>
    intro i s t hw h
    cases h
    exact ⟨hw, fun h => h.elim id fun h => absurd rfl h⟩
  | cons a ss ih =>
    intro i s t hw h
    have hS := box_serial hdim hs
    rw [seedLoop] at h
    split_ifs at h with h1
    dsimp only at h
    obtain ⟨v, h2, h⟩ := bind_ok h
    obtain ⟨u, h3, hrest⟩ := andThen_some h
    have hin : (box dim x0 x1).IsNode a.at := by
      intro d hd
      by_contra hc
      exact h1 (List.any_eq_true.2 ⟨d, List.mem_range.2 hd, by
        show (decide (a.at d ≥ (box dim x0 x1).x1 d) || decide (a.at d < (box dim x0 x1).x0 d)) = true
        rw [Bool.or_eq_true, decide_eq_true_iff, decide_eq_true_iff]; omega⟩)
    have hraw : (box dim x0 x1).atVec .serial a.at = (box dim x0 x1).rawOffset a.at :=
      Shape.atVec_eq_raw .serial fun j hj => checkBoundary_inside _ _ _ _ _ _ (hin j hj)
    obtain ⟨f0, f1, f2⟩ := position_rawOffset hS hin
    rw [hraw] at h2 h3
    have hv : v = s.data ((box dim x0 x1).rawOffset a.at) := by unfold deref at h2; split_ifs at h2; cases h2; rfl
    subst hv
    generalize (box dim x0 x1).rawOffset a.at = e at *
    generalize hs' : (⟨Function.update s.data e { s.data e with value := 0, id := (i : Int) }, s.queue⟩ : State) = s' at h3
    have hq : s'.queue = s.queue := by rw [← hs']
    have hd : ∀ x, x ≠ e → s'.data x = s.data x := fun x hx => by rw [← hs']; exact Function.update_of_ne hx ..
    have he : (s'.data e).value = 0 ∧ (s'.data e).x = (s.data e).x := by
      rw [← hs']
      constructor
      · show (Function.update s.data e _ e).value = 0
        rw [Function.update_self]
      · show (Function.update s.data e _ e).x = _
        rw [Function.update_self]
    have hx' : Sited (box dim x0 x1) s' := by
      intro x hx0 hx1
      by_cases hc : x = e
      · subst hc; rw [he.2]; exact hw.2.1 x hx0 hx1
      · rw [hd x hc]; exact hw.2.1 x hx0 hx1
    have hripe : Ripe (box dim x0 x1) s' e := by
      refine ⟨f0, f1, .inl ?_⟩
      rw [he.1]
      have := Shape.position_isNode hS.wf f0 f1 0 hdim
      exact mul_nonneg (by omega) (by omega)
    have hmono : ∀ x, Ripe (box dim x0 x1) s x → Ripe (box dim x0 x1) s' x := by
      intro x hx
      by_cases hc : x = e
      · subst hc; exact hripe
      · unfold Ripe at hx ⊢; rw [hd x hc]; exact hx
    have hw' : Weak s'.queue := by rw [hq]; exact hw.1
    have hst := propagate_step hw' h3
    have hu : Wave (box dim x0 x1) u := by
      refine wave_step (e0 := e) hx' (fun x hx hr => ?_) hst (fun hr => overtaken hdim hs hw' hx' hr h3)
      have hr' : Ripe (box dim x0 x1) s x := by unfold Ripe at hr ⊢; rw [hd x hx] at hr; exact hr
      rcases hw.2.2 x hr' with hh | ⟨f, hf, hlt⟩
      · left; rw [hq]; exact hh
      · exact .inr ⟨f, hmono f hf, hlt⟩
    obtain ⟨h5, h6⟩ := ih (i + 1) u t hu hrest
    exact ⟨h5, fun _ => h6 (.inl ⟨e, hripe.mono hst⟩)⟩

/-- **C34, negative.** In a serial build `approximate_voronoi` does not return for any non-empty list of seeds, on any grid with two or
three axes (on which squared distances are safely below `INT_MAX`), however long it runs. -/
theorem approximate_never_finishes (hdim : dim = 2 ∨ dim = 3) (hs : ∀ d, d < dim → x0 d < x1 d)
    (hsmall : dim * (x1 0 - x0 0) + ∑ d ∈ Finset.range dim, (x1 d - x0 d) * (x1 d - x0 d) < 2 ^ 31 - 1)
    {seeds : List Seed} (hne : seeds ≠ []) (fuel : Nat) (t : State) :
    approximateVoronoi dim x0 x1 seeds fuel ≠ .ok (some t) := by
  intro h
  have hd : 0 < dim := by omega
  have hS := box_serial hd hs
  unfold approximateVoronoi at h
  rw [if_pos hdim] at h
  obtain ⟨s, h1, h⟩ := andThen_some h
  obtain ⟨s', h2, _⟩ := andThen_some h
  have hw : Wave (box dim x0 x1) (initial (box dim x0 x1)) := by
    refine ⟨⟨fun i k hi => absurd hi (Nat.not_lt_zero _), fun e => ⟨fun ⟨k, hk, _⟩ => absurd hk (Nat.not_lt_zero _), fun h => by cases h⟩⟩,
      fun e _ _ => rfl, fun e he => ?_⟩
    exfalso
    have hpos : x0 0 ≤ (box dim x0 x1).position e 0 ∧ (box dim x0 x1).position e 0 < x1 0 := Shape.position_isNode hS.wf he.1 he.2.1 0 hd
    have hsq : 0 ≤ ∑ d ∈ Finset.range dim, (x1 d - x0 d) * (x1 d - x0 d) := Finset.sum_nonneg fun d _ => mul_self_nonneg _
    rcases he.2.2 with h | ⟨_, h⟩
    · have h' : (2 ^ 31 - 1 : Int) ≤ (dim : Int) * ((box dim x0 x1).position e 0 - x0 0) := h
      have hmul : (dim : Int) * ((box dim x0 x1).position e 0 - x0 0) ≤ (dim : Int) * (x1 0 - x0 0) :=
        mul_le_mul_of_nonneg_left (by omega) (by omega)
      omega
    · have h' : (2 ^ 31 - 1 : Int) ≤ (dim : Int) * (x1 0 - x0 0) + ∑ d ∈ Finset.range dim, (x1 d - x0 d) * (x1 d - x0 d) := h
      omega
  obtain ⟨h3, h4⟩ := seedLoop_wave hd hs seeds 0 _ s hw h1
  exact march_never hd hs h3 (h4 (.inr hne)) fuel s' h2

example : ∀ fuel t, approximateVoronoi 2 (fun _ => 0) (fun _ => 5) [⟨2, 2, 0⟩] fuel ≠ .ok (some t) :=
  approximate_never_finishes (.inl rfl) (fun _ _ => by norm_num) (by simp) (by simp)

/-- Without seeds it returns. -/
theorem approximate_no_seeds (hdim : dim = 2 ∨ dim = 3) (fuel : Nat) :
    approximateVoronoi dim x0 x1 [] fuel = .ok (some (initial (box dim x0 x1))) := by
  unfold approximateVoronoi
  rw [if_pos hdim]
  show andThen (.ok (some (initial (box dim x0 x1)))) _ = _
  have hm : march (box dim x0 x1) fuel (initial (box dim x0 x1)) = .ok (some (initial (box dim x0 x1))) := while_false rfl
  show andThen (march (box dim x0 x1) fuel (initial (box dim x0 x1))) (fun st => march (box dim x0 x1) fuel st) = _
  rw [hm]; exact hm

end
end MMSP.Tessellate
