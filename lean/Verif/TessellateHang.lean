import Verif.TessellateProps
import Verif.PriorityQueueProps
import Mathlib.Algebra.Order.BigOperators.Group.Finset
/-!
# Fast marching does not end

`propagate_distance` lets `check_boundary` change its own loop variables. For a voxel on the upper face of an axis the loop
variable is thrown back each time before it reaches its bound.
-/

namespace MMSP.Tessellate

open MMSP.Stencil MMSP.PriorityQueue

/-! ## Loops -/

section
variable {α : Type} {test : α → Bool} {f : α → Outcome (Option α)}

theorem while_true {n : Nat} {a b : α} (ht : test a = true) (h : whileLoop test f n a = .ok (some b)) :
    ∃ m a', n = m + 1 ∧ f a = .ok (some a') ∧ whileLoop test f m a' = .ok (some b) := by
  cases n with
  | zero => rw [whileLoop, if_pos ht] at h; cases h
  | succ n =>
    rw [whileLoop, if_pos ht] at h
    cases hf : f a with
    | ub => rw [hf] at h; cases h
    | abort c => rw [hf] at h; cases h
    | ok r =>
      rw [hf] at h
      cases r with
      | none => cases h
      | some a' => exact ⟨n, a', rfl, rfl, h⟩

theorem while_false {n : Nat} {a : α} (ht : test a = false) : whileLoop test f n a = .ok (some a) := by
  cases n <;> simp [whileLoop, ht]

/-- An invariant that forces the test to be true keeps the loop from ending. -/
theorem while_never (Inv : α → Prop) (ht : ∀ a, Inv a → test a = true) (hs : ∀ a a', Inv a → f a = .ok (some a') → Inv a') :
    ∀ (n : Nat) (a b : α), Inv a → whileLoop test f n a ≠ .ok (some b) := by
  intro n
  induction n with
  | zero => intro a b hi h; rw [whileLoop, if_pos (ht a hi)] at h; cases h
  | succ n ih =>
    intro a b hi h
    obtain ⟨m, a', e, e1, e2⟩ := while_true (ht a hi) h
    cases e
    exact ih a' b (hs a a' hi e1) e2

/-- Invariants. -/
theorem while_inv (Inv : α → Prop) (hs : ∀ a a', Inv a → test a = true → f a = .ok (some a') → Inv a') :
    ∀ (n : Nat) (a b : α), Inv a → whileLoop test f n a = .ok (some b) → Inv b ∧ test b = false := by
  intro n
  induction n with
  | zero =>
    intro a b hi h
    cases ht : test a with
    | true => rw [whileLoop, if_pos ht] at h; cases h
    | false => rw [while_false ht] at h; cases h; exact ⟨hi, ht⟩
  | succ n ih =>
    intro a b hi h
    cases ht : test a with
    | true =>
      obtain ⟨m, a', e, e1, e2⟩ := while_true ht h
      cases e
      exact ih a' b (hs a a' hi ht e1) e2
    | false => rw [while_false ht] at h; cases h; exact ⟨hi, ht⟩

/-- A loop with a counter that grows by one at least. -/
theorem while_returns (Inv : α → Prop) (φ : α → Int) (top : Int) (ht : ∀ a, test a = true → φ a < top)
    (hs : ∀ a a', Inv a → test a = true → f a = .ok (some a') → Inv a' ∧ φ a + 1 ≤ φ a')
    (hn : ∀ a, Inv a → test a = true → f a ≠ .ok none) :
    ∀ (n : Nat) (a : α), Inv a → top - φ a ≤ n → whileLoop test f n a ≠ .ok none := by
  intro n
  induction n with
  | zero =>
    intro a hi hle h
    cases hta : test a with
    | true => have := ht a hta; omega
    | false => rw [while_false hta] at h; cases h
  | succ n ih =>
    intro a hi hle h
    cases hta : test a with
    | false => rw [while_false hta] at h; cases h
    | true =>
      rw [whileLoop, if_pos hta] at h
      cases hf : f a with
      | ub => rw [hf] at h; cases h
      | abort c => rw [hf] at h; cases h
      | ok r =>
        cases r with
        | none => exact hn a hi hta hf
        | some a' =>
          rw [hf] at h
          obtain ⟨h1, h2⟩ := hs a a' hi hta hf
          exact ih a' h1 (by omega) h

end

theorem andThen_some {α β : Type} {o : Outcome (Option α)} {f : α → Outcome (Option β)} {b : β} (h : andThen o f = .ok (some b)) :
    ∃ a, o = .ok (some a) ∧ f a = .ok (some b) := by
  cases o with
  | ub => cases h
  | abort c => cases h
  | ok r => cases r with
    | none => cases h
    | some a => exact ⟨a, rfl, h⟩

theorem andThen_none {α β : Type} {o : Outcome (Option α)} {f : α → Outcome (Option β)} (h : andThen o f = .ok none) :
    o = .ok none ∨ ∃ a, o = .ok (some a) ∧ f a = .ok none := by
  cases o with
  | ub => cases h
  | abort c => cases h
  | ok r => cases r with
    | none => exact .inl rfl
    | some a => exact .inr ⟨a, rfl, h⟩

theorem bind_ok {α β : Type} {o : Outcome α} {f : α → Outcome β} {b : β} (h : o.bind f = .ok b) : ∃ a, o = .ok a ∧ f a = .ok b := by
  cases o with
  | ub => cases h
  | abort c => cases h
  | ok a => exact ⟨a, rfl, h⟩

/-! ## One coordinate in the loops -/

section
variable {g : Shape} {pos : Nat → Int} {core id : Int} {fuel : Nat}

/-- What the body does to the coordinates. -/
theorem body_coords {a a' : (Nat → Int) × State} (h : body g pos core id a = .ok a') :
    ((∀ d, d < g.dim → a.1 d = pos d) ∧ a'.1 = a.1) ∨ ((∃ d, d < g.dim ∧ a.1 d ≠ pos d) ∧ a'.1 = checked g a.1) := by
  unfold body at h
  by_cases h1 : ((List.range g.dim).all fun d => a.1 d == pos d) = true
  · rw [if_pos h1] at h
    cases h
    refine .inl ⟨fun d hd => ?_, rfl⟩
    have := List.all_eq_true.1 h1 d (List.mem_range.2 hd)
    exact beq_iff_eq.1 this
  · rw [if_neg h1] at h
    refine .inr ⟨?_, ?_⟩
    · by_contra hc
      exact h1 (List.all_eq_true.2 fun d hd => beq_iff_eq.2 (by
        by_contra hne; exact hc ⟨d, List.mem_range.1 hd, hne⟩))
    · dsimp only at h
      split_ifs at h
      · cases h; rfl
      · obtain ⟨st, _, e⟩ := bind_ok h
        cases e; rfl

/-- A property of one outer coordinate that the body establishes or keeps: it holds after the loops over the inner axes, which run at
least once. -/
theorem scan_outer {d : Nat} (P Q : Int → Prop) (hPQ : ∀ a a', P (a.1 d) → body g pos core id a = .ok a' → Q (a'.1 d))
    (hQP : ∀ v, Q v → P v) : ∀ (k : Nat), k ≤ g.dim → d < g.dim - k → ∀ a a', P (a.1 d) → scan g pos core id fuel k a = .ok (some a') → Q (a'.1 d) := by
  intro k
  induction k with
  | zero =>
    intro _ _ a a' hp h
    rw [scan] at h
    obtain ⟨b, e, e'⟩ := bind_ok h
    cases e'
    exact hPQ a a' hp e
  | succ k ih =>
    intro hk hdk a a' hp h
    have hne : d ≠ g.dim - (k + 1) := by omega
    rw [scan] at h
    have hstep : ∀ b b', P (b.1 d) → andThen (scan g pos core id fuel k b) (fun a => Outcome.ok (some (bump a.1 (g.dim - (k + 1)) 1, a.2))) =
        .ok (some b') → Q (b'.1 d) := by
      intro b b' hb e
      obtain ⟨c, e1, e2⟩ := andThen_some e
      cases e2
      show Q (bump c.1 (g.dim - (k + 1)) 1 d)
      rw [bump, Function.update_of_ne hne]
      exact ih (by omega) (by omega) b c hb e1
    obtain ⟨m, b, _, e1, e2⟩ := while_true (by
      show decide (Function.update a.1 (g.dim - (k + 1)) (pos (g.dim - (k + 1)) - 1) (g.dim - (k + 1)) < pos (g.dim - (k + 1)) + 2) = true
      rw [Function.update_self]
      exact decide_eq_true (by omega)) h
    have hb := hstep _ b (by
      show P (Function.update a.1 (g.dim - (k + 1)) (pos (g.dim - (k + 1)) - 1) d)
      rw [Function.update_of_ne hne]; exact hp) e1
    exact (while_inv (fun b : (Nat → Int) × State => Q (b.1 d)) (fun b b' hq _ e => hstep b b' (hQP _ hq) e) m b a' hb e2).1

/-- The axis leads back: the upper face is not `parallel`, and `check_boundary` of a coordinate one step outside is not above the
last layer. -/
structure LeadsBack (g : Shape) (d : Nat) : Prop where
  side : g.x0 d < g.x1 d
  upper : g.b1 d ≠ .parallel
  lower : g.x0 d + 2 ≤ g.x1 d ∨ g.b0 d ≠ .mirror

theorem closed_check {d : Nat} (hc : LeadsBack g d) {v : Int} (h0 : g.x0 d - 1 ≤ v) (h1 : v ≤ g.x1 d) :
    g.x0 d - 1 ≤ checkBoundary .serial v (g.x0 d) (g.x1 d) (g.b0 d) (g.b1 d) ∧
      checkBoundary .serial v (g.x0 d) (g.x1 d) (g.b0 d) (g.b1 d) ≤ g.x1 d - 1 := by
  have hs := hc.side
  have hl := hc.lower
  have hu := hc.upper
  unfold checkBoundary
  split_ifs with c1 c2 c3 c4 c5 c6 c7 c8
  · omega
  · omega
  · rcases hl with hl | hl
    · omega
    · exact absurd c4 hl
  · omega
  · omega
  · omega
  · omega
  · cases hb : g.b1 d <;> simp_all
  · omega

/-- **C34.** The loop over an axis on whose upper face the voxel lies does not end. -/
theorem scan_hangs_here {k : Nat} (hk : k + 1 ≤ g.dim) (hc : LeadsBack g (g.dim - (k + 1)))
    (hpos : pos (g.dim - (k + 1)) = g.x1 (g.dim - (k + 1)) - 1) (a a' : (Nat → Int) × State) :
    scan g pos core id fuel (k + 1) a ≠ .ok (some a') := by
  rw [scan]
  have hd : g.dim - (k + 1) < g.dim := by omega
  have hdk : g.dim - (k + 1) < g.dim - k := by omega
  generalize g.dim - (k + 1) = d at *
  have hs := hc.side
  refine while_never (fun b : (Nat → Int) × State => g.x0 d - 1 ≤ b.1 d ∧ b.1 d ≤ g.x1 d) (fun b hb => ?_) (fun b b' hb e => ?_) _ _ _ ?_
  · exact decide_eq_true (by omega)
  · obtain ⟨c, e1, e2⟩ := andThen_some e
    cases e2
    have := scan_outer (g := g) (pos := pos) (core := core) (id := id) (fuel := fuel)
      (fun v => g.x0 d - 1 ≤ v ∧ v ≤ g.x1 d) (fun v => g.x0 d - 1 ≤ v ∧ v ≤ g.x1 d - 1)
      (fun a a' hp e => by
        rcases body_coords e with ⟨h1, h2⟩ | ⟨_, h2⟩
        · rw [h2, h1 d hd]; omega
        · rw [h2, checked, if_pos hd]; exact closed_check hc hp.1 hp.2)
      (fun v hv => by omega) k (by omega) hdk b c hb e1
    show g.x0 d - 1 ≤ bump c.1 d 1 d ∧ bump c.1 d 1 d ≤ g.x1 d
    rw [bump, Function.update_self]
    omega
  · show g.x0 d - 1 ≤ Function.update a.1 d (pos d - 1) d ∧ Function.update a.1 d (pos d - 1) d ≤ g.x1 d
    rw [Function.update_self]; omega

theorem scan_hangs {d : Nat} (hd : d < g.dim) (hc : LeadsBack g d) (hpos : pos d = g.x1 d - 1) :
    ∀ (k : Nat), k ≤ g.dim → g.dim - k ≤ d → ∀ a a' : (Nat → Int) × State, scan g pos core id fuel k a ≠ .ok (some a') := by
  intro k
  induction k with
  | zero => intro _ h; omega
  | succ k ih =>
    intro hk hdk a a'
    by_cases he : d = g.dim - (k + 1)
    · subst he; exact scan_hangs_here hk hc hpos a a'
    · intro h
      rw [scan] at h
      obtain ⟨m, b, _, e1, e2⟩ := while_true (by
        show decide (Function.update a.1 (g.dim - (k + 1)) (pos (g.dim - (k + 1)) - 1) (g.dim - (k + 1)) < pos (g.dim - (k + 1)) + 2) = true
        rw [Function.update_self]
        exact decide_eq_true (by omega)) h
      obtain ⟨c, e3, _⟩ := andThen_some e1
      exact ih (by omega) (by omega) _ c e3

/-- **C34, negative.** `propagate_distance` from a voxel on the upper face of any axis with a boundary condition other than
`parallel` does not return, however long it runs. -/
theorem propagate_hangs {e : Int} {st : State} {d : Nat} (hd : d < g.dim) (hc : LeadsBack g d) (hpos : (st.data e).x d = g.x1 d - 1)
    (fuel : Nat) (st' : State) : propagate g fuel e st ≠ .ok (some st') := by
  intro h
  unfold propagate at h
  obtain ⟨v, e1, h⟩ := bind_ok h
  obtain ⟨v', _, h⟩ := bind_ok h
  obtain ⟨a, h, _⟩ := andThen_some h
  have : v = st.data e := by
    unfold deref at e1
    split_ifs at e1
    cases e1; rfl
  subst this
  exact scan_hangs hd hc hpos g.dim (le_refl _) (by omega) _ a h

/-- A voxel at (4,2) of a periodic 5x5 grid. -/
example (st : State) (e : Int) (h : (st.data e).x 0 = 4) (fuel : Nat) (st' : State) :
    propagate ⟨2, fun _ => 0, fun _ => 5, fun _ => .periodic, fun _ => .periodic, 0⟩ fuel e st ≠ .ok (some st') :=
  propagate_hangs (d := 0) (by decide) ⟨by decide, by decide, .inr (by decide)⟩ h fuel st'

/-! ## Elsewhere it returns -/

/-- The coordinate at which an axis that does not lead back is entered. -/
def Calm (g : Shape) (pos : Nat → Int) (d : Nat) (v : Int) : Prop := pos d - 1 ≤ v ∧ (v ≤ g.x1 d - 1 ∨ g.b1 d = .parallel)

theorem calm_check {d : Nat} (hp : g.x0 d ≤ pos d) (hu : pos d + 1 < g.x1 d ∨ (g.b1 d = .parallel ∧ pos d < g.x1 d)) {v : Int} (hv : Calm g pos d v) :
    v ≤ checkBoundary .serial v (g.x0 d) (g.x1 d) (g.b0 d) (g.b1 d) ∧
      Calm g pos d (checkBoundary .serial v (g.x0 d) (g.x1 d) (g.b0 d) (g.b1 d)) := by
  obtain ⟨h1, h2⟩ := hv
  unfold Calm checkBoundary
  split_ifs with c1 c2 c3 c4 c5 c6 c7 c8
  · refine ⟨by omega, by omega, ?_⟩
    rcases h2 with h2 | h2
    · left; omega
    · right; exact h2
  · refine ⟨by omega, by omega, ?_⟩
    left; omega
  · refine ⟨by omega, by omega, ?_⟩
    rcases hu with hu | hu
    · left; omega
    · right; exact hu.1
  · exact ⟨le_refl _, h1, h2⟩
  · rcases h2 with h2 | h2
    · omega
    · rw [h2] at c6; rcases c6 with c | c <;> cases c
  · rcases h2 with h2 | h2
    · omega
    · rw [h2] at c7; cases c7.2
  · rcases h2 with h2 | h2
    · omega
    · rw [h2] at c8; cases c8
  · exact ⟨le_refl _, h1, h2⟩
  · exact ⟨le_refl _, h1, h2⟩

theorem scan_returns (hp : ∀ d, d < g.dim → g.x0 d ≤ pos d)
    (hu : ∀ d, d < g.dim → pos d + 1 < g.x1 d ∨ (g.b1 d = .parallel ∧ pos d < g.x1 d)) (hf : 3 ≤ fuel) :
    ∀ (k : Nat), k ≤ g.dim → ∀ a : (Nat → Int) × State, scan g pos core id fuel k a ≠ .ok none := by
  intro k
  induction k with
  | zero =>
    intro _ a h
    rw [scan] at h
    obtain ⟨_, _, e⟩ := bind_ok h
    cases e
  | succ k ih =>
    intro hk a
    rw [scan]
    have hd : g.dim - (k + 1) < g.dim := by omega
    have hdk : g.dim - (k + 1) < g.dim - k := by omega
    generalize g.dim - (k + 1) = d at *
    refine while_returns (fun b : (Nat → Int) × State => pos d - 1 ≤ b.1 d) (fun b => b.1 d) (pos d + 2) (fun b hb => of_decide_eq_true hb)
      (fun b b' hi ht e => ?_) (fun b hi ht e => ?_) fuel _ ?_ ?_
    · have ht' : b.1 d < pos d + 2 := of_decide_eq_true ht
      obtain ⟨c, e1, e2⟩ := andThen_some e
      cases e2
      have hcalm : Calm g pos d (b.1 d) := ⟨hi, by
        rcases hu d hd with h | h
        · left; omega
        · right; exact h.1⟩
      have := scan_outer (g := g) (pos := pos) (core := core) (id := id) (fuel := fuel)
        (fun v => b.1 d ≤ v ∧ Calm g pos d v) (fun v => b.1 d ≤ v ∧ Calm g pos d v)
        (fun a a' hP e => by
          rcases body_coords e with ⟨h1, h2⟩ | ⟨_, h2⟩
          · rw [h2]; exact hP
          · rw [h2, checked, if_pos hd]
            have := calm_check (hp d hd) (hu d hd) hP.2
            exact ⟨by omega, this.2⟩)
        (fun v hv => hv) k (by omega) hdk b c ⟨le_refl _, hcalm⟩ e1
      show pos d - 1 ≤ bump c.1 d 1 d ∧ b.1 d + 1 ≤ bump c.1 d 1 d
      rw [bump, Function.update_self]
      omega
    · rcases andThen_none e with e | ⟨c, _, e⟩
      · exact ih (by omega) b e
      · cases e
    · show pos d - 1 ≤ Function.update a.1 d (pos d - 1) d
      rw [Function.update_self]
    · show pos d + 2 - Function.update a.1 d (pos d - 1) d ≤ fuel
      rw [Function.update_self]; omega

/-- **C34.** From every voxel that is on no upper face, or only on `parallel` ones, `propagate_distance` ends after at most three
rounds of each loop. -/
theorem propagate_returns {e : Int} {st : State} (hp : ∀ d, d < g.dim → g.x0 d ≤ (st.data e).x d)
    (hu : ∀ d, d < g.dim → (st.data e).x d + 1 < g.x1 d ∨ (g.b1 d = .parallel ∧ (st.data e).x d < g.x1 d)) (hf : 3 ≤ fuel) :
    propagate g fuel e st ≠ .ok none := by
  intro h
  unfold propagate at h
  obtain ⟨v, e1, h⟩ := bind_ok h
  obtain ⟨v', _, h⟩ := bind_ok h
  have : v = st.data e := by
    unfold deref at e1
    split_ifs at e1
    cases e1; rfl
  subst this
  rcases andThen_none h with h | ⟨a, _, h⟩
  · exact scan_returns hp hu hf g.dim (le_refl _) _ h
  · cases h

/-- A voxel at (2,2) of a periodic 5x5 grid. -/
example (st : State) (e : Int) (h : (st.data e).x = fun _ => 2) :
    propagate ⟨2, fun _ => 0, fun _ => 5, fun _ => .periodic, fun _ => .periodic, 0⟩ 3 e st ≠ .ok none :=
  propagate_returns (fun d _ => by rw [h]; show (0 : Int) ≤ 2; decide) (fun d _ => by rw [h]; exact .inl (show (2 : Int) + 1 < 5 by decide)) (le_refl _)

end
end MMSP.Tessellate
