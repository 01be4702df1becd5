import Verif.Points
/-!
# Property C135: the span of the centres that mmsp2topo prints

Model of `utility/mmsp2topo.cpp` 257-276: mean and span of the centres of the grains that are not excluded.

Simplifications: one axis; the axes do not influence each other (`for d` in 267-270). Floating-point arithmetic is exact.
Conversion to `int` of a value out of range is undefined behaviour.
-/

namespace MMSP.CentreSpan

open MMSP Pts

variable {K : Type} [Field K] [LinearOrder K] [FloorRing K]

/-! ## Model -/

/-- `if (center[d] < min[d]) min[d] = center[d]; else if (center[d] > max[d]) max[d] = center[d];`, 268-269. The state is
`min[d]` and `max[d]`, which are `int`. -/
def stepAxis (st : Int × Int) (c : K) : Outcome (Int × Int) :=
  if c < (st.1 : K) then (toInt c).bind fun v => .ok (v, st.2)
  else if (st.2 : K) < c then (toInt c).bind fun v => .ok (st.1, v)
  else .ok st

/-- State of the loop 262-271: `BulkGrains`, `centroid[d]`, `min[d]`, `max[d]`. -/
structure St (K : Type) where
  bulk : Nat
  sum : K
  lo : Int
  hi : Int

/-- Body of the loop, 263-270, for a grain: whether it is excluded, and its centre. -/
def stepGrain (st : St K) (g : Bool × K) : Outcome (St K) :=
  if g.1 then .ok st
  else (stepAxis (st.lo, st.hi) g.2).bind fun r => .ok ⟨st.bulk + 1, st.sum + g.2, r.1, r.2⟩

/-- 257-271: the grains come in ascending order of their numbers. -/
def loop : List (Bool × K) → St K → Outcome (St K)
  | [], st => .ok st
  | g :: gs, st => (stepGrain st g).bind fun st => loop gs st

/-- 257-276: the mean of the centres (`none`: zero divided by zero), and the two ends of the span printed. -/
def printed (gs : List (Bool × K)) : Outcome (Option K × Int × Int) :=
  (loop gs ⟨0, 0, 1000, 0⟩).bind fun st =>
    .ok (if st.bulk = 0 then none else some (st.sum / (st.bulk : K)), st.lo, st.hi)

/-! ## Specification -/

/-- The centres of the grains that are not excluded, in order. -/
def centres (gs : List (Bool × K)) : List K := (gs.filter fun g => !g.1).map Prod.snd

/-- The centres lie in the grid, whose coordinates are `int`s that are not negative. -/
def Inside (gs : List (Bool × K)) : Prop := ∀ c ∈ centres gs, 0 ≤ c ∧ c < 2 ^ 31

/-- The whole parts of the centres are at most `m`, and `m` is one of them. -/
def Greatest (m : Int) (cs : List K) : Prop := (∀ c ∈ cs, ⌊c⌋ ≤ m) ∧ ∃ c ∈ cs, ⌊c⌋ = m

/-! ## Lemmas -/

variable [IsStrictOrderedRing K]

omit [IsStrictOrderedRing K] in
private theorem toInt_eq {c : K} (h0 : 0 ≤ c) (h1 : c < 2 ^ 31) : toInt c = .ok ⌊c⌋ := by
  have hl : 0 ≤ ⌊c⌋ := Int.floor_nonneg.mpr h0
  have hu : ⌊c⌋ < 2 ^ 31 := Int.floor_lt.mpr (by exact_mod_cast h1)
  unfold toInt trunc int32
  rw [if_pos h0, if_pos ⟨by omega, hu⟩]

/-- The centre of one grain on an axis, as numbers. -/
private def next (lo hi : Int) (c : K) : Int × Int :=
  if c < (lo : K) then (⌊c⌋, hi) else if (hi : K) < c then (lo, ⌊c⌋) else (lo, hi)

omit [IsStrictOrderedRing K] in
private theorem stepAxis_eq (lo hi : Int) {c : K} (h0 : 0 ≤ c) (h1 : c < 2 ^ 31) :
    stepAxis (lo, hi) c = .ok (next lo hi c) := by
  unfold stepAxis next
  split_ifs <;> simp [toInt_eq h0 h1]

private theorem loop_ok : ∀ (gs : List (Bool × K)) (st : St K), Inside gs → ∃ st', loop gs st = .ok st' ∧
    st'.bulk = st.bulk + (centres gs).length ∧ st'.sum = st.sum + (centres gs).sum ∧
    (st'.lo, st'.hi) = (centres gs).foldl (fun s c => next s.1 s.2 c) (st.lo, st.hi)
  | [], st, _ => ⟨st, rfl, by simp [centres], by simp [centres], by simp [centres]⟩
  | (true, c) :: gs, st, h => by
    have e : centres ((true, c) :: gs) = centres gs := by simp [centres]
    rw [e]
    unfold loop stepGrain
    exact loop_ok gs st (by unfold Inside at h ⊢; rwa [e] at h)
  | (false, c) :: gs, st, h => by
    have e : centres ((false, c) :: gs) = c :: centres gs := by simp [centres]
    unfold Inside at h
    rw [e] at h ⊢
    have hc := h c (by simp)
    obtain ⟨st', h1, h2, h3, h4⟩ := loop_ok gs
      ⟨st.bulk + 1, st.sum + c, (next st.lo st.hi c).1, (next st.lo st.hi c).2⟩ (fun x hx => h x (by simp [hx]))
    refine ⟨st', ?_, ?_, ?_, ?_⟩
    · unfold loop stepGrain
      simp only [stepAxis_eq _ _ hc.1 hc.2, Outcome.ok_bind, Bool.false_eq_true, if_false]
      exact h1
    · rw [h2, List.length_cons]; simp only; omega
    · rw [h3, List.sum_cons]; simp only; ring
    · rw [h4, List.foldl_cons]

omit [IsStrictOrderedRing K] in
private theorem fold_lo : ∀ (cs : List K) (lo hi : Int),
    (cs.foldl (fun s c => next s.1 s.2 c) (lo, hi)).1 ≤ lo ∧
    (∀ c ∈ cs, (cs.foldl (fun s c => next s.1 s.2 c) (lo, hi)).1 ≤ ⌊c⌋) ∧
    ((cs.foldl (fun s c => next s.1 s.2 c) (lo, hi)).1 = lo ∨
      ∃ c ∈ cs, ⌊c⌋ = (cs.foldl (fun s c => next s.1 s.2 c) (lo, hi)).1)
  | [], lo, hi => by simp
  | c :: cs, lo, hi => by
    have ih := fold_lo cs (next lo hi c).1 (next lo hi c).2
    rw [List.foldl_cons]
    generalize hr : List.foldl (fun s c => next s.1 s.2 c) (next (lo, hi).1 (lo, hi).2 c) cs = r
    change List.foldl (fun s c => next s.1 s.2 c) (next lo hi c) cs = r at hr
    rw [Prod.mk.eta, hr] at ih
    obtain ⟨h1, h2, h3⟩ := ih
    have hn : ((next lo hi c).1 = ⌊c⌋ ∧ ⌊c⌋ < lo) ∨ ((next lo hi c).1 = lo ∧ lo ≤ ⌊c⌋) := by
      unfold next
      split_ifs with a b
      · exact .inl ⟨rfl, Int.floor_lt.mpr a⟩
      · exact .inr ⟨rfl, Int.le_floor.mpr (not_lt.mp a)⟩
      · exact .inr ⟨rfl, Int.le_floor.mpr (not_lt.mp a)⟩
    refine ⟨by omega, ?_, ?_⟩
    · intro x hx
      rcases List.mem_cons.mp hx with rfl | hx
      · omega
      · exact h2 x hx
    · rcases h3 with h3 | ⟨x, hx, hx'⟩
      · rcases hn with ⟨e, _⟩ | ⟨e, _⟩
        · exact .inr ⟨c, by simp, by omega⟩
        · exact .inl (by omega)
      · exact .inr ⟨x, by simp [hx], hx'⟩

private theorem fold_hi (m : Int) : ∀ (cs : List K) (lo hi : Int), lo ≤ m → hi ≤ m → (∀ c ∈ cs, ⌊c⌋ ≤ m) →
    ((cs.foldl (fun s c => next s.1 s.2 c) (lo, hi)).2 = m ↔ hi = m ∨ ∃ c ∈ cs, ⌊c⌋ = m)
  | [], lo, hi, _, _, _ => by simp
  | c :: cs, lo, hi, hl, hh, hc => by
    have hcm := hc c (by simp)
    have key : (next lo hi c).1 ≤ m ∧ (next lo hi c).2 ≤ m ∧ ((next lo hi c).2 = m ↔ hi = m ∨ ⌊c⌋ = m) := by
      unfold next
      split_ifs with a b
      · have := Int.floor_lt.mpr a
        exact ⟨hcm, hh, ⟨.inl, fun h => h.elim id (fun h => by omega)⟩⟩
      · have : hi ≤ ⌊c⌋ := Int.le_floor.mpr b.le
        exact ⟨hl, hcm, ⟨.inr, fun h => h.elim (fun h => by simp only; omega) id⟩⟩
      · have : ⌊c⌋ ≤ hi := by
          have := (Int.floor_le c).trans (not_lt.mp b)
          exact_mod_cast this
        exact ⟨hl, hh, ⟨.inl, fun h => h.elim id (fun h => by simp only; omega)⟩⟩
    have ih := fold_hi m cs (next lo hi c).1 (next lo hi c).2 key.1 key.2.1 (fun x hx => hc x (by simp [hx]))
    simp only [List.foldl_cons]
    rw [ih, key.2.2]
    simp only [List.mem_cons, exists_eq_or_imp, or_assoc]

/-! ## Theorems -/

/-- C135: the program prints the mean of the centres, "not a number" if no grain is left. -/
theorem mean_printed (gs : List (Bool × K)) (h : Inside gs) : ∃ lo hi, printed gs =
    .ok (if centres gs = [] then none else some ((centres gs).sum / ((centres gs).length : K)), lo, hi) := by
  obtain ⟨st, h1, h2, h3, _⟩ := loop_ok gs ⟨0, 0, 1000, 0⟩ h
  refine ⟨st.lo, st.hi, ?_⟩
  simp only [printed, h1, Outcome.ok_bind, h2, h3, zero_add, List.length_eq_zero_iff]

/-- C135: the lower end is the smallest whole part of a centre, or 1000 if that is smaller. -/
theorem lower_end (gs : List (Bool × K)) (h : Inside gs) : ∃ mean lo hi, printed gs = .ok (mean, lo, hi) ∧
    lo ≤ 1000 ∧ (∀ c ∈ centres gs, lo ≤ ⌊c⌋) ∧ (lo = 1000 ∨ ∃ c ∈ centres gs, ⌊c⌋ = lo) := by
  obtain ⟨st, h1, _, _, h4⟩ := loop_ok gs ⟨0, 0, 1000, 0⟩ h
  refine ⟨if st.bulk = 0 then none else some (st.sum / (st.bulk : K)), st.lo, st.hi,
    by simp only [printed, h1, Outcome.ok_bind], ?_⟩
  have := fold_lo (centres gs) 1000 0
  rw [← h4] at this
  exact this

/-- C135: the upper end is the greatest whole part of a centre, unless the first grain counted is the only one with that
whole part (and it is below 1000 and not 0). -/
theorem upper_end_iff (gs : List (Bool × K)) (h : Inside gs) {c0 : K} {cs : List K} (hcs : centres gs = c0 :: cs)
    {m : Int} (hm : Greatest m (centres gs)) : ∃ mean lo hi, printed gs = .ok (mean, lo, hi) ∧
    (hi = m ↔ m = 0 ∨ 1000 ≤ c0 ∨ ∃ c ∈ cs, ⌊c⌋ = m) := by
  obtain ⟨st, h1, _, _, h4⟩ := loop_ok gs ⟨0, 0, 1000, 0⟩ h
  refine ⟨if st.bulk = 0 then none else some (st.sum / (st.bulk : K)), st.lo, st.hi,
    by simp only [printed, h1, Outcome.ok_bind], ?_⟩
  rw [hcs, List.foldl_cons] at h4
  unfold Inside at h
  rw [hcs] at h hm
  obtain ⟨hub, hex⟩ := hm
  have h0 := h c0 (by simp)
  have hc0 := hub c0 (by simp)
  have hf0 : 0 ≤ ⌊c0⌋ := Int.floor_nonneg.mpr h0.1
  have e : st.hi = (cs.foldl (fun s c => next s.1 s.2 c) (next 1000 0 c0)).2 := congrArg Prod.snd h4
  rw [e]
  by_cases hk : c0 < 1000
  · have hn : next 1000 0 c0 = (⌊c0⌋, 0) := by unfold next; rw [if_pos (by exact_mod_cast hk)]
    rw [hn, fold_hi m cs _ _ hc0 (by omega) (fun c hc => hub c (by simp [hc]))]
    constructor
    · rintro (h | h)
      · exact .inl h.symm
      · exact .inr (.inr h)
    · rintro (h | h | h)
      · exact .inl h.symm
      · exact absurd hk (not_lt.mpr h)
      · exact .inr h
  · have hk' : (1000 : K) ≤ c0 := not_lt.mp hk
    have hn : next 1000 0 c0 = (1000, ⌊c0⌋) := by
      unfold next
      rw [if_neg (by push_cast; exact not_lt.mpr hk'), if_pos (by push_cast; linarith)]
    have h1000 : 1000 ≤ ⌊c0⌋ := Int.le_floor.mpr (by exact_mod_cast hk')
    rw [hn, fold_hi m cs _ _ (by omega) hc0 (fun c hc => hub c (by simp [hc]))]
    constructor
    · intro _; exact .inr (.inl hk')
    · intro _
      obtain ⟨c, hc, hcm⟩ := hex
      rcases List.mem_cons.mp hc with rfl | hc
      · exact .inl hcm
      · exact .inr ⟨c, hc, hcm⟩

/-- C135: with centres below 1000 that get smaller from grain to grain (one grain, for example), the upper end printed is 0. -/
theorem upper_end_zero (gs : List (Bool × K)) (h : Inside gs) (hd : (centres gs).Pairwise fun a b => ⌊b⌋ < ⌊a⌋)
    (hk : ∀ c ∈ centres gs, c < 1000) : ∃ mean lo, printed gs = .ok (mean, lo, 0) := by
  obtain ⟨st, h1, _, _, h4⟩ := loop_ok gs ⟨0, 0, 1000, 0⟩ h
  have key : ∀ (cs : List K) (lo : Int), cs.Pairwise (fun a b => ⌊b⌋ < ⌊a⌋) → (∀ c ∈ cs, c < (lo : K)) →
      (cs.foldl (fun s c => next s.1 s.2 c) (lo, 0)).2 = 0 := by
    intro cs
    induction cs with
    | nil => intro lo _ _; rfl
    | cons c cs ih =>
      intro lo hp hl
      obtain ⟨hp1, hp2⟩ := List.pairwise_cons.mp hp
      have hn : next lo 0 c = (⌊c⌋, 0) := by unfold next; rw [if_pos (hl c (by simp))]
      rw [List.foldl_cons]
      simp only [hn]
      exact ih _ hp2 (fun x hx => Int.floor_lt.mp (hp1 x hx))
  refine ⟨if st.bulk = 0 then none else some (st.sum / (st.bulk : K)), st.lo, ?_⟩
  simp only [printed, h1, Outcome.ok_bind]
  have e : st.hi = 0 := by
    have := congrArg Prod.snd h4
    simp only at this
    rw [this]
    exact key _ _ hd (by push_cast; exact hk)
  rw [e]

/-! ## Examples -/

/-- Two grains with centres 90.5 and 10.25, and an excluded one: the span printed is 10 -- 0. -/
example : printed [(false, (181 / 2 : ℚ)), (true, 5), (false, 41 / 4)] = .ok (some (403 / 8), 10, 0) := by decide +kernel
/-- In the other order it is 10 -- 90. -/
example : printed [(false, (41 / 4 : ℚ)), (true, 5), (false, 181 / 2)] = .ok (some (403 / 8), 10, 90) := by decide +kernel
example : Inside [(false, (181 / 2 : ℚ)), (true, 5), (false, 41 / 4)] := by
  unfold Inside; decide +kernel
example : Greatest 90 (centres [(false, (181 / 2 : ℚ)), (true, 5), (false, 41 / 4)]) := by
  unfold Greatest; decide +kernel
example : (centres [(false, (181 / 2 : ℚ)), (true, 5), (false, 41 / 4)]).Pairwise fun a b => ⌊b⌋ < ⌊a⌋ := by decide +kernel

end MMSP.CentreSpan
