import Verif.PriorityQueue
import Mathlib.Order.Lattice
/-!
# What the priority queue guarantees

`Order` is the heap order, `Placed` says that heap and map agree about every element except possibly the one at the root (which `pop`
may leave with an old index). Both survive every push, every pop, and every change of the key of an element that is not at the root
(`history`); so the top is always a minimum.
-/

namespace MMSP.PriorityQueue

variable {E K : Type} [DecidableEq E] [LinearOrder K]

/-- Heap order: no element is smaller than its parent. -/
def Order (key : E → K) (q : PQ E) : Prop := ∀ k, 0 < k → k < q.size → key (q.heap (parent k)) ≤ key (q.heap k)

/-- No element twice; the map knows exactly the elements of the heap, and the index of every one but the root. -/
structure Placed (q : PQ E) : Prop where
  inj : ∀ i k, i < q.size → k < q.size → q.heap i = q.heap k → i = k
  index : ∀ k, 0 < k → k < q.size → q.back (q.heap k) = some k
  root : 0 < q.size → (q.back (q.heap 0)).isSome
  out : ∀ e, (∀ k, k < q.size → q.heap k ≠ e) → q.back e = none

/-- The element is in the heap. -/
def Holds (q : PQ E) (e : E) : Prop := ∃ k, k < q.size ∧ q.heap k = e

theorem parent_lt {i : Nat} (h : 0 < i) : parent i < i := by unfold parent; omega
theorem parent_left (i : Nat) : parent (2 * i + 1) = i := by unfold parent; omega
theorem parent_right (i : Nat) : parent (2 * i + 2) = i := by unfold parent; omega
theorem parent_cases {k i : Nat} (hk : 0 < k) (h : parent k = i) : k = 2 * i + 1 ∨ k = 2 * i + 2 := by unfold parent at h; omega

/-! ## Exchanging two elements -/

section swap
variable {q : PQ E} {i j : Nat}

theorem swap_size : (q.swap i j).size = q.size := rfl

theorem swap_heap_i (h : i ≠ j) : (q.swap i j).heap i = q.heap j := by simp [PQ.swap]
theorem swap_heap_j (h : i ≠ j) : (q.swap i j).heap j = q.heap i := by
  simp [PQ.swap, Function.update_of_ne h.symm]
theorem swap_heap_ne {k : Nat} (h1 : k ≠ i) (h2 : k ≠ j) : (q.swap i j).heap k = q.heap k := by
  simp [PQ.swap, Function.update_of_ne h1, Function.update_of_ne h2]

theorem swap_holds (h : i ≠ j) (hi : i < q.size) (hj : j < q.size) (e : E) : Holds (q.swap i j) e ↔ Holds q e := by
  constructor
  · rintro ⟨k, hk, rfl⟩
    by_cases h1 : k = i
    · subst h1; exact ⟨j, hj, (swap_heap_i h).symm⟩
    · by_cases h2 : k = j
      · subst h2; exact ⟨i, hi, (swap_heap_j h).symm⟩
      · exact ⟨k, hk, (swap_heap_ne h1 h2).symm⟩
  · rintro ⟨k, hk, rfl⟩
    by_cases h1 : k = i
    · subst h1; exact ⟨j, hj, swap_heap_j h⟩
    · by_cases h2 : k = j
      · subst h2; exact ⟨i, hi, swap_heap_i h⟩
      · exact ⟨k, hk, swap_heap_ne h1 h2⟩

theorem swap_inj (h : i ≠ j) (hi : i < q.size) (hj : j < q.size) (hp : ∀ i k, i < q.size → k < q.size → q.heap i = q.heap k → i = k) :
    ∀ a b, a < q.size → b < q.size → (q.swap i j).heap a = (q.swap i j).heap b → a = b := by
  intro a b ha hb e
  have key : ∀ k, k < q.size → ∃ k', k' < q.size ∧ (q.swap i j).heap k = q.heap k' ∧ k' = if k = i then j else if k = j then i else k := by
    intro k hk
    by_cases h1 : k = i
    · subst h1; exact ⟨j, hj, swap_heap_i h, by simp⟩
    · by_cases h2 : k = j
      · subst h2; exact ⟨i, hi, swap_heap_j h, by simp [h1]⟩
      · exact ⟨k, hk, swap_heap_ne h1 h2, by simp [h1, h2]⟩
  obtain ⟨a', ha', ea, ca⟩ := key a ha
  obtain ⟨b', hb', eb, cb⟩ := key b hb
  rw [ea, eb] at e
  have := hp _ _ ha' hb' e
  rw [ca, cb] at this
  split_ifs at this <;> omega

theorem swap_back (h : i ≠ j) (hi : i < q.size) (hj : j < q.size) (hp : ∀ i k, i < q.size → k < q.size → q.heap i = q.heap k → i = k) :
    (q.swap i j).back (q.heap j) = some i ∧ (q.swap i j).back (q.heap i) = some j ∧
    ∀ e, e ≠ q.heap i → e ≠ q.heap j → (q.swap i j).back e = q.back e := by
  have hne : q.heap i ≠ q.heap j := fun e => h (hp _ _ hi hj e)
  have hb : (q.swap i j).back = Function.update (Function.update q.back (q.heap j) (some i)) (q.heap i) (some j) := by
    have h1 := swap_heap_i (q := q) h
    have h2 := swap_heap_j (q := q) h
    simp only [PQ.swap] at h1 h2 ⊢
    rw [h1, h2]
  rw [hb]
  refine ⟨?_, ?_, ?_⟩
  · rw [Function.update_of_ne hne.symm, Function.update_self]
  · rw [Function.update_self]
  · intro e h1 h2
    rw [Function.update_of_ne h1, Function.update_of_ne h2]

/-- After an exchange the map has the right index of both, and the others keep theirs. -/
theorem swap_placed (h : i ≠ j) (hi : i < q.size) (hj : j < q.size) (hp : Placed q) : Placed (q.swap i j) := by
  obtain ⟨b1, b2, b3⟩ := swap_back h hi hj hp.inj
  have index : ∀ k, k < q.size → (0 < k ∨ k = i ∨ k = j) → (q.swap i j).back ((q.swap i j).heap k) = some k := by
    intro k hk hc
    by_cases h1 : k = i
    · subst h1; rw [swap_heap_i h]; exact b1
    · by_cases h2 : k = j
      · subst h2; rw [swap_heap_j h]; exact b2
      · rw [swap_heap_ne h1 h2, b3 _ (fun e => h1 (hp.inj _ _ hk hi e)) (fun e => h2 (hp.inj _ _ hk hj e))]
        exact hp.index k (by omega) hk
  refine ⟨swap_inj h hi hj hp.inj, fun k h0 hk => index k hk (.inl h0), ?_, ?_⟩
  · intro h0
    by_cases hc : 0 = i ∨ 0 = j
    · rw [index 0 h0 (.inr hc)]; rfl
    · have h1 : 0 ≠ i := fun e => hc (.inl e)
      have h2 : 0 ≠ j := fun e => hc (.inr e)
      rw [swap_heap_ne h1 h2, b3 _ (fun e => h1 (hp.inj _ _ h0 hi e)) (fun e => h2 (hp.inj _ _ h0 hj e))]
      exact hp.root h0
  · intro e he
    have hno : ∀ k, k < q.size → q.heap k ≠ e := by
      intro k hk hke
      obtain ⟨k', hk', e'⟩ := (swap_holds h hi hj e).2 ⟨k, hk, hke⟩
      exact he k' hk' e'
    rw [b3 e (fun e' => hno i hi e'.symm) (fun e' => hno j hj e'.symm)]
    exact hp.out e hno

end swap

/-! ## Moving up -/

/-- Only the edges at `i` may be wrong; the parent of `i` is not above the children of `i`. -/
structure Loose (key : E → K) (q : PQ E) (i : Nat) : Prop where
  edge : ∀ k, 0 < k → k < q.size → k ≠ i → parent k ≠ i → key (q.heap (parent k)) ≤ key (q.heap k)
  bridge : 0 < i → ∀ k, 0 < k → k < q.size → parent k = i → key (q.heap (parent i)) ≤ key (q.heap k)

theorem percolateUp_spec (key : E → K) (q : PQ E) (i : Nat) (hi : i < q.size) (hl : Loose key q i) (hp : Placed q) :
    ∃ q' j, q.percolateUp key i = .ok q' ∧ q'.size = q.size ∧ j ≤ i ∧ Placed q' ∧ q'.heap j = q.heap i ∧
      (∀ e, Holds q' e ↔ Holds q e) ∧ Loose key q' j ∧ (0 < j → key (q'.heap (parent j)) ≤ key (q'.heap j)) ∧
      ((∀ k, 0 < k → k < q.size → parent k = i → key (q.heap i) ≤ key (q.heap k)) →
        ∀ k, 0 < k → k < q.size → parent k = j → key (q'.heap j) ≤ key (q'.heap k)) ∧
      (j ≠ i → q'.back (q.heap i) = some j) ∧ (j = i → q' = q) := by
  induction i using Nat.strongRecOn generalizing q with
  | ind i ih =>
    rw [PQ.percolateUp]
    by_cases h0 : i = 0
    · rw [dif_pos h0]
      exact ⟨q, i, rfl, rfl, le_refl _, hp, rfl, fun _ => Iff.rfl, hl, fun h => by omega, fun h => h, fun h => (h rfl).elim, fun _ => rfl⟩
    · rw [dif_neg h0, if_neg (by omega)]
      have hpi := parent_lt (show 0 < i by omega)
      split_ifs with hlt
      · have hne : i ≠ parent i := by omega
        have hj : parent i < q.size := by omega
        have s1 : (q.swap i (parent i)).heap i = q.heap (parent i) := swap_heap_i hne
        have s2 : (q.swap i (parent i)).heap (parent i) = q.heap i := swap_heap_j hne
        have s3 : ∀ k, k ≠ i → k ≠ parent i → (q.swap i (parent i)).heap k = q.heap k := fun k a b => swap_heap_ne a b
        have hup : ∀ k, 0 < k → k < q.size → parent k = parent i → k ≠ i → key (q.heap (parent i)) ≤ key (q.heap k) := by
          intro k h1 h2 h3 h4
          have := hl.edge k h1 h2 h4 (by omega)
          rwa [h3] at this
        have hgr : 0 < parent i → key (q.heap (parent (parent i))) ≤ key (q.heap (parent i)) := by
          intro h
          have := parent_lt h
          exact hl.edge (parent i) h hj (by omega) (by omega)
        have hl' : Loose key (q.swap i (parent i)) (parent i) := by
          constructor
          · intro k h1 h2 h3 h4
            rw [swap_size] at h2
            by_cases hki : k = i
            · exact (h4 (by rw [hki])).elim
            · by_cases hpk : parent k = i
              · rw [hpk, s1, s3 k hki h3]
                exact hl.bridge (by omega) k h1 h2 hpk
              · rw [s3 k hki h3, s3 (parent k) hpk h4]
                exact hl.edge k h1 h2 hki hpk
          · intro h k h1 h2 h3
            rw [swap_size] at h2
            have hpp := parent_lt h
            rw [s3 (parent (parent i)) (by omega) (by omega)]
            by_cases hki : k = i
            · rw [hki, s1]; exact hgr h
            · have : k ≠ parent i := by have := parent_lt h1; omega
              rw [s3 k hki this]
              exact le_trans (hgr h) (hup k h1 h2 h3 hki)
        obtain ⟨q', j, e1, e2, e3, e4, e5, e6, e7, e8, e9, e10, e11⟩ := ih (parent i) hpi (q.swap i (parent i)) hj hl' (swap_placed hne hi hj hp)
        rw [s2] at e5 e10
        refine ⟨q', j, e1, e2, by omega, e4, e5, fun e => (e6 e).trans (swap_holds hne hi hj e), e7, e8, fun hch => ?_, fun _ => ?_, fun h => by omega⟩
        · refine e9 fun k h1 h2 h3 => ?_
          rw [swap_size] at h2
          rw [s2]
          by_cases hki : k = i
          · rw [hki, s1]; exact hlt.le
          · have : k ≠ parent i := by have := parent_lt h1; omega
            rw [s3 k hki this]
            exact le_trans hlt.le (hup k h1 h2 h3 hki)
        · by_cases hjp : j = parent i
          · rw [e11 hjp, hjp]; exact (swap_back hne hi hj hp.inj).2.1
          · exact e10 hjp
      · refine ⟨q, i, rfl, rfl, le_refl _, hp, rfl, fun _ => Iff.rfl, hl, fun _ => not_lt.1 hlt, fun h => h, fun h => (h rfl).elim, fun _ => rfl⟩

/-! ## Moving down -/

theorem child_spec (key : E → K) (q : PQ E) {i : Nat} (h : 2 * i + 1 < q.size) :
    i < q.child key i ∧ q.child key i < q.size ∧ parent (q.child key i) = i ∧ 0 < q.child key i ∧
      ∀ k, 0 < k → k < q.size → parent k = i → key (q.heap (q.child key i)) ≤ key (q.heap k) := by
  unfold PQ.child
  split_ifs with hc
  · refine ⟨by omega, hc.1, parent_right i, by omega, fun k h1 h2 h3 => ?_⟩
    rcases parent_cases h1 h3 with rfl | rfl
    · exact hc.2.le
    · exact le_refl _
  · refine ⟨by omega, h, parent_left i, by omega, fun k h1 h2 h3 => ?_⟩
    rcases parent_cases h1 h3 with rfl | rfl
    · exact le_refl _
    · exact not_lt.1 fun hlt => hc ⟨h2, hlt⟩

theorem percolateDown_spec (key : E → K) (q : PQ E) (i : Nat) (hi : i < q.size ∨ i = 0) (hl : Loose key q i)
    (hup : 0 < i → key (q.heap (parent i)) ≤ key (q.heap i)) (hp : Placed q) :
    (q.percolateDown key i).size = q.size ∧ Placed (q.percolateDown key i) ∧ Order key (q.percolateDown key i) ∧
      ∀ e, Holds (q.percolateDown key i) e ↔ Holds q e := by
  induction hn : q.size - i using Nat.strongRecOn generalizing q i with
  | ind n ih =>
    subst hn
    rw [PQ.percolateDown]
    split_ifs with hc hlt
    · obtain ⟨c1, c2, c3, c4, c5⟩ := child_spec key q hc
      generalize q.child key i = c at *
      have hi' : i < q.size := by omega
      have hne : c ≠ i := by omega
      have s1 : (q.swap c i).heap c = q.heap i := swap_heap_i hne
      have s2 : (q.swap c i).heap i = q.heap c := swap_heap_j hne
      have s3 : ∀ k, k ≠ c → k ≠ i → (q.swap c i).heap k = q.heap k := fun k a b => swap_heap_ne a b
      have hl' : Loose key (q.swap c i) c := by
        constructor
        · intro k h1 h2 h3 h4
          rw [swap_size] at h2
          by_cases hki : k = i
          · subst hki
            have := parent_lt h1
            rw [s2, s3 (parent k) (by omega) (by omega)]
            exact hl.bridge h1 c c4 c2 c3
          · by_cases hpk : parent k = i
            · rw [hpk, s2, s3 k h3 hki]
              exact c5 k h1 h2 hpk
            · rw [s3 k h3 hki, s3 (parent k) h4 hpk]
              exact hl.edge k h1 h2 hki hpk
        · intro h k h1 h2 h3
          rw [swap_size] at h2
          have := parent_lt h1
          rw [c3, s2, s3 k (by omega) (by omega)]
          have := hl.edge k h1 h2 (by omega) (by omega)
          rwa [h3] at this
      obtain ⟨e1, e2, e3, e4⟩ := ih ((q.swap c i).size - c) (by rw [swap_size]; omega) (q.swap c i) c (.inl c2) hl'
        (fun _ => by rw [c3, s1, s2]; exact hlt.le) (swap_placed hne c2 hi' hp) rfl
      exact ⟨e1, e2, e3, fun e => (e4 e).trans (swap_holds hne c2 hi' e)⟩
    · obtain ⟨c1, c2, c3, c4, c5⟩ := child_spec key q hc
      refine ⟨rfl, hp, fun k h1 h2 => ?_, fun _ => Iff.rfl⟩
      by_cases hki : k = i
      · rw [hki]; exact hup (by omega)
      · by_cases hpk : parent k = i
        · rw [hpk]; exact le_trans (not_lt.1 hlt) (c5 k h1 h2 hpk)
        · exact hl.edge k h1 h2 hki hpk
    · refine ⟨rfl, hp, fun k h1 h2 => ?_, fun _ => Iff.rfl⟩
      by_cases hki : k = i
      · rw [hki]; exact hup (by omega)
      · by_cases hpk : parent k = i
        · rcases parent_cases h1 hpk with rfl | rfl <;> omega
        · exact hl.edge k h1 h2 hki hpk

/-! ## Operations -/

/-- **C31.** The top is a minimum. -/
theorem top_min {key : E → K} {q : PQ E} (ho : Order key q) (e : E) (h : Holds q e) :
    ∃ t, q.top = .ok t ∧ Holds q t ∧ key t ≤ key e := by
  obtain ⟨k, hk, rfl⟩ := h
  refine ⟨q.heap 0, by rw [PQ.top, if_neg (by omega)], ⟨0, by omega, rfl⟩, ?_⟩
  induction k using Nat.strongRecOn with
  | ind k ih =>
    rcases Nat.eq_zero_or_pos k with rfl | h0
    · exact le_refl _
    · have := parent_lt h0
      exact le_trans (ih (parent k) this (by omega)) (ho k h0 hk)

theorem holds_iff_back {q : PQ E} (hp : Placed q) (e : E) : Holds q e ↔ q.inHeap e = true := by
  constructor
  · rintro ⟨k, hk, rfl⟩
    rw [PQ.inHeap]
    rcases Nat.eq_zero_or_pos k with rfl | h0
    · exact hp.root hk
    · rw [hp.index k h0 hk]; rfl
  · intro h
    by_contra hc
    have := hp.out e fun k hk he => hc ⟨k, hk, he⟩
    rw [PQ.inHeap, this] at h
    cases h

/-- **C31.** Pushing an element that is not in the heap. -/
theorem push_spec {key : E → K} {q : PQ E} (hp : Placed q) (ho : Order key q) {e : E} (he : ¬ Holds q e) :
    ∃ q', q.push key e = .ok q' ∧ Placed q' ∧ Order key q' ∧ ∀ x, Holds q' x ↔ x = e ∨ Holds q x := by
  have hb : q.back e = none := hp.out e fun k hk h => he ⟨k, hk, h⟩
  have hne : ∀ k, k < q.size → Function.update q.heap q.size e k = q.heap k := fun k hk => Function.update_of_ne (by omega) _ _
  have hpl : Placed (⟨Function.update q.heap q.size e, q.size + 1, Function.update q.back e (some q.size)⟩ : PQ E) := by
    refine ⟨?_, ?_, ?_, ?_⟩
    · intro i k hi hk h
      dsimp only at hi hk h
      rcases Nat.lt_or_ge i q.size with h1 | h1 <;> rcases Nat.lt_or_ge k q.size with h2 | h2
      · rw [hne i h1, hne k h2] at h; exact hp.inj i k h1 h2 h
      · have : k = q.size := by omega
        subst this
        rw [hne i h1, Function.update_self] at h
        exact (he ⟨i, h1, h⟩).elim
      · have : i = q.size := by omega
        subst this
        rw [hne k h2, Function.update_self] at h
        exact (he ⟨k, h2, h.symm⟩).elim
      · omega
    · intro k h0 hk
      dsimp only at hk ⊢
      rcases Nat.lt_or_ge k q.size with h1 | h1
      · rw [hne k h1, Function.update_of_ne (fun h => he ⟨k, h1, h⟩)]; exact hp.index k h0 h1
      · have : k = q.size := by omega
        subst this; rw [Function.update_self, Function.update_self]
    · intro _
      dsimp only
      rcases Nat.eq_zero_or_pos q.size with h1 | h1
      · rw [h1, Function.update_self, Function.update_self]; rfl
      · rw [hne 0 h1, Function.update_of_ne (fun h => he ⟨0, h1, h⟩)]; exact hp.root h1
    · intro x hx
      dsimp only at hx ⊢
      have h1 : x ≠ e := by
        rintro rfl
        exact hx q.size (by omega) (Function.update_self ..)
      rw [Function.update_of_ne h1]
      exact hp.out x fun k hk h => hx k (by omega) (by rw [hne k hk, h])
  have hl : Loose key (⟨Function.update q.heap q.size e, q.size + 1, Function.update q.back e (some q.size)⟩ : PQ E) q.size := by
    constructor
    · intro k h0 hk h1 h2
      dsimp only at hk ⊢
      have := parent_lt h0
      rw [hne k (by omega), hne (parent k) (by omega)]
      exact ho k h0 (by omega)
    · intro _ k h0 hk h1
      dsimp only at hk
      have := parent_lt h0
      omega
  obtain ⟨q', j, e1, e2, e3, e4, e5, e6, e7, e8, e9, _, _⟩ := percolateUp_spec key _ q.size (Nat.lt_succ_self _) hl hpl
  refine ⟨q', by rw [PQ.push, if_neg (by rw [hb]; simp)]; exact e1, e4, fun k h0 hk => ?_, fun x => (e6 x).trans ?_⟩
  · by_cases hkj : k = j
    · subst hkj; exact e8 h0
    · by_cases hpk : parent k = j
      · rw [hpk]
        exact e9 (fun k h0 hk h1 => by
          dsimp only at hk
          have := parent_lt h0
          omega) k h0 (e2 ▸ hk) hpk
      · exact e7.edge k h0 hk hkj hpk
  · constructor
    · rintro ⟨k, hk, h⟩
      dsimp only at hk h
      rcases Nat.lt_or_ge k q.size with h1 | h1
      · rw [hne k h1] at h; exact .inr ⟨k, h1, h⟩
      · have : k = q.size := by omega
        subst this; rw [Function.update_self] at h; exact .inl h.symm
    · rintro (rfl | ⟨k, hk, h⟩)
      · exact ⟨q.size, Nat.lt_succ_self _, Function.update_self ..⟩
      · exact ⟨k, Nat.lt_succ_of_lt hk, by rw [← h]; exact hne k hk⟩

/-- **C31.** Popping removes the top and nothing else. -/
theorem pop_spec {key : E → K} {q : PQ E} (hp : Placed q) (ho : Order key q) (h : 0 < q.size) :
    ∃ q', q.pop key = .ok q' ∧ q'.size = q.size - 1 ∧ Placed q' ∧ Order key q' ∧ ∀ x, Holds q' x ↔ x ≠ q.heap 0 ∧ Holds q x := by
  have hb : q.back (q.heap 0) ≠ none := by have := hp.root h; intro e; rw [e] at this; cases this
  have hne : ∀ k, k ≠ 0 → Function.update q.heap 0 (q.heap (q.size - 1)) k = q.heap k := fun k hk => Function.update_of_ne hk _ _
  have hpl : Placed (⟨Function.update q.heap 0 (q.heap (q.size - 1)), q.size - 1, Function.update q.back (q.heap 0) none⟩ : PQ E) := by
    refine ⟨?_, ?_, ?_, ?_⟩
    · intro i k hi hk e
      dsimp only at hi hk e
      by_cases h1 : i = 0 <;> by_cases h2 : k = 0
      · omega
      · rw [h1, Function.update_self, hne k h2] at e
        have := hp.inj _ _ (by omega) (by omega) e
        omega
      · rw [h2, Function.update_self, hne i h1] at e
        have := hp.inj _ _ (by omega) (by omega) e
        omega
      · rw [hne i h1, hne k h2] at e
        exact hp.inj _ _ (by omega) (by omega) e
    · intro k h0 hk
      dsimp only at hk ⊢
      rw [hne k (by omega), Function.update_of_ne]
      · exact hp.index k h0 (by omega)
      · intro e
        have := hp.inj _ _ (by omega) h e
        omega
    · intro h1
      dsimp only at h1 ⊢
      rw [Function.update_self, Function.update_of_ne]
      · rw [hp.index (q.size - 1) h1 (by omega)]; rfl
      · intro e
        have := hp.inj _ _ (by omega) h e
        omega
    · intro x hx
      dsimp only at hx ⊢
      by_cases hx0 : x = q.heap 0
      · rw [hx0, Function.update_self]
      · rw [Function.update_of_ne hx0]
        refine hp.out x fun k hk e => ?_
        by_cases hkl : k = q.size - 1
        · rcases Nat.eq_zero_or_pos (q.size - 1) with hz | hz
          · exact hx0 (by rw [← e, hkl, hz])
          · exact hx 0 hz (by rw [Function.update_self, ← hkl, e])
        · have hk0 : k ≠ 0 := by rintro rfl; exact hx0 e.symm
          exact hx k (by omega) (by rw [hne k hk0, e])
  have hl : Loose key (⟨Function.update q.heap 0 (q.heap (q.size - 1)), q.size - 1, Function.update q.back (q.heap 0) none⟩ : PQ E) 0 := by
    constructor
    · intro k h0 hk h1 h2
      dsimp only at hk ⊢
      rw [hne k h1, hne (parent k) h2]
      exact ho k h0 (by omega)
    · intro h0; omega
  obtain ⟨e1, e2, e3, e4⟩ := percolateDown_spec key _ 0 (.inr rfl) hl (fun h0 => by omega) hpl
  refine ⟨_, by rw [PQ.pop, if_neg (by omega), if_neg hb], e1, e2, e3, fun x => (e4 x).trans ?_⟩
  constructor
  · rintro ⟨k, hk, e⟩
    dsimp only at hk e
    by_cases hk0 : k = 0
    · rw [hk0, Function.update_self] at e
      refine ⟨fun hx => ?_, q.size - 1, by omega, e⟩
      have := hp.inj _ _ (by omega) h (e.trans hx)
      omega
    · rw [hne k hk0] at e
      refine ⟨fun hx => ?_, k, by omega, e⟩
      have := hp.inj _ _ (by omega) h (e.trans hx)
      omega
  · rintro ⟨hx0, k, hk, e⟩
    by_cases hkl : k = q.size - 1
    · have hz : 0 < q.size - 1 := by
        rcases Nat.eq_zero_or_pos (q.size - 1) with hz | hz
        · exact (hx0 (by rw [← e, hkl, hz])).elim
        · exact hz
      exact ⟨0, hz, by dsimp only; rw [Function.update_self, ← hkl, e]⟩
    · have hk0 : k ≠ 0 := by rintro rfl; exact hx0 e.symm
      exact ⟨k, by dsimp only; omega, by dsimp only; rw [hne k hk0, e]⟩

/-- The map has the right index of `e`. -/
def Fresh (q : PQ E) (e : E) : Prop := ∃ k, k < q.size ∧ q.heap k = e ∧ q.back e = some k

/-- **C32.** Every element that is not at the root has the right index. -/
theorem fresh_of_not_top {q : PQ E} (hp : Placed q) {e : E} (h : Holds q e) (ht : e ≠ q.heap 0) : Fresh q e := by
  obtain ⟨k, hk, rfl⟩ := h
  have h0 : 0 < k := by
    rcases Nat.eq_zero_or_pos k with rfl | h0
    · exact (ht rfl).elim
    · exact h0
  exact ⟨k, hk, rfl, hp.index k h0 hk⟩

/-- **C32.** If the map has the right index of `e`, changing its key to anything and calling `update_position` restores the heap. -/
theorem update_spec {key key' : E → K} {q : PQ E} (hp : Placed q) (ho : Order key q) {e : E} (hf : Fresh q e)
    (hk : ∀ x, x ≠ e → key' x = key x) :
    ∃ q', q.updatePosition key' e = .ok q' ∧ q'.size = q.size ∧ Placed q' ∧ Order key' q' ∧ ∀ x, Holds q' x ↔ Holds q x := by
  obtain ⟨i, hi, hie, hb⟩ := hf
  have hkey : ∀ k, k < q.size → k ≠ i → key' (q.heap k) = key (q.heap k) := by
    intro k hk1 hk2
    apply hk
    intro h
    exact hk2 (hp.inj _ _ hk1 hi (h.trans hie.symm))
  have hl : Loose key' q i := by
    constructor
    · intro k h0 h1 h2 h3
      have := parent_lt h0
      rw [hkey k h1 h2, hkey (parent k) (by omega) h3]
      exact ho k h0 h1
    · intro h k h0 h1 h2
      have h3 := parent_lt h0
      have h4 := parent_lt h
      rw [hkey k h1 (by omega), hkey (parent i) (by omega) (by omega)]
      have h5 := ho k h0 h1
      rw [h2] at h5
      exact le_trans (ho i h hi) h5
  obtain ⟨q', j, e1, e2, e3, e4, e5, e6, e7, e8, _, e10, e11⟩ := percolateUp_spec key' q i hi hl hp
  have hbj : q'.back e = some j := by
    by_cases hji : j = i
    · rw [e11 hji, hji]; exact hb
    · rw [← hie]; exact e10 hji
  obtain ⟨d1, d2, d3, d4⟩ := percolateDown_spec key' q' j (.inl (by omega)) e7 e8 e4
  refine ⟨_, ?_, d1.trans e2, d2, d3, fun x => (d4 x).trans (e6 x)⟩
  simp only [PQ.updatePosition, hb, e1, Outcome.ok_bind, hbj]

/-! ## Histories -/

/-- What the owner of the queue can do. -/
inductive Op (E K : Type) where
  | push (e : E) (v : K)
  | pop
  /-- the key of an element is set, then `update_position` is called -/
  | update (e : E) (v : K)

/-- Queue and keys. -/
structure State (E K : Type) where
  q : PQ E
  key : E → K

def step (s : State E K) : Op E K → Outcome (State E K)
  | .push e v => let key := Function.update s.key e v; (s.q.push key e).bind fun q => .ok ⟨q, key⟩
  | .pop => (s.q.pop s.key).bind fun q => .ok ⟨q, s.key⟩
  | .update e v => let key := Function.update s.key e v; (s.q.updatePosition key e).bind fun q => .ok ⟨q, key⟩

/-- Which operations are allowed, and what they do to the set of elements: push what is not in, pop when not empty (some minimal
element leaves), update an element that is not the one on top. -/
inductive Legal : State E K → Op E K → Prop
  | push {s e v} : ¬ Holds s.q e → Legal s (.push e v)
  | pop {s} : 0 < s.q.size → Legal s .pop
  | update {s e v} : Holds s.q e → e ≠ s.q.heap 0 → Legal s (.update e v)

/-- A history of legal operations, with the states passed through. -/
inductive History : State E K → List (Op E K) → State E K → Prop
  | nil (s) : History s [] s
  | cons {s s' s'' op ops} : Legal s op → step s op = .ok s' → History s' ops s'' → History s (op :: ops) s''

def Good (s : State E K) : Prop := Placed s.q ∧ Order s.key s.q

theorem order_congr {key key' : E → K} {q : PQ E} (ho : Order key q) (h : ∀ k, k < q.size → key' (q.heap k) = key (q.heap k)) : Order key' q := by
  intro k h0 hk
  have := parent_lt h0
  rw [h k hk, h (parent k) (by omega)]
  exact ho k h0 hk

/-- **C31, C32.** A legal operation does not fail, keeps heap order and map, and has the intended effect on the set of elements; a pop
removes an element whose key is minimal. -/
theorem step_spec {s : State E K} (hg : Good s) {op : Op E K} (hl : Legal s op) :
    ∃ s', step s op = .ok s' ∧ Good s' ∧
      (∀ e v, op = .push e v → (∀ x, Holds s'.q x ↔ x = e ∨ Holds s.q x) ∧ s'.key = Function.update s.key e v) ∧
      (op = .pop → ∃ m, Holds s.q m ∧ (∀ x, Holds s.q x → s.key m ≤ s.key x) ∧ (∀ x, Holds s'.q x ↔ x ≠ m ∧ Holds s.q x) ∧ s'.key = s.key) ∧
      (∀ e v, op = .update e v → (∀ x, Holds s'.q x ↔ Holds s.q x) ∧ s'.key = Function.update s.key e v) := by
  obtain ⟨hp, ho⟩ := hg
  cases hl with
  | @push e v he =>
    have ho' : Order (Function.update s.key e v) s.q := order_congr ho fun k hk => Function.update_of_ne (fun h => he ⟨k, hk, h⟩) _ _
    obtain ⟨q', h1, h2, h3, h4⟩ := push_spec hp ho' he
    refine ⟨⟨q', Function.update s.key e v⟩, by simp only [step]; rw [h1]; rfl, ⟨h2, h3⟩, ?_, by simp, by simp⟩
    intro e' v' h
    cases h
    exact ⟨h4, rfl⟩
  | pop h =>
    obtain ⟨q', h1, _, h2, h3, h4⟩ := pop_spec hp ho h
    refine ⟨⟨q', s.key⟩, by simp only [step]; rw [h1]; rfl, ⟨h2, h3⟩, by simp, fun _ => ?_, by simp⟩
    refine ⟨s.q.heap 0, ⟨0, h, rfl⟩, fun x hx => ?_, h4, rfl⟩
    obtain ⟨t, ht, _, hle⟩ := top_min ho x hx
    rw [PQ.top, if_neg (by omega)] at ht
    cases ht
    exact hle
  | @update e v he ht =>
    obtain ⟨q', h1, _, h2, h3, h4⟩ := update_spec hp ho (fresh_of_not_top hp he ht) (key' := Function.update s.key e v)
      (fun x hx => Function.update_of_ne hx _ _)
    refine ⟨⟨q', Function.update s.key e v⟩, by simp only [step]; rw [h1]; rfl, ⟨h2, h3⟩, by simp, by simp, ?_⟩
    intro e' v' h
    cases h
    exact ⟨h4, rfl⟩

/-- The empty queue. -/
theorem empty_good [Inhabited E] (key : E → K) : Good (⟨empty, key⟩ : State E K) := by
  refine ⟨⟨?_, ?_, ?_, ?_⟩, ?_⟩ <;> simp [empty, Order]

/-- **C31, C32.** Heap order and map hold after every history of legal operations from the empty queue. -/
theorem history [Inhabited E] {key : E → K} {ops : List (Op E K)} {s : State E K} (h : History ⟨empty, key⟩ ops s) : Good s := by
  have : ∀ {s₀ s : State E K} {ops}, History s₀ ops s → Good s₀ → Good s := by
    intro s₀ s ops h
    induction h with
    | nil => exact id
    | cons hl hs _ ih =>
      intro hg
      obtain ⟨s', h1, h2, _⟩ := step_spec hg hl
      rw [hs] at h1
      cases h1
      exact ih h2
  exact this h (empty_good key)

/-- **C31.** Misuse is stopped by the assertions: a second push of a stored element, top and pop of the empty queue, re-positioning of
an element that is not stored. -/
theorem misuse_aborts {key : E → K} {q : PQ E} (hp : Placed q) (e : E) :
    (Holds q e → q.push key e = .abort 134) ∧ (q.size = 0 → q.top = .abort 134 ∧ q.pop key = .abort 134) ∧
      (¬ Holds q e → q.updatePosition key e = .abort 134) := by
  refine ⟨fun h => ?_, fun h => ⟨?_, ?_⟩, fun h => ?_⟩
  · exact if_pos ((holds_iff_back hp e).1 h)
  · rw [PQ.top, if_pos h]
  · rw [PQ.pop, if_pos h]
  · have hb : q.back e = none := hp.out e fun k hk he => h ⟨k, hk, he⟩
    simp only [PQ.updatePosition, hb]

/-! ## The stale index -/

/-- Keys 1, 3, 2 for elements 0, 1, 2. -/
def exampleKey : Nat → Int := fun e => if e = 0 then 1 else if e = 1 then 3 else 2

/-- The queue after `push(0); push(1); push(2); pop()`. -/
def afterPop : Outcome (PQ Nat) :=
  ((empty : PQ Nat).push exampleKey 0).bind fun q => (q.push exampleKey 1).bind fun q => (q.push exampleKey 2).bind fun q => q.pop exampleKey

/-- A decidable test of a run. -/
def holdsOf {α : Type} (o : Outcome α) (p : α → Bool) : Bool := match o with
  | .ok a => p a
  | _ => false

def isUb {α : Type} : Outcome α → Bool
  | .ub => true
  | _ => false

theorem of_holdsOf {α : Type} {o : Outcome α} {p : α → Bool} (h : holdsOf o p = true) : ∃ a, o = .ok a ∧ p a = true := by
  cases o with
  | ok a => exact ⟨a, rfl, h⟩
  | ub => cases h
  | abort => cases h

theorem of_isUb {α : Type} {o : Outcome α} (h : isUb o = true) : o = .ub := by
  cases o with
  | ub => rfl
  | ok => cases h
  | abort => cases h

/-- **C32, negative.** After a pop the map can give the element on top an index beyond the end of the heap; if the key of that
element is then lowered and `update_position` called, as `algorithms/tessellate.hpp` does, memory behind the vector is read. -/
theorem stale_index : ∃ q, afterPop = .ok q ∧ q.size = 2 ∧ q.heap 0 = 2 ∧ q.back 2 = some 2 ∧
    q.updatePosition (Function.update exampleKey 2 0) 2 = .ub := by
  have h : holdsOf afterPop (fun q => decide (q.size = 2 ∧ q.heap 0 = 2 ∧ q.back 2 = some 2) &&
      isUb (q.updatePosition (Function.update exampleKey 2 0) 2)) = true := by decide +kernel
  obtain ⟨q, h1, h2⟩ := of_holdsOf h
  rw [Bool.and_eq_true, decide_eq_true_eq] at h2
  exact ⟨q, h1, h2.1.1, h2.1.2.1, h2.1.2.2, of_isUb h2.2⟩

/-- Keys 1, 3, 2, 5. -/
def exampleKey' : Nat → Int := fun e => if e = 3 then 5 else exampleKey e

/-- **C32, negative.** If another element has been pushed in the meantime, updating the element on top moves that other element
instead, and afterwards the top is not a minimum: element 3 with key 5 is on top while element 1 has key 3. -/
theorem stale_index_misorders : ∃ q q', (afterPop.bind fun q => q.push exampleKey' 3) = .ok q ∧ q.heap 0 = 2 ∧
    q.updatePosition (Function.update exampleKey' 2 9) 2 = .ok q' ∧ q'.top = .ok 3 ∧
    Holds q' 1 ∧ ¬ Function.update exampleKey' 2 9 3 ≤ Function.update exampleKey' 2 9 1 := by
  have h : holdsOf (afterPop.bind fun q => q.push exampleKey' 3) (fun q => decide (q.heap 0 = 2) &&
      holdsOf (q.updatePosition (Function.update exampleKey' 2 9) 2) fun q' =>
        decide (q'.size = 3 ∧ q'.heap 0 = 3 ∧ q'.heap 1 = 1)) = true := by decide +kernel
  obtain ⟨q, h1, h2⟩ := of_holdsOf h
  rw [Bool.and_eq_true, decide_eq_true_eq] at h2
  obtain ⟨q', h3, h4⟩ := of_holdsOf h2.2
  rw [decide_eq_true_eq] at h4
  refine ⟨q, q', h1, h2.1, h3, ?_, ⟨1, by omega, h4.2.2⟩, by decide⟩
  rw [PQ.top, if_neg (by omega), h4.2.1]

/-! ## Examples -/

/-- A history with a push, a second push that goes to the top, an update that moves an element, and a pop. -/
def exampleRun : Outcome (State Nat Int) :=
  (step ⟨empty, fun _ => 0⟩ (.push 7 5)).bind fun s => (step s (.push 8 3)).bind fun s => (step s (.push 9 6)).bind fun s =>
  (step s (.update 9 1)).bind fun s => step s .pop

example : holdsOf exampleRun (fun s => decide (s.q.size = 2 ∧ s.q.heap 0 = 8 ∧ s.q.heap 1 = 7)) = true := by decide +kernel

example : ∃ s : State Nat Int, Good s ∧ Legal s (.push 7 5) :=
  ⟨⟨empty, fun _ => 0⟩, empty_good _, .push (by rintro ⟨k, hk, _⟩; exact absurd hk (Nat.not_lt_zero k))⟩

example : ∃ s : State Nat Int, Good s ∧ Legal s .pop ∧ ∃ e v, Legal s (.update e v) := by
  have hl0 : Legal (⟨empty, fun _ => 0⟩ : State Nat Int) (.push 7 5) := .push (by rintro ⟨k, hk, _⟩; exact absurd hk (Nat.not_lt_zero k))
  obtain ⟨s, h1, h2, h3, _⟩ := step_spec (empty_good (fun _ : Nat => (0 : Int))) hl0
  have h3 := (h3 7 5 rfl).1
  have hl1 : Legal s (.push 8 3) := .push (fun h => by
    rcases (h3 8).1 h with h | ⟨k, hk, _⟩
    · exact absurd h (by decide)
    · exact absurd hk (Nat.not_lt_zero k))
  obtain ⟨s', h4, h5, h6, _⟩ := step_spec h2 hl1
  have h6 := (h6 8 3 rfl).1
  have h7 : Holds s'.q 7 := (h6 7).2 (.inr ((h3 7).2 (.inl rfl)))
  have h8 : Holds s'.q 8 := (h6 8).2 (.inl rfl)
  refine ⟨s', h5, .pop (by obtain ⟨k, hk, _⟩ := h7; omega), ?_⟩
  by_cases h : s'.q.heap 0 = 7
  · exact ⟨8, 0, .update h8 (by rw [h]; decide)⟩
  · exact ⟨7, 0, .update h7 (fun e => h e.symm)⟩

end MMSP.PriorityQueue
