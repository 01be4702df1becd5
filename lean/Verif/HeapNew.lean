import Verif.HeapSeq
/-!
# Constructing a vector, and elements outside it

Completes the laws of `Verif.HeapSeq`: the default constructor, reading an element, and what `operator[]` does with an
index past the end.
-/

namespace MMSP.Heap

variable {T : Type}

/-- **C23.** Constructing a vector where no object lives gives the empty vector; no other object changes and no storage is lost.
The place itself may contain anything but a pointer to storage (so also what `vDestroy` left). -/
theorem new_correct {m : Mem T} {a : Nat} (hfresh : ∀ id, m.next ≤ id → m.blk id = none)
    (hothers : ∀ b, b ≠ a → ∃ l, Holds m b l)
    (hapart : ∀ b c, b ≠ c → (m.obj b).data = (m.obj c).data → (m.obj b).data = none)
    (ha : (m.obj a).data = none) : Updates m (vNew m a) a [] := by
  have hh : Holds (vNew m a) a [] := by simp [Holds, vNew, setObj]
  have hf : ∀ b, b ≠ a → ∀ k, Holds m b k → Holds (vNew m a) b k := by
    intro b hb k hk
    simpa [Holds, vNew, setObj, Function.update_of_ne hb] using hk
  have hd : ∀ b, ((vNew m a).obj b).data = (m.obj b).data := by
    intro b
    by_cases h : b = a
    · subst h; simp [vNew, setObj, ha]
    · simp [vNew, setObj, Function.update_of_ne h]
  refine ⟨⟨⟨hfresh, ?_, ?_⟩, hh, hf⟩, ?_⟩
  · intro b
    by_cases h : b = a
    · exact ⟨[], h ▸ hh⟩
    · obtain ⟨l, hl⟩ := hothers b h
      exact ⟨l, hf b h l hl⟩
  · intro b c hbc h
    rw [hd, hd] at h
    rw [hd]; exact hapart b c hbc h
  · intro hn id hid
    obtain ⟨b, hb⟩ := hn id hid
    exact ⟨b, by rw [hd]; exact hb⟩

/-- **C23.** `v[i]` gives element `i` when there is one and it was written. An index at or past the end stops the program at the
assertion, for reading and for writing alike, and an index below 0 or an element that was never written is not
protected: reading it is undefined behaviour. -/
theorem index_correct {m : Mem T} {a : Nat} {l : List (Option T)} (ha : Holds m a l) (i : Int) :
    (∀ v, 0 ≤ i → l[i.toNat]? = some (some v) → at' m a i = .ok v) ∧
    ((l.length : Int) ≤ i → at' m a i = .abort 134 ∧ ∀ v, vSet m a i v = .abort 134) ∧
    (i < 0 → at' m a i = .ub ∧ ∀ v, vSet m a i v = .ub) ∧
    (0 ≤ i → l[i.toNat]? = some none → at' m a i = .ub) := by
  have hs := ha.1
  have h2 := ha.2
  refine ⟨?_, ?_, ?_, ?_⟩
  · intro v h0 hv
    have hlt : i.toNat < l.length := by
      by_contra h
      rw [List.getElem?_eq_none (by omega)] at hv
      cases hv
    unfold at'
    rw [if_pos (by omega)]
    cases hd : (m.obj a).data with
    | none => simp only [hd] at h2; subst h2; simp at hlt
    | some id => simp only [hd] at h2; simp [load, h2, h0, hv]
  · intro h
    exact ⟨by unfold at'; rw [if_neg (by omega)], fun v => by unfold vSet; rw [if_neg (by omega)]⟩
  · intro h
    constructor
    · unfold at'
      rw [if_pos (by omega)]
      cases hd : (m.obj a).data with
      | none => rfl
      | some id =>
        simp only [hd] at h2
        simp only [load, h2]
        rw [if_neg (by omega)]
    · intro v
      unfold vSet
      rw [if_pos (by omega)]
      cases hd : (m.obj a).data with
      | none => rfl
      | some id =>
        simp only [hd] at h2
        simp only [store, h2]
        rw [if_neg (by omega)]
  · intro h0 hv
    have hlt : i.toNat < l.length := by
      by_contra h
      rw [List.getElem?_eq_none (by omega)] at hv
      cases hv
    unfold at'
    rw [if_pos (by omega)]
    cases hd : (m.obj a).data with
    | none => simp only [hd] at h2; subst h2; simp at hlt
    | some id => simp only [hd] at h2; simp [load, h2, h0, hv]

/-- A vector destroyed and constructed again is empty. -/
example : ∃ m m' : Mem Int, Holds m 0 ([2, 3].map some) ∧ vDestroy m 0 = .ok m' ∧ Holds (vNew m' 0) 0 [] := by
  have hA : Allowed (fun _ => []) [.append 0 (2 : Int), .append 0 3] := by simp [Allowed, Op.allowed]
  obtain ⟨m, -, hw, h⟩ := history_correct (fun _ => none) _ empty_wf empty_holds hA
  have h0 : Holds m 0 ([2, 3].map some) := by simpa [Op.spec] using h 0
  obtain ⟨m', e, hd, -⟩ := destroy_correct hw 0
  exact ⟨m, m', h0, e, by simp [Holds, vNew, setObj]⟩

/-- The hypotheses of `new_correct` hold in the empty memory. -/
example : Updates (empty Int) (vNew (empty Int) 3) 3 [] :=
  new_correct empty_wf.fresh (fun b _ => empty_wf.holds b) empty_wf.apart rfl

/-- Reading past the end of a vector of two elements stops the program. -/
example : ∃ m : Mem Int, Holds m 0 ([2, 3].map some) ∧ at' m 0 1 = .ok 3 ∧ at' m 0 2 = .abort 134 ∧ at' m 0 (-1) = .ub := by
  have hA : Allowed (fun _ => []) [.append 0 (2 : Int), .append 0 3] := by simp [Allowed, Op.allowed]
  obtain ⟨m, -, hw, h⟩ := history_correct (fun _ => none) _ empty_wf empty_holds hA
  have h0 : Holds m 0 ([2, 3].map some) := by simpa [Op.spec] using h 0
  exact ⟨m, h0, (index_correct h0 1).1 3 (by decide) rfl, ((index_correct h0 2).2.1 (by decide)).1,
    ((index_correct h0 (-1)).2.2.1 (by decide)).1⟩

end MMSP.Heap
