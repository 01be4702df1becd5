import Verif.MTRandSeed
import Mathlib.Data.Fintype.BigOperators
/-!
# The random number generator: the numbers repeat (C138)

`reload` (`algorithms/MersenneTwister.h` 184-198) uses one bit of its oldest word and the 623 words behind it, 19937 bits, and can be undone. So the numbers of a generator repeat from the
first one on, after at most 2^19937 - 1 numbers. From that: which calls of `randInt(n)` (300-317) return.
-/

namespace MMSP.MTRand

/-- What the words from number `k` on depend on: the highest bit of word `k` and the 623 words behind it. -/
def window (x : Nat → Nat) (k : Nat) : Fin 2 × (Fin 623 → Fin (2 ^ 32)) :=
  (⟨mtSeq x k / 2 ^ 31 % 2, Nat.mod_lt _ (by decide)⟩, fun i => ⟨mtSeq x (k + 1 + i) % 2 ^ 32, Nat.mod_lt _ (by decide)⟩)

theorem window_eq {x : Nat → Nat} (hx : ∀ i, i < 624 → x i < 2 ^ 32) (k l : Nat) : window x k = window x l ↔
    mtSeq x k / 2 ^ 31 % 2 = mtSeq x l / 2 ^ 31 % 2 ∧ ∀ i, 1 ≤ i → i < 624 → mtSeq x (k + i) = mtSeq x (l + i) := by
  unfold window
  rw [Prod.mk.injEq, Fin.mk.injEq, funext_iff]
  refine and_congr_right fun _ => ⟨fun h i h1 h2 => ?_, fun h i => ?_⟩
  · have := h ⟨i - 1, by omega⟩
    rw [Fin.mk.injEq, Nat.mod_eq_of_lt (mtSeq_lt hx _), Nat.mod_eq_of_lt (mtSeq_lt hx _)] at this
    rwa [show k + 1 + (i - 1) = k + i by omega, show l + 1 + (i - 1) = l + i by omega] at this
  · have := h (1 + i.1) (by omega) (by have := i.2; omega)
    rw [Fin.mk.injEq, Nat.add_assoc, Nat.add_assoc, this]

theorem window_next {x : Nat → Nat} (hx : ∀ i, i < 624 → x i < 2 ^ 32) {k l : Nat} : window x k = window x l ↔ window x (k + 1) = window x (l + 1) := by
  rw [window_eq hx, window_eq hx]
  have lk := mtSeq_lt hx (k + 1)
  have ll := mtSeq_lt hx (l + 1)
  have ek := mtSeq_next x k
  have el := mtSeq_next x l
  constructor
  · rintro ⟨h0, h⟩
    have h1 := h 1 (by omega) (by omega)
    refine ⟨by rw [h1], fun i i1 i2 => ?_⟩
    by_cases c : i = 623
    · subst c
      rw [show k + 1 + 623 = k + 624 by omega, show l + 1 + 623 = l + 624 by omega, ek, el, h 397 (by omega) (by omega), h1]
      unfold join
      rw [h0]
    · have := h (1 + i) (by omega) (by omega)
      rwa [← Nat.add_assoc, ← Nat.add_assoc] at this
  · rintro ⟨h0, h⟩
    have h' : ∀ i, 2 ≤ i → i ≤ 624 → mtSeq x (k + i) = mtSeq x (l + i) := fun i i1 i2 => by
      have := h (i - 1) (by omega) (by omega)
      rwa [show k + 1 + (i - 1) = k + i by omega, show l + 1 + (i - 1) = l + i by omega] at this
    have e := h' 624 (by omega) (by omega)
    rw [ek, el, h' 397 (by omega) (by omega), xor_cancel] at e
    have e := xA_inj (join_lt _ _) (join_lt _ _) e
    unfold join at e
    have h1 : mtSeq x (k + 1) = mtSeq x (l + 1) := by omega
    refine ⟨by omega, fun i i1 i2 => ?_⟩
    by_cases c : i = 1
    · subst c; exact h1
    · exact h' i (by omega) (by omega)

theorem window_shift {x : Nat → Nat} (hx : ∀ i, i < 624 → x i < 2 ^ 32) {k l : Nat} : ∀ n, window x k = window x l ↔ window x (k + n) = window x (l + n)
  | 0 => Iff.rfl
  | n + 1 => (window_shift hx n).trans (window_next hx)

/-- The window in which nothing is left. -/
def empty : Fin 2 × (Fin 623 → Fin (2 ^ 32)) := (⟨0, by decide⟩, fun _ => ⟨0, by decide⟩)

theorem window_ne_empty {x : Nat → Nat} (hx : ∀ i, i < 624 → x i < 2 ^ 32) (h : ¬ Dead (mtSeq x) 0) (k : Nat) : window x k ≠ empty := by
  intro e
  refine not_dead hx h k ?_
  unfold window empty at e
  rw [Prod.mk.injEq, Fin.mk.injEq, funext_iff] at e
  refine ⟨e.1, fun i h1 h2 => ?_⟩
  have := e.2 ⟨i - 1, by omega⟩
  rw [Fin.mk.injEq, Nat.mod_eq_of_lt (mtSeq_lt hx _)] at this
  rwa [show k + 1 + (i - 1) = k + i by omega] at this

theorem windows_card : Fintype.card (Fin 2 × (Fin 623 → Fin (2 ^ 32))) = 2 ^ 19937 := by
  rw [Fintype.card_prod, Fintype.card_fun, Fintype.card_fin, Fintype.card_fin, Fintype.card_fin, ← pow_mul, ← pow_succ']

theorem collision {β : Type} [Fintype β] (f : Nat → β) (z : β) (h : ∀ k, f k ≠ z) : ∃ a b, a < b ∧ b < Fintype.card β ∧ f a = f b := by
  classical
  have hN : 0 < Fintype.card β := Fintype.card_pos_iff.2 ⟨z⟩
  obtain ⟨a, ha, b, hb, hab, e⟩ := Finset.exists_ne_map_eq_of_card_lt_of_maps_to (s := Finset.range (Fintype.card β)) (t := Finset.univ.erase z) (f := f)
    (by rw [Finset.card_erase_of_mem (Finset.mem_univ _), Finset.card_univ, Finset.card_range]; omega)
    (fun k _ => by simp [h k])
  rw [Finset.mem_range] at ha hb
  rcases Nat.lt_or_gt_of_ne hab with c | c
  · exact ⟨a, b, c, hb, e⟩
  · exact ⟨b, a, c, ha, e.symm⟩

/-- The words repeat from the first one that is delivered on. -/
theorem words_repeat {x : Nat → Nat} (hx : ∀ i, i < 624 → x i < 2 ^ 32) (h : ¬ Dead (mtSeq x) 0) : ∃ p, 0 < p ∧ p ≤ 2 ^ 19937 - 1 ∧ ∀ n, mtSeq x (624 + n + p) = mtSeq x (624 + n) := by
  obtain ⟨a, b, hab, hb, e⟩ := collision (window x) empty (window_ne_empty hx h)
  rw [windows_card] at hb
  generalize (2 : Nat) ^ 19937 = N at hb ⊢
  have e0 : window x 0 = window x (b - a) := by
    refine (window_shift hx a).2 ?_
    rw [Nat.zero_add, show b - a + a = b by omega]; exact e
  refine ⟨b - a, by omega, by omega, fun n => ?_⟩
  have e1 := (window_shift hx (623 + n)).1 e0
  have := ((window_eq hx _ _).1 e1).2 1 (by omega) (by omega)
  rw [show 624 + n + (b - a) = b - a + (623 + n) + 1 by omega, show 624 + n = 0 + (623 + n) + 1 by omega]
  exact this.symm

/-- The numbers of a generator at word 624 of a sequence repeat. -/
theorem numbers_repeat {x : Nat → Nat} {g : MT} (hg : At (mtSeq x) 624 g) {p : Nat} (hp : ∀ n, mtSeq x (624 + n + p) = mtSeq x (624 + n)) (n : Nat) :
    ∃ l g', draws (p + n) g = .ok (l, g') ∧ numbers (draws n g) = .ok (l.drop p) := by
  obtain ⟨g', e, _⟩ := draws_spec (p + n) 624 g hg
  obtain ⟨g'', e', _⟩ := draws_spec n 624 g hg
  refine ⟨_, g', e, ?_⟩
  rw [e']
  show Outcome.ok _ = _
  congr 1
  refine List.ext_getElem (by simp) fun i h1 h2 => ?_
  rw [List.getElem_drop, List.getElem_map, List.getElem_map, List.getElem_range, List.getElem_range]
  rw [show 624 + (p + i) = 624 + i + p by omega, hp]

/-- **C138.** For every seed there is a number `p`, not zero and at most 2^19937 - 1, such that the numbers from number `p` on are the numbers from the start. -/
theorem seed_repeats (g : MT) (s : Nat) : ∃ p, 0 < p ∧ p ≤ 2 ^ 19937 - 1 ∧ ∀ n, ∃ l g', draws (p + n) (seed g s) = .ok (l, g') ∧ numbers (draws n (seed g s)) = .ok (l.drop p) := by
  obtain ⟨p, h1, h2, h3⟩ := words_repeat (fun i _ => knuth_lt s i) (knuth_alive s)
  exact ⟨p, h1, h2, numbers_repeat (seed_at g s) h3⟩

/-- **C138.** The same for every array that is not empty. -/
theorem array_repeats (g : MT) {key : List Nat} (hk : key ≠ []) : ∃ g', seedArray g key = .ok g' ∧ ∃ p, 0 < p ∧ p ≤ 2 ^ 19937 - 1 ∧
    ∀ n, ∃ l g'', draws (p + n) g' = .ok (l, g'') ∧ numbers (draws n g') = .ok (l.drop p) := by
  obtain ⟨w, w', e1, _, _, hw, h0⟩ := seedArray_spec g g hk
  have alive : ¬ Dead (mtSeq w) 0 := by
    rintro ⟨h, _⟩
    rw [mtSeq, if_pos (by omega), h0] at h
    revert h; decide
  obtain ⟨p, h1, h2, h3⟩ := words_repeat hw alive
  exact ⟨_, e1, p, h1, h2, numbers_repeat (reload_at { g with state := w }) h3⟩

/-- As long as no number is accepted, the bounded draw goes on. -/
theorem randIntTo_rejects {x : Nat → Nat} {n : Nat} : ∀ (fuel t : Nat) (g : MT), At (mtSeq x) t g → (∀ i, i < fuel → n < temper (mtSeq x (t + i)) &&& used n) →
    randIntTo n fuel g = .ok none := by
  intro fuel
  induction fuel with
  | zero => intro t g _ _; rfl
  | succ fuel ih =>
    intro t g h hr
    obtain ⟨g1, e, h'⟩ := randInt_spec h
    rw [randIntTo, e, Outcome.ok_bind]
    exact (if_pos (hr 0 (by omega))).trans (ih (t + 1) g1 h' fun i hi => by
      have := hr (i + 1) (by omega)
      rwa [show t + (i + 1) = t + 1 + i by omega] at this)

/-- **C138.** For every seed and every bound, either every call of `randInt(n)` returns, whatever was drawn before it, or none ever does. -/
theorem bounded_draw (g0 : MT) (s n : Nat) :
    (∀ t l g, draws t (seed g0 s) = .ok (l, g) → ∃ f, ∀ fuel, f < fuel → ∃ r g', r ≤ n ∧ randIntTo n fuel g = .ok (some (r, g'))) ∨
    (∀ t l g, draws t (seed g0 s) = .ok (l, g) → ∀ fuel, randIntTo n fuel g = .ok none) := by
  have at' : ∀ {t l g}, draws t (seed g0 s) = .ok (l, g) → At (mtSeq (knuth s)) (624 + t) g := by
    intro t l g e
    obtain ⟨g', e', h⟩ := draws_spec t 624 _ (seed_at g0 s)
    rw [e] at e'
    cases e'
    exact h
  obtain ⟨p, hp, _, hper⟩ := words_repeat (fun i _ => knuth_lt s i) (knuth_alive s)
  have hmul : ∀ m i, mtSeq (knuth s) (624 + i + m * p) = mtSeq (knuth s) (624 + i) := by
    intro m
    induction m with
    | zero => intro i; rw [Nat.zero_mul, Nat.add_zero]
    | succ m ih =>
      intro i
      rw [Nat.succ_mul, ← Nat.add_assoc, show 624 + i + m * p + p = 624 + (i + m * p) + p by omega, hper, ← Nat.add_assoc, ih]
  by_cases hacc : ∃ i, temper (mtSeq (knuth s) (624 + i)) &&& used n ≤ n
  · left
    obtain ⟨i, hi⟩ := hacc
    intro t l g e
    have hA := at' e
    have hex : ∃ k, temper (mtSeq (knuth s) (624 + t + k)) &&& used n ≤ n := by
      refine ⟨i + t * p - t, ?_⟩
      have : t ≤ t * p := Nat.le_mul_of_pos_right t hp
      rw [show 624 + t + (i + t * p - t) = 624 + i + t * p by omega, hmul]
      exact hi
    classical
    refine ⟨Nat.find hex, fun fuel hf => ?_⟩
    obtain ⟨g', e', _⟩ := randIntTo_spec (Nat.find hex) (624 + t) g hA (fun j hj => Nat.not_le.1 (Nat.find_min hex hj)) (Nat.find_spec hex) fuel hf
    exact ⟨_, g', Nat.find_spec hex, e'⟩
  · right
    intro t l g e fuel
    refine randIntTo_rejects fuel (624 + t) g (at' e) fun i _ => ?_
    by_contra hc
    exact hacc ⟨t + i, by rw [← Nat.add_assoc]; exact Nat.not_lt.1 hc⟩

/-- Seed 5489 and a die: the first number is accepted, so every throw returns. -/
example : temper (mtSeq (knuth 5489) 624) &&& used 5 ≤ 5 := by decide +kernel

end MMSP.MTRand
