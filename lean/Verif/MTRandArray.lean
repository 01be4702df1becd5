import Verif.MTRandSeed
/-!
# The random number generator: which streams seed arrays reach (C139)

The comment of `seed(uint32*, uint32)` (`algorithms/MersenneTwister.h` 209-213) says that there are 2^19937 - 1 possible initial states and that the function allows all of those to be accessed.
Here: it reaches exactly those in which the highest bit of the first word is set (the function sets it, 238), 2^19936 of them, and arrays of 624 words suffice.
-/

namespace MMSP.MTRand

/-- What the words depend on. -/
theorem words_of_window {x y : Nat → Nat} (h0 : x 0 / 2 ^ 31 % 2 = y 0 / 2 ^ 31 % 2) (h : ∀ i, 1 ≤ i → i < 624 → x i = y i) {k : Nat} (hk : 1 ≤ k) : mtSeq x k = mtSeq y k := by
  induction k using Nat.strong_induction_on with
  | _ k ih =>
    rw [mtSeq]; conv_rhs => rw [mtSeq]
    split_ifs with d
    · exact h k hk d
    · rw [ih (k - 227) (by omega) (by omega), ih (k - 623) (by omega) (by omega)]
      by_cases d : k = 624
      · subst d
        have e : ∀ z : Nat → Nat, mtSeq z (624 - 624) = z 0 := fun z => by rw [Nat.sub_self, mtSeq, if_pos (by decide)]
        rw [e, e]
        unfold join
        rw [h0]
      · rw [ih (k - 624) (by omega) (by omega)]

/-- The value a write of the second loop must find to leave `v`. -/
def undo (n v prev : Nat) : Nat := (v + (n % 623 + 1)) % 2 ^ 32 ^^^ (prev ^^^ prev / 2 ^ 30) * 1566083941 % 2 ^ 32

theorem undo_lt (n v prev : Nat) : undo n v prev < 2 ^ 32 := Nat.xor_lt_two_pow (Nat.mod_lt _ (by decide)) (Nat.mod_lt _ (by decide))

theorem undo_spec {v : Nat} (hv : v < 2 ^ 32) (n prev : Nat) : ((undo n v prev ^^^ (prev ^^^ prev / 2 ^ 30) * 1566083941) + (2 ^ 32 - (n % 623 + 1))) % 2 ^ 32 = v := by
  unfold undo
  generalize (prev ^^^ prev / 2 ^ 30) * 1566083941 = Y
  have hj : n % 623 < 623 := Nat.mod_lt _ (by decide)
  generalize n % 623 = j at hj
  have e : ((v + (j + 1)) % 2 ^ 32 ^^^ Y % 2 ^ 32 ^^^ Y) % 2 ^ 32 = (v + (j + 1)) % 2 ^ 32 := by
    rw [Nat.xor_mod_two_pow, Nat.xor_mod_two_pow, Nat.mod_mod, Nat.mod_mod, Nat.xor_assoc, Nat.xor_self, Nat.xor_zero]
  generalize (v + (j + 1)) % 2 ^ 32 ^^^ Y % 2 ^ 32 ^^^ Y = Z at e
  omega

/-- The key that makes a write of the first loop leave `b`. -/
def keyFor (n b X : Nat) : Nat := (b + (2 ^ 32 - X % 2 ^ 32) + (2 ^ 32 - n)) % 2 ^ 32

theorem keyFor_spec {n b : Nat} (hn : n < 624) (hb : b < 2 ^ 32) (X : Nat) : (X + keyFor n b X + n) % 2 ^ 32 = b := by
  unfold keyFor
  omega

/-- The writes of the second loop that leave `T` in the array. -/
def last (T : Nat → Nat) (n : Nat) : Nat := if n = 1246 then T 1 else T (n - 622)

/-- The writes of the first loop before them; the very first of them is free. -/
def first (c : Nat) (T : Nat → Nat) (n : Nat) : Nat :=
  if n = 0 then c % 2 ^ 32 else if n = 1 then undo 624 (last T 624) (undo 1246 (last T 1246) (last T 1245)) else undo (n + 623) (last T (n + 623)) (last T (n + 622))

theorem first_lt (c : Nat) (T : Nat → Nat) (n : Nat) : first c T n < 2 ^ 32 := by
  unfold first
  split_ifs
  · exact Nat.mod_lt _ (by decide)
  · exact undo_lt _ _ _
  · exact undo_lt _ _ _

/-- What write `n` of the first loop is computed from, apart from the key. -/
def base (c : Nat) (T : Nat → Nat) (n : Nat) : Nat :=
  (if n < 623 then knuth 19650218 (n + 1) else first c T (n - 623)) ^^^ ((if n = 0 then knuth 19650218 0 else first c T (n - 1)) ^^^
      (if n = 0 then knuth 19650218 0 else first c T (n - 1)) / 2 ^ 30) * 1664525

/-- The array of 624 words that leads to `T`. -/
def keys (c : Nat) (T : Nat → Nat) : List Nat := (List.range 624).map fun n => keyFor n (first c T n) (base c T n)

theorem keys_length (c : Nat) (T : Nat → Nat) : (keys c T).length = 624 := by rw [keys, List.length_map, List.length_range]

theorem keys_at (c : Nat) (T : Nat → Nat) {n : Nat} (hn : n < 624) : (keys c T).getD n 0 = keyFor n (first c T n) (base c T n) := by
  rw [keys, List.getD_eq_getElem?_getD, List.getElem?_map, List.getElem?_range hn]
  rfl

theorem keys_low (c : Nat) (T : Nat → Nat) : ∀ w ∈ keys c T, w < 2 ^ 32 := by
  intro w hw
  obtain ⟨n, _, rfl⟩ := List.mem_map.1 hw
  exact Nat.mod_lt _ (by decide)

theorem first_loop (c : Nat) (T : Nat → Nat) {n : Nat} (hn : n < 624) : byArray (keys c T) n = first c T n := by
  induction n using Nat.strong_induction_on with
  | _ n ih =>
    have hl := keys_length c T
    have e1 : (if n < 623 then knuth 19650218 (n + 1) else byArray (keys c T) (n - 623)) = if n < 623 then knuth 19650218 (n + 1) else first c T (n - 623) := by
      split_ifs with d
      · rfl
      · exact ih _ (by omega) (by omega)
    have e2 : (if n = 0 then knuth 19650218 0 else byArray (keys c T) (n - 1)) = if n = 0 then knuth 19650218 0 else first c T (n - 1) := by
      split_ifs with d
      · rfl
      · exact ih _ (by omega) (by omega)
    rw [byArray_key (by omega), e1, e2, hl, Nat.mod_eq_of_lt hn, keys_at c T hn]
    exact keyFor_spec hn (first_lt c T n) (base c T n)

theorem last_lt {T : Nat → Nat} (hT : ∀ i, 1 ≤ i → i < 624 → T i < 2 ^ 32) {n : Nat} (h1 : 624 ≤ n) (h2 : n ≤ 1246) : last T n < 2 ^ 32 := by
  unfold last
  split_ifs
  · exact hT 1 (by omega) (by omega)
  · exact hT _ (by omega) (by omega)

theorem second_loop (c : Nat) {T : Nat → Nat} (hT : ∀ i, 1 ≤ i → i < 624 → T i < 2 ^ 32) {n : Nat} (h1 : 624 ≤ n) (h2 : n ≤ 1246) : byArray (keys c T) n = last T n := by
  induction n using Nat.strong_induction_on with
  | _ n ih =>
    have hl := keys_length c T
    rw [byArray_index (by omega), if_neg (by omega), if_neg (by omega), first_loop c T (show n - 623 < 624 by omega)]
    have hlt := last_lt hT h1 h2
    by_cases d : n = 624
    · subst d
      rw [show 624 - 623 = 1 by omega, show 624 - 1 = 623 by omega, first_loop c T (show 623 < 624 by omega)]
      have f1 : first c T 1 = undo 624 (last T 624) (first c T 623) := by
        unfold first
        rw [if_neg (by omega), if_pos rfl, if_neg (by omega), if_neg (by omega)]
      rw [f1]
      exact undo_spec hlt 624 _
    · rw [ih (n - 1) (by omega) (by omega) (by omega)]
      have f1 : first c T (n - 623) = undo n (last T n) (last T (n - 1)) := by
        unfold first
        rw [if_neg (by omega), if_neg (by omega), show n - 623 + 623 = n by omega, show n - 623 + 622 = n - 1 by omega]
      rw [f1]
      exact undo_spec hlt n _

theorem keys_reach (c : Nat) {T : Nat → Nat} (hT : ∀ i, 1 ≤ i → i < 624 → T i < 2 ^ 32) {i : Nat} (h1 : 1 ≤ i) (h2 : i < 624) : arrayWords (keys c T) i = T i := by
  unfold arrayWords
  rw [if_neg (by omega), keys_length, Nat.max_self, second_loop c hT (by omega) (by omega)]
  unfold last
  split_ifs with d
  · rw [show i = 1 by omega]
  · have e : 624 + (i + 622 - 624 % 623) % 623 - 622 = i := by omega
    rw [e]

theorem numbers_at {x : Nat → Nat} {g : MT} (h : At (mtSeq x) 624 g) (n : Nat) : numbers (draws n g) = .ok ((List.range n).map fun i => temper (mtSeq x (624 + i))) := by
  obtain ⟨g', e, _⟩ := draws_spec n 624 g h
  rw [e]; rfl

/-- **C139.** A generator with any words in its array: some seed array makes a generator deliver the same numbers if and only if the highest bit of the first word is set. Then an array of 624
words below 2³² does; otherwise every array leads to other numbers, within the first 624. -/
theorem array_reaches (x : Nat → Nat) (hx : ∀ i, i < 624 → x i < 2 ^ 32) (g : MT) (a b : Nat) :
    (2 ^ 31 ≤ x 0 → ∃ key, key.length = 624 ∧ (∀ w ∈ key, w < 2 ^ 32) ∧ ∃ g', seedArray g key = .ok g' ∧ ∀ n, numbers (draws n g') = numbers (draws n (reload ⟨x, a, b⟩))) ∧
    (x 0 < 2 ^ 31 → ∀ key g', seedArray g key = .ok g' → numbers (draws 624 g') ≠ numbers (draws 624 (reload ⟨x, a, b⟩))) := by
  have hr : At (mtSeq x) 624 (reload ⟨x, a, b⟩) := reload_at ⟨x, a, b⟩
  constructor
  · intro h0
    have hk : keys 0 x ≠ [] := by
      intro e
      have := keys_length 0 x
      rw [e] at this
      cases this
    obtain ⟨w, e, hw⟩ := seedArray_low g (keys_low 0 x) hk
    refine ⟨keys 0 x, keys_length 0 x, keys_low 0 x, _, e, fun n => ?_⟩
    rw [numbers_at (reload_at { g with state := w }), numbers_at hr]
    have hx0 := hx 0 (by omega)
    have hw0 : w 0 = 2 ^ 31 := hw 0 (by omega)
    have e : ∀ i, mtSeq w (624 + i) = mtSeq x (624 + i) := fun i =>
      words_of_window (by rw [hw0]; omega) (fun i h1 h2 => (hw i h2).trans (keys_reach 0 (fun i _ h => hx i h) h1 h2)) (by omega)
    exact congrArg Outcome.ok (List.map_congr_left fun i _ => congrArg temper (e i))
  · intro h0 key g' hg e
    have hk : key ≠ [] := by
      rintro rfl
      rw [seedArray_empty] at hg
      cases hg
    obtain ⟨w, w', e1, _, _, hw, hw0⟩ := seedArray_spec g g hk
    rw [hg] at e1
    cases e1
    rw [numbers_at (reload_at { g with state := w }), numbers_at hr] at e
    have e := Outcome.ok.inj e
    have ws : ∀ i, i < 624 → mtSeq w (624 + i) = mtSeq x (624 + i) := fun i hi =>
      temper_inj (mtSeq_lt hw _) (mtSeq_lt hx _) (List.map_inj_left.1 e i (List.mem_range.2 hi))
    have bt := (words_back hw hx ws 623 0 rfl).2
    rw [mtSeq, if_pos (by omega), mtSeq, if_pos (by omega), hw0] at bt
    omega

/-- **C139.** So a generator seeded with a number whose lower 32 bits are below 2³¹ delivers numbers that no seed array leads to, and one seeded with any other number can be had by an array. -/
theorem array_or_number (s : Nat) (g h : MT) :
    (s % 2 ^ 32 < 2 ^ 31 → ∀ key g', seedArray g key = .ok g' → numbers (draws 624 g') ≠ numbers (draws 624 (seed h s))) ∧
    (2 ^ 31 ≤ s % 2 ^ 32 → ∃ key, key.length = 624 ∧ (∀ w ∈ key, w < 2 ^ 32) ∧ ∃ g', seedArray g key = .ok g' ∧ ∀ n, numbers (draws n g') = numbers (draws n (seed h s))) := by
  have hn : ∀ n, numbers (draws n (seed h s)) = numbers (draws n (reload ⟨knuth s, 0, 0⟩)) := fun n => by
    rw [numbers_at (seed_at h s), numbers_at (reload_at ⟨knuth s, 0, 0⟩)]
  obtain ⟨p, q⟩ := array_reaches (knuth s) (fun i _ => knuth_lt s i) g 0 0
  simp only [hn]
  exact ⟨q, p⟩

/-- Both cases occur: seed 1 and seed 2³¹. -/
example : 1 % 2 ^ 32 < 2 ^ 31 ∧ 2 ^ 31 ≤ 2 ^ 31 % 2 ^ 32 := by decide

end MMSP.MTRand
