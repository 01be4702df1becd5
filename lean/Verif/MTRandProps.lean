import Verif.MTRand
import Verif.FileHeaderProps
import Mathlib.Data.Nat.Size
import Mathlib.Algebra.Order.Field.Rat
import Mathlib.Tactic.NormNum
import Mathlib.Tactic.Linarith
import Mathlib.Data.Finset.Card
/-!
# The random number generator: theorems
-/

namespace MMSP.MTRand

/-! ## Specification: MT19937 -/

/-- The linear map of the recurrence: shift right, with the constant added (without carry) for odd words. -/
def xA (y : Nat) : Nat := y / 2 ^^^ (if y % 2 = 1 then 0x9908B0DF else 0)

/-- Highest bit of one word, the 31 lower bits of the other. -/
def join (u v : Nat) : Nat := u / 2 ^ 31 % 2 * 2 ^ 31 + v % 2 ^ 31

/-- The sequence of words that starts with `x 0, …, x 623`. -/
def mtSeq (x : Nat → Nat) (k : Nat) : Nat :=
  if k < 624 then x k else mtSeq x (k - 227) ^^^ xA (join (mtSeq x (k - 624)) (mtSeq x (k - 623)))
termination_by k

/-- Initial words from a seed (Knuth, TAOCP vol. 2). -/
def knuth (s : Nat) : Nat → Nat
  | 0 => s % 2 ^ 32
  | i + 1 => (1812433253 * (knuth s i ^^^ knuth s i / 2 ^ 30) + (i + 1)) % 2 ^ 32

/-- The generator is about to deliver word number `t` of sequence `x`. -/
def At (x : Nat → Nat) (t : Nat) (g : MT) : Prop :=
  g.next + g.left = 624 ∧ ∃ b, b + g.next = t ∧ ∀ i, i < 624 → g.state i = x (b + i)

/-! ## Words -/

theorem magic_eq (u : Nat) : magic u = if u % 2 = 1 then 0x9908B0DF else 0 := by
  unfold magic loBit
  have : u &&& 1 = u % 2 := Nat.and_one_is_mod u
  rw [this]
  rcases Nat.mod_two_eq_zero_or_one u with h | h <;> simp [h]

theorem loBits_eq (u : Nat) : loBits u = u % 2 ^ 31 := Nat.and_two_pow_sub_one_eq_mod u 31

theorem hiBit_eq (u : Nat) : hiBit u = 2 ^ 31 * (u / 2 ^ 31 % 2) := by
  unfold hiBit
  apply Nat.eq_of_testBit_eq
  intro i
  rw [Nat.testBit_and, show (0x80000000 : Nat) = 2 ^ 31 from rfl, Nat.testBit_two_pow, Nat.testBit_two_pow_mul]
  by_cases h : i = 31
  · subst h
    simp [Nat.testBit_eq_decide_div_mod_eq]
  · by_cases h' : 31 ≤ i
    · have : (u / 2 ^ 31 % 2).testBit (i - 31) = false := Nat.testBit_lt_two_pow (lt_of_lt_of_le (Nat.mod_lt _ (by decide))
        (show 2 ≤ 2 ^ (i - 31) from by
          calc 2 = 2 ^ 1 := rfl
            _ ≤ _ := Nat.pow_le_pow_right (by decide) (by omega)))
      rw [this]; simp [Ne.symm h]
    · simp [h', Ne.symm h]

theorem mixBits_eq (u v : Nat) : mixBits u v = join u v := by
  unfold mixBits join
  rw [hiBit_eq, loBits_eq, ← Nat.two_pow_add_eq_or_of_lt (Nat.mod_lt _ (by positivity)), Nat.mul_comm]

theorem join_mod_two (u v : Nat) : join u v % 2 = v % 2 := by unfold join; omega

/-- `twist` is one step of the recurrence. -/
theorem twist_eq (m u v : Nat) : twist m u v = m ^^^ xA (join u v) := by
  unfold twist xA
  rw [magic_eq, mixBits_eq, join_mod_two, Nat.shiftRight_one, Nat.xor_assoc]

theorem xA_lt {y : Nat} (h : y < 2 ^ 32) : xA y < 2 ^ 32 := by
  unfold xA
  apply Nat.xor_lt_two_pow
  · omega
  · split_ifs <;> decide

theorem join_lt (u v : Nat) : join u v < 2 ^ 32 := by unfold join; omega

theorem mtSeq_lt {x : Nat → Nat} (h : ∀ i, i < 624 → x i < 2 ^ 32) (k : Nat) : mtSeq x k < 2 ^ 32 := by
  induction k using Nat.strong_induction_on with
  | _ k ih =>
    rw [mtSeq]
    split_ifs with hk
    · exact h k hk
    · exact Nat.xor_lt_two_pow (ih _ (by omega)) (xA_lt (join_lt _ _))

theorem knuth_lt (s i : Nat) : knuth s i < 2 ^ 32 := by
  cases i <;> exact Nat.mod_lt _ (by positivity)

/-! ## Filling the array -/

/-- A loop that writes entry `a + i` in round `i`. -/
theorem fill_spec {f : (Nat → Nat) → Nat → Nat} {s : Nat → Nat} {v : Nat → Nat} {a : Nat} (n : Nat)
    (h : ∀ i, i < n → ∀ t : Nat → Nat, (∀ j, j < i → t (a + j) = v j) → (∀ j, (∀ k, k < i → j ≠ a + k) → t j = s j) → f t i = v i) :
    let t := (List.range n).foldl (fun t i => Function.update t (a + i) (f t i)) s
    (∀ j, j < n → t (a + j) = v j) ∧ ∀ j, (∀ k, k < n → j ≠ a + k) → t j = s j := by
  induction n with
  | zero => exact ⟨fun j hj => absurd hj (Nat.not_lt_zero _), fun j _ => rfl⟩
  | succ n ih =>
    obtain ⟨h1, h2⟩ := ih fun i hi => h i (by omega)
    simp only [List.range_succ, List.foldl_append, List.foldl_cons, List.foldl_nil]
    generalize (List.range n).foldl (fun t i => Function.update t (a + i) (f t i)) s = t at h1 h2
    refine ⟨fun j hj => ?_, fun j hj => ?_⟩
    · by_cases hc : j = n
      · subst hc; rw [Function.update_self]; exact h j (by omega) t h1 h2
      · rw [Function.update_of_ne (by omega)]; exact h1 j (by omega)
    · rw [Function.update_of_ne (hj n (by omega))]; exact h2 j fun k hk => hj k (by omega)

/-- **C36.** Seeding fills the array with the words of the published initialisation. -/
theorem initState_spec (s : Nat → Nat) (seed : Nat) {i : Nat} (hi : i < 624) : initState s seed i = knuth seed i := by
  have hand : ∀ n : Nat, n % 2 ^ 64 &&& 0xffffffff = n % 2 ^ 32 := fun n => by
    rw [show (0xffffffff : Nat) = 2 ^ 32 - 1 from rfl, Nat.and_two_pow_sub_one_eq_mod]; omega
  have h := fill_spec (f := fun s i => (1812433253 * (s i ^^^ (s i >>> 30)) + (i + 1)) % 2 ^ 64 &&& 0xffffffff)
    (s := Function.update s 0 (seed &&& 0xffffffff)) (v := fun j => knuth seed (j + 1)) (a := 1) 623 (by
      intro i hi t h1 h2
      have ht : t i = knuth seed i := by
        cases i with
        | zero =>
          rw [h2 0 fun k hk => by omega, Function.update_self, knuth]
          exact Nat.and_two_pow_sub_one_eq_mod seed 32
        | succ i => rw [Nat.add_comm i 1]; rw [h1 i (by omega)]; rw [Nat.add_comm]
      show (1812433253 * (t i ^^^ (t i >>> 30)) + (i + 1)) % 2 ^ 64 &&& 0xffffffff = _
      rw [hand, ht, Nat.shiftRight_eq_div_pow]; rfl)
  have e : initState s seed = (List.range 623).foldl (fun t i => Function.update t (1 + i)
      ((1812433253 * (t i ^^^ (t i >>> 30)) + (i + 1)) % 2 ^ 64 &&& 0xffffffff)) (Function.update s 0 (seed &&& 0xffffffff)) := by
    unfold initState; simp only [Nat.add_comm]
  rw [e]
  cases i with
  | zero =>
    rw [h.2 0 fun k _ => by omega, Function.update_self, knuth]
    exact Nat.and_two_pow_sub_one_eq_mod seed 32
  | succ i => rw [Nat.add_comm i 1, h.1 i (by omega), Nat.add_comm]

/-- **C36.** `reload()` moves the window on by 624 words of the recurrence. -/
theorem reload_spec {x : Nat → Nat} {g : MT} {b : Nat} (h : ∀ i, i < 624 → g.state i = mtSeq x (b + i)) :
    ∀ i, i < 624 → (reload g).state i = mtSeq x (b + 624 + i) := by
  have step : ∀ i, mtSeq x (b + 624 + i) = twist (mtSeq x (b + 397 + i)) (mtSeq x (b + i)) (mtSeq x (b + i + 1)) := by
    intro i
    rw [mtSeq, if_neg (by omega), twist_eq, show b + 624 + i - 227 = b + 397 + i by omega, show b + 624 + i - 624 = b + i by omega,
      show b + 624 + i - 623 = b + i + 1 by omega]
  have h1 := fill_spec (f := fun s i => twist (s (i + 397)) (s i) (s (i + 1))) (s := g.state) (v := fun j => mtSeq x (b + 624 + j)) (a := 0) 227 (by
    intro i hi t ht1 ht2
    show twist (t (i + 397)) (t i) (t (i + 1)) = _
    rw [ht2 _ fun k hk => by omega, ht2 _ fun k hk => by omega, ht2 _ fun k hk => by omega, h _ (by omega), h _ (by omega), h _ (by omega), step,
      show b + (i + 397) = b + 397 + i by omega, show b + (i + 1) = b + i + 1 by omega])
  simp only [Nat.zero_add] at h1
  have h2 := fill_spec (f := fun s i => twist (s i) (s (i + 227)) (s (i + 228)))
    (s := (List.range 227).foldl (fun s i => Function.update s i (twist (s (i + 397)) (s i) (s (i + 1)))) g.state)
    (v := fun j => mtSeq x (b + 624 + (227 + j))) (a := 227) 396 (by
    intro i hi t ht1 ht2
    show twist (t i) (t (i + 227)) (t (i + 228)) = _
    have e1 : t i = mtSeq x (b + 624 + i) := by
      by_cases hc : i < 227
      · rw [ht2 _ fun k hk => by omega, h1.1 i hc]
      · have := ht1 (i - 227) (by omega)
        rw [show 227 + (i - 227) = i by omega] at this
        exact this
    rw [e1, ht2 _ fun k hk => by omega, ht2 _ fun k hk => by omega, h1.2 _ fun k hk => by omega, h1.2 _ fun k hk => by omega,
      h _ (by omega), h _ (by omega), step (227 + i), show b + 624 + i = b + 397 + (227 + i) by omega, show b + (i + 227) = b + (227 + i) by omega,
      show b + (i + 228) = b + (227 + i) + 1 by omega])
  have e : (reload g).state = Function.update ((List.range 396).foldl (fun s i => Function.update s (227 + i) (twist (s i) (s (i + 227)) (s (i + 228))))
      ((List.range 227).foldl (fun s i => Function.update s i (twist (s (i + 397)) (s i) (s (i + 1)))) g.state)) 623
      (twist (((List.range 396).foldl (fun s i => Function.update s (227 + i) (twist (s i) (s (i + 227)) (s (i + 228))))
      ((List.range 227).foldl (fun s i => Function.update s i (twist (s (i + 397)) (s i) (s (i + 1)))) g.state)) 396)
      (((List.range 396).foldl (fun s i => Function.update s (227 + i) (twist (s i) (s (i + 227)) (s (i + 228))))
      ((List.range 227).foldl (fun s i => Function.update s i (twist (s (i + 397)) (s i) (s (i + 1)))) g.state)) 623)
      (((List.range 396).foldl (fun s i => Function.update s (227 + i) (twist (s i) (s (i + 227)) (s (i + 228))))
      ((List.range 227).foldl (fun s i => Function.update s i (twist (s (i + 397)) (s i) (s (i + 1)))) g.state)) 0)) := by
    unfold reload
    simp only [Nat.add_comm]
  generalize (List.range 396).foldl (fun s i => Function.update s (227 + i) (twist (s i) (s (i + 227)) (s (i + 228))))
      ((List.range 227).foldl (fun s i => Function.update s i (twist (s (i + 397)) (s i) (s (i + 1)))) g.state) = u at e h2
  dsimp only at h2
  have low : ∀ i, i < 227 → u i = mtSeq x (b + 624 + i) := fun i hi => by
    rw [h2.2 i fun k hk => by omega, h1.1 i hi]
  have mid : ∀ i, 227 ≤ i → i < 623 → u i = mtSeq x (b + 624 + i) := fun i h0 hi => by
    have := h2.1 (i - 227) (by omega)
    rw [show 227 + (i - 227) = i by omega] at this
    exact this
  intro i hi
  rw [e]
  by_cases hc : i = 623
  · subst hc
    rw [Function.update_self, mid 396 (by omega) (by omega), low 0 (by omega), h2.2 623 fun k hk => by omega, h1.2 623 fun k hk => by omega,
      h 623 (by omega), step 623, show b + 397 + 623 = b + 624 + 396 by omega, show b + 623 + 1 = b + 624 + 0 by omega]
  · rw [Function.update_of_ne hc]
    by_cases h3 : i < 227
    · exact low i h3
    · exact mid i (by omega) (by omega)

/-! ## The stream -/

/-- One number is drawn. -/
theorem randInt_spec {x : Nat → Nat} {t : Nat} {g : MT} (h : At (mtSeq x) t g) :
    ∃ g', randInt g = .ok (temper (mtSeq x t), g') ∧ At (mtSeq x) (t + 1) g' := by
  obtain ⟨h1, b, h2, h3⟩ := h
  unfold randInt
  by_cases hl : g.left = 0
  · have hr := reload_spec h3
    refine ⟨⟨(reload g).state, 1, 623⟩, ?_, rfl, b + 624, by show b + 624 + 1 = t + 1; omega, hr⟩
    simp only [if_pos hl]
    rw [if_neg (show ¬ (reload g).next ≥ 624 from by show ¬ (0 ≥ 624); omega)]
    show Outcome.ok (temper ((reload g).state 0), _) = _
    rw [hr 0 (by omega), show b + 624 + 0 = t by omega]; rfl
  · refine ⟨⟨g.state, g.next + 1, g.left - 1⟩, ?_, by show g.next + 1 + (g.left - 1) = 624; omega, b, by show b + (g.next + 1) = t + 1; omega, h3⟩
    simp only [if_neg hl]
    rw [if_neg (by omega), h3 _ (by omega), h2]

/-- Any number of numbers. -/
theorem draws_spec {x : Nat → Nat} : ∀ (n t : Nat) (g : MT), At (mtSeq x) t g →
    ∃ g', draws n g = .ok ((List.range n).map (fun i => temper (mtSeq x (t + i))), g') ∧ At (mtSeq x) (t + n) g' := by
  intro n
  induction n with
  | zero => intro t g h; exact ⟨g, rfl, h⟩
  | succ n ih =>
    intro t g h
    obtain ⟨g1, e1, h1⟩ := randInt_spec h
    obtain ⟨g2, e2, h2⟩ := ih (t + 1) g1 h1
    refine ⟨g2, ?_, by rw [show t + (n + 1) = t + 1 + n by omega]; exact h2⟩
    rw [draws, e1]
    simp only [Outcome.ok_bind, e2]
    rw [List.range_succ_eq_map, List.map_cons, List.map_map]
    congr 3
    apply List.map_congr_left
    intro i _
    show temper (mtSeq x (t + 1 + i)) = temper (mtSeq x (t + (i + 1)))
    rw [show t + 1 + i = t + (i + 1) by omega]

theorem window_congr {x y : Nat → Nat} (h : ∀ i, i < 624 → x i = y i) (k : Nat) : mtSeq x k = mtSeq y k := by
  induction k using Nat.strong_induction_on with
  | _ k ih =>
    rw [mtSeq]; conv_rhs => rw [mtSeq]
    split_ifs with hk
    · exact h k hk
    · rw [ih _ (by omega), ih _ (by omega), ih _ (by omega)]

/-- A reloaded generator continues the sequence that starts with its array. -/
theorem reload_at (g : MT) : At (mtSeq g.state) 624 (reload g) :=
  ⟨rfl, 624, rfl, fun i hi => by
    have := reload_spec (x := g.state) (g := g) (b := 0) (fun i hi => by rw [Nat.zero_add, mtSeq, if_pos hi]) i hi
    simpa using this⟩

/-- After seeding. -/
theorem seed_at (g : MT) (s : Nat) : At (mtSeq (knuth s)) 624 (seed g s) := by
  unfold seed
  have hw := fun i hi => initState_spec g.state s (i := i) hi
  generalize initState g.state s = w at hw
  obtain ⟨h1, b, h2, h3⟩ := reload_at ⟨w, g.next, g.left⟩
  exact ⟨h1, b, h2, fun i hi => (h3 i hi).trans (window_congr hw (b + i))⟩

/-- Seeded with `s`, the generator delivers the tempered words 624, 625, … of the recurrence. -/
theorem stream_spec (g : MT) (s n : Nat) :
    ∃ g', draws n (seed g s) = .ok ((List.range n).map (fun i => temper (mtSeq (knuth s) (624 + i))), g') := by
  obtain ⟨g', e, _⟩ := draws_spec n 624 _ (seed_at g s)
  exact ⟨g', e⟩

/-- The first number of the reference implementation for seed 5489. -/
example : temper (mtSeq (knuth 5489) 624) = 3499211612 := by decide +kernel

/-! ## Copies -/

/-- Generators with equal arrays and equal counts. -/
def Same (g h : MT) : Prop := (∀ i, i < 624 → g.state i = h.state i) ∧ g.left = h.left ∧ g.next = h.next

/-- The numbers of a run. -/
def numbers (o : Outcome (List Nat × MT)) : Outcome (List Nat) := o.bind fun r => .ok r.1

/-- A generator in use: seeded, and drawn from any number of times. -/
def InUse (g : MT) : Prop := ∃ x t, At (mtSeq x) t g

theorem same_stream {g h : MT} (hg : InUse g) (hs : Same g h) (n : Nat) : numbers (draws n g) = numbers (draws n h) := by
  obtain ⟨x, t, h1, b, h2, h3⟩ := hg
  obtain ⟨g', e, _⟩ := draws_spec n t g ⟨h1, b, h2, h3⟩
  obtain ⟨g'', e', _⟩ := draws_spec n t h ⟨by rw [← hs.2.1, ← hs.2.2]; exact h1, b, by rw [← hs.2.2]; exact h2,
    fun i hi => by rw [← hs.1 i hi]; exact h3 i hi⟩
  rw [e, e']; rfl

theorem inUse_seed (g : MT) (s : Nat) : InUse (seed g s) := ⟨_, _, seed_at g s⟩
theorem inUse_draws {g g' : MT} {n : Nat} {l : List Nat} (h : InUse g) (e : draws n g = .ok (l, g')) : InUse g' := by
  obtain ⟨x, t, h⟩ := h
  obtain ⟨g'', e', h'⟩ := draws_spec n t g h
  rw [e] at e'
  cases e'
  exact ⟨x, _, h'⟩

/-- **C36.** A copy delivers the numbers the original delivers. -/
theorem copy_stream {g : MT} (h : InUse g) (n : Nat) : numbers (draws n (copy g)) = numbers (draws n g) := by
  obtain ⟨x, t, h1, _⟩ := id h
  exact (same_stream (h := copy g) h ⟨fun _ _ => rfl, rfl, by show g.next = 624 - g.left; omega⟩ n).symm

theorem words_left (n : Nat) (f : Nat → Nat) (l : Nat) : ((List.range n).map f ++ [l]).getD n 0 = l := by
  simp [List.getD_eq_getElem?_getD]

theorem words_at {n : Nat} (f : Nat → Nat) (l : Nat) {i : Nat} (hi : i < n) : ((List.range n).map f ++ [l]).getD i 0 = f i := by
  rw [List.getD_eq_getElem?_getD, List.getElem?_append_left (by simpa using hi)]
  simp [hi]

theorem words_length (n : Nat) (f : Nat → Nat) (l : Nat) : ((List.range n).map f ++ [l]).length = n + 1 := by simp

/-- **C36.** A generator loaded from a saved array delivers the numbers the saved one delivers. -/
theorem save_load {g : MT} (h : InUse g) : ∃ g', load (save g) = .ok g' ∧ ∀ n, numbers (draws n g') = numbers (draws n g) := by
  obtain ⟨x, t, h1, _⟩ := id h
  have hlen : (save g).length = 625 := by unfold save; exact words_length 624 g.state g.left
  have hleft : (save g).getD 624 0 = g.left := by unfold save; exact words_left 624 g.state g.left
  have hat : ∀ i, i < 624 → (save g).getD i 0 = g.state i := fun i hi => by unfold save; exact words_at g.state g.left hi
  have hl : load (save g) = .ok ⟨fun i => (save g).getD i 0, 624 - g.left, g.left⟩ := by
    unfold load
    rw [if_neg (by omega)]
    dsimp only
    rw [hleft, if_neg (by omega)]
  generalize save g = a at hat hl
  have hs : Same g ⟨fun i => a.getD i 0, 624 - g.left, g.left⟩ := ⟨fun i hi => (hat i hi).symm, rfl, by show g.next = 624 - g.left; omega⟩
  exact ⟨_, hl, fun n => (same_stream h hs n).symm⟩

example : InUse (seed ⟨fun _ => 0, 0, 0⟩ 42) := inUse_seed _ _

end MMSP.MTRand
