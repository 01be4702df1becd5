import Verif.MTRandArray
/-!
# The random number generator: which seed arrays lead to the same numbers (C140)

`algorithms/MersenneTwister.h` 207-240.
-/

namespace MMSP.MTRand

theorem byArray_lt (key : List Nat) (n : Nat) : byArray key n < 2 ^ 32 := by
  by_cases c : n < max 624 key.length
  · rw [byArray_key c]; exact Nat.mod_lt _ (by decide)
  · rw [byArray_index c]; exact Nat.mod_lt _ (by decide)

/-- A write of the second loop. -/
theorem late {k : List Nat} (hk : k.length ≤ 624) {m : Nat} (hm : 1 ≤ m) : byArray k (m + 623) =
    ((byArray k m ^^^ (byArray k (m + 622) ^^^ byArray k (m + 622) / 2 ^ 30) * 1566083941) + (2 ^ 32 - ((m + 623) % 623 + 1))) % 2 ^ 32 := by
  have t := byArray_index (key := k) (n := m + 623) (by omega)
  rw [if_neg (by omega), if_neg (by omega), Nat.add_sub_cancel, show m + 623 - 1 = m + 622 by omega] at t
  exact t

/-- A write of the first loop. -/
theorem early {k : List Nat} {n : Nat} (h1 : 1 ≤ n) (h2 : n < 623) : byArray k n =
    ((knuth 19650218 (n + 1) ^^^ (byArray k (n - 1) ^^^ byArray k (n - 1) / 2 ^ 30) * 1664525) + k.getD (n % k.length) 0 + n % k.length) % 2 ^ 32 := by
  have t := byArray_key (key := k) (n := n) (by omega)
  rw [if_pos h2, if_neg (by omega)] at t
  exact t

theorem index_cancel {a b Y z : Nat} (ha : a < 2 ^ 32) (hb : b < 2 ^ 32) (h : ((a ^^^ Y) + z) % 2 ^ 32 = ((b ^^^ Y) + z) % 2 ^ 32) : a = b := by
  have e : (a ^^^ Y) % 2 ^ 32 = (b ^^^ Y) % 2 ^ 32 := by omega
  rw [Nat.xor_mod_two_pow, Nat.xor_mod_two_pow, xor_cancel', Nat.mod_eq_of_lt ha, Nat.mod_eq_of_lt hb] at e
  exact e

theorem key_cancel {a b X j : Nat} (ha : a < 2 ^ 32) (hb : b < 2 ^ 32) (h : (X + a + j) % 2 ^ 32 = (X + b + j) % 2 ^ 32) : a = b := by omega

theorem getD_low {key : List Nat} (h : ∀ w ∈ key, w < 2 ^ 32) (i : Nat) : key.getD i 0 < 2 ^ 32 := by
  rw [List.getD_eq_getElem?_getD]
  cases e : key[i]? with
  | none => decide
  | some w => exact h w (List.mem_of_getElem? e)

/-- The numbers by an array. -/
theorem array_numbers (g : MT) {key : List Nat} (hl : ∀ w ∈ key, w < 2 ^ 32) (hk : key ≠ []) : ∃ w g', seedArray g key = .ok g' ∧ Agree w (arrayWords key) ∧
    ∀ n, numbers (draws n g') = .ok ((List.range n).map fun i => temper (mtSeq w (624 + i))) := by
  obtain ⟨w, e, hw⟩ := seedArray_low g hl hk
  exact ⟨w, _, e, hw, fun n => numbers_at (reload_at { g with state := w }) n⟩

theorem arrayWords_lt (key : List Nat) (i : Nat) : arrayWords key i < 2 ^ 32 := by
  unfold arrayWords
  split_ifs
  · decide
  · exact byArray_lt _ _

/-- The same writes at the end need the same writes before. -/
theorem writes_back {k k' : List Nat} (h1 : k.length ≤ 624) (h2 : k'.length ≤ 624) (h : ∀ i, 1 ≤ i → i < 624 → arrayWords k i = arrayWords k' i) :
    ∀ m, 1 ≤ m → m < 624 → byArray k m = byArray k' m := by
  have m1 : max 624 k.length = 624 := Nat.max_eq_left h1
  have m2 : max 624 k'.length = 624 := Nat.max_eq_left h2
  have top : ∀ n, 624 ≤ n → n ≤ 1246 → byArray k n = byArray k' n := by
    intro n a b
    by_cases c : n = 1246
    · have := h 1 (by omega) (by omega)
      unfold arrayWords at this
      rw [if_neg (by omega), if_neg (by omega), m1, m2] at this
      rw [c]; exact this
    · have := h (n - 622) (by omega) (by omega)
      unfold arrayWords at this
      rw [if_neg (by omega), if_neg (by omega), m1, m2, show 624 + (n - 622 + 622 - 624 % 623) % 623 = n by omega] at this
      exact this
  have one : ∀ m, 1 ≤ m → m < 624 → byArray k (m + 622) = byArray k' (m + 622) → byArray k m = byArray k' m := by
    intro m a b p
    have t := top (m + 623) (by omega) (by omega)
    rw [late h1 a, late h2 a, p] at t
    exact index_cancel (byArray_lt _ _) (byArray_lt _ _) t
  have two : ∀ m, 2 ≤ m → m < 624 → byArray k m = byArray k' m := fun m a b => one m (by omega) b (top _ (by omega) (by omega))
  intro m a b
  by_cases c : m = 1
  · rw [c]; exact one 1 (by omega) (by omega) (two 623 (by omega) (by omega))
  · exact two m (by omega) b

/-- **C140.** Two different arrays of the same length, up to 622 words, lead to different numbers, within the first 624. -/
theorem arrays_differ (g h : MT) {k k' : List Nat} (hk : k ≠ []) (hl : ∀ w ∈ k, w < 2 ^ 32) (hl' : ∀ w ∈ k', w < 2 ^ 32) (hn : k'.length = k.length) (hs : k.length ≤ 622) (hd : k ≠ k') :
    ∃ g' h', seedArray g k = .ok g' ∧ seedArray h k' = .ok h' ∧ numbers (draws 624 g') ≠ numbers (draws 624 h') := by
  have hp : 0 < k.length := List.length_pos_iff.2 hk
  have hk' : k' ≠ [] := List.length_pos_iff.1 (by omega)
  obtain ⟨w, g', e1, a1, n1⟩ := array_numbers g hl hk
  obtain ⟨w', h', e2, a2, n2⟩ := array_numbers h hl' hk'
  refine ⟨g', h', e1, e2, fun e => hd ?_⟩
  rw [n1, n2] at e
  have e := Outcome.ok.inj e
  have l1 : ∀ i, i < 624 → w i < 2 ^ 32 := fun i hi => by rw [a1 i hi]; exact arrayWords_lt _ _
  have l2 : ∀ i, i < 624 → w' i < 2 ^ 32 := fun i hi => by rw [a2 i hi]; exact arrayWords_lt _ _
  have ws : ∀ i, i < 624 → mtSeq w (624 + i) = mtSeq w' (624 + i) := fun i hi =>
    temper_inj (mtSeq_lt l1 _) (mtSeq_lt l2 _) (List.map_inj_left.1 e i (List.mem_range.2 hi))
  have bk := (words_back l1 l2 ws 623 0 rfl).1
  have aw : ∀ i, 1 ≤ i → i < 624 → arrayWords k i = arrayWords k' i := fun i a b => by
    have := bk i (by omega) (by omega)
    rw [mtSeq, if_pos b, mtSeq, if_pos b, a1 i b, a2 i b] at this
    exact this
  have wb := writes_back (by omega) (by omega) aw
  have step : ∀ n, 1 ≤ n → n < 623 → byArray k (n - 1) = byArray k' (n - 1) → k.getD (n % k.length) 0 = k'.getD (n % k.length) 0 := by
    intro n a b p
    have t := wb n a (by omega)
    rw [early a b, early a b, p, hn] at t
    exact key_cancel (getD_low hl _) (getD_low hl' _) t
  have low : ∀ n, 2 ≤ n → n < 623 → k.getD (n % k.length) 0 = k'.getD (n % k.length) 0 := fun n a b => step n (by omega) b (wb _ (by omega) (by omega))
  have z : k.getD 0 0 = k'.getD 0 0 := by
    by_cases c : k.length = 1
    · have := low 2 (by omega) (by omega)
      rw [c] at this; exact this
    · have := low k.length (by omega) (by omega)
      rw [Nat.mod_self] at this; exact this
  have z0 : byArray k 0 = byArray k' 0 := by
    rw [byArray_key (key := k) (n := 0) (by omega), byArray_key (key := k') (n := 0) (by omega), Nat.zero_mod, Nat.zero_mod, z]
    rfl
  refine List.ext_getElem hn.symm fun i p q => ?_
  have t : k.getD i 0 = k'.getD i 0 := by
    by_cases c0 : i = 0
    · rw [c0]; exact z
    · by_cases c1 : i = 1
      · have := step 1 (by omega) (by omega) z0
        rw [Nat.mod_eq_of_lt (by omega)] at this
        rw [c1]; exact this
      · have := low i (by omega) (by omega)
        rw [Nat.mod_eq_of_lt p] at this
        exact this
  rw [List.getD_eq_getElem?_getD, List.getD_eq_getElem?_getD, List.getElem?_eq_getElem p, List.getElem?_eq_getElem q] at t
  exact t

/-- What the numbers depend on. -/
theorem same_writes {k k' : List Nat} (h1 : k.length ≤ 624) (h2 : k'.length ≤ 624)
    (h : ∀ n, n < 624 → (k.getD (n % k.length) 0 + n % k.length) % 2 ^ 32 = (k'.getD (n % k'.length) 0 + n % k'.length) % 2 ^ 32) (n : Nat) : byArray k n = byArray k' n := by
  have m1 : max 624 k.length = 624 := Nat.max_eq_left h1
  have m2 : max 624 k'.length = 624 := Nat.max_eq_left h2
  induction n using Nat.strong_induction_on with
  | _ n ih =>
    have o : (if n < 623 then knuth 19650218 (n + 1) else byArray k (n - 623)) = if n < 623 then knuth 19650218 (n + 1) else byArray k' (n - 623) := by
      split_ifs with c
      · rfl
      · exact ih _ (by omega)
    have p : (if n = 0 then knuth 19650218 0 else byArray k (n - 1)) = if n = 0 then knuth 19650218 0 else byArray k' (n - 1) := by
      split_ifs with c
      · rfl
      · exact ih _ (by omega)
    by_cases c : n < 624
    · rw [byArray_key (key := k) (n := n) (by omega), byArray_key (key := k') (n := n) (by omega), o, p, Nat.add_assoc, Nat.add_assoc, Nat.add_mod, h n c, ← Nat.add_mod]
    · rw [byArray_index (key := k) (n := n) (by omega), byArray_index (key := k') (n := n) (by omega), o, p]

/-- An array followed by itself with its length taken from each word. -/
def twice (k : List Nat) : List Nat := k ++ k.map fun w => (w + (2 ^ 32 - k.length)) % 2 ^ 32

/-- **C140.** Arrays of different length can lead to the same numbers: an array of up to 312 words and the array followed by itself with its length taken from each word, as `{1}` and `{1, 0}`. -/
theorem arrays_alias (g h : MT) {k : List Nat} (hk : k ≠ []) (hl : ∀ w ∈ k, w < 2 ^ 32) (hs : k.length ≤ 312) :
    ∃ g' h', seedArray g k = .ok g' ∧ seedArray h (twice k) = .ok h' ∧ ∀ n, numbers (draws n g') = numbers (draws n h') := by
  have hp : 0 < k.length := List.length_pos_iff.2 hk
  have ht : (twice k).length = 2 * k.length := by rw [twice, List.length_append, List.length_map]; omega
  have hk' : twice k ≠ [] := List.length_pos_iff.1 (by omega)
  have hl' : ∀ w ∈ twice k, w < 2 ^ 32 := by
    intro w hw
    rcases List.mem_append.1 hw with c | c
    · exact hl w c
    · obtain ⟨v, _, rfl⟩ := List.mem_map.1 c
      exact Nat.mod_lt _ (by decide)
  obtain ⟨w, g', e1, a1, n1⟩ := array_numbers g hl hk
  obtain ⟨w', h', e2, a2, n2⟩ := array_numbers h hl' hk'
  refine ⟨g', h', e1, e2, fun n => ?_⟩
  rw [n1, n2]
  have sums : ∀ n, n < 624 → (k.getD (n % k.length) 0 + n % k.length) % 2 ^ 32 = ((twice k).getD (n % (twice k).length) 0 + n % (twice k).length) % 2 ^ 32 := by
    intro n _
    rw [ht]
    have hr := Nat.mod_lt n (show 0 < 2 * k.length by omega)
    have e : n % k.length = n % (2 * k.length) % k.length := (Nat.mod_mul_left_mod n 2 k.length).symm
    rw [e]
    generalize n % (2 * k.length) = r at hr
    by_cases c : r < k.length
    · rw [Nat.mod_eq_of_lt c, twice, List.getD_eq_getElem?_getD, List.getD_eq_getElem?_getD, List.getElem?_append_left c]
    · have q : r - k.length < k.length := by omega
      have em : r % k.length = r - k.length := (Nat.mod_eq_sub_mod (by omega)).trans (Nat.mod_eq_of_lt q)
      rw [em, twice, List.getD_eq_getElem?_getD, List.getD_eq_getElem?_getD, List.getElem?_append_right (by omega), List.getElem?_map,
        List.getElem?_eq_getElem q]
      simp only [Option.map_some, Option.getD_some]
      generalize k[r - k.length] = v
      omega
  have ww : ∀ i, i < 624 → w i = w' i := fun i hi => by
    rw [a1 i hi, a2 i hi]
    unfold arrayWords
    rw [Nat.max_eq_left (show k.length ≤ 624 by omega), Nat.max_eq_left (show (twice k).length ≤ 624 by omega), same_writes (by omega) (by omega) sums]
  exact congrArg Outcome.ok (List.map_congr_left fun i _ => congrArg temper (words_of_window (by rw [ww 0 (by omega)]) (fun j _ hj => ww j hj) (by omega)))

theorem keys_numbers (x : Nat → Nat) (hx : ∀ i, i < 624 → x i < 2 ^ 32) (h0 : 2 ^ 31 ≤ x 0) (g : MT) (a b c : Nat) :
    ∃ g', seedArray g (keys c x) = .ok g' ∧ ∀ n, numbers (draws n g') = numbers (draws n (reload ⟨x, a, b⟩)) := by
  have hk : keys c x ≠ [] := List.length_pos_iff.1 (by rw [keys_length]; omega)
  obtain ⟨w, g', e, hw, n1⟩ := array_numbers g (keys_low c x) hk
  refine ⟨g', e, fun n => ?_⟩
  rw [n1, numbers_at (reload_at ⟨x, a, b⟩)]
  have hx0 := hx 0 (by omega)
  have hw0 : w 0 = 2 ^ 31 := hw 0 (by omega)
  exact congrArg Outcome.ok (List.map_congr_left fun i _ => congrArg temper
    (words_of_window (by rw [hw0]; show _ = x 0 / 2 ^ 31 % 2; omega) (fun i h1 h2 => (hw i h2).trans (keys_reach c (fun i _ h => hx i h) h1 h2)) (by omega)))

/-- **C140.** With 624 words there are, for every stream that an array leads to, 2³² different arrays that lead to it. -/
theorem arrays_many (x : Nat → Nat) (hx : ∀ i, i < 624 → x i < 2 ^ 32) (h0 : 2 ^ 31 ≤ x 0) (g : MT) (a b : Nat) :
    ∃ f : Nat → List Nat, (∀ c d, c < 2 ^ 32 → d < 2 ^ 32 → f c = f d → c = d) ∧ ∀ c, (f c).length = 624 ∧ (∀ w ∈ f c, w < 2 ^ 32) ∧
      ∃ g', seedArray g (f c) = .ok g' ∧ ∀ n, numbers (draws n g') = numbers (draws n (reload ⟨x, a, b⟩)) := by
  refine ⟨fun c => keys c x, fun c d hc hd e => ?_, fun c => ⟨keys_length c x, keys_low c x, ?_⟩⟩
  · have t : byArray (keys c x) 0 = byArray (keys d x) 0 := congrArg (fun k => byArray k 0) e
    rw [first_loop c x (by omega), first_loop d x (by omega)] at t
    unfold first at t
    rw [if_pos rfl, if_pos rfl, Nat.mod_eq_of_lt hc, Nat.mod_eq_of_lt hd] at t
    exact t
  · exact keys_numbers x hx h0 g a b c

/-- Arrays of 624 words with the same writes are equal. -/
theorem writes_determine {k k' : List Nat} (l1 : k.length = 624) (l2 : k'.length = 624) (h1 : ∀ w ∈ k, w < 2 ^ 32) (h2 : ∀ w ∈ k', w < 2 ^ 32)
    (h : ∀ m, m < 624 → byArray k m = byArray k' m) : k = k' := by
  refine List.ext_getElem (l1.trans l2.symm) fun i p q => ?_
  have hi : i < 624 := l1 ▸ p
  have o : (if i < 623 then knuth 19650218 (i + 1) else byArray k (i - 623)) = if i < 623 then knuth 19650218 (i + 1) else byArray k' (i - 623) := by
    split_ifs with c
    · rfl
    · exact h _ (by omega)
  have r : (if i = 0 then knuth 19650218 0 else byArray k (i - 1)) = if i = 0 then knuth 19650218 0 else byArray k' (i - 1) := by
    split_ifs with c
    · rfl
    · exact h _ (by omega)
  have t := h i hi
  rw [byArray_key (key := k) (n := i) (by omega), byArray_key (key := k') (n := i) (by omega), o, r, l1, l2, Nat.mod_eq_of_lt hi] at t
  have e := key_cancel (getD_low h1 _) (getD_low h2 _) t
  rw [List.getD_eq_getElem?_getD, List.getD_eq_getElem?_getD, List.getElem?_eq_getElem p, List.getElem?_eq_getElem q] at e
  exact e

/-- **C140.** The arrays of 624 words that lead to a stream: exactly 2³² of them for each stream that is reached. So 624 words drawn uniformly, as by `seed()`, make each reachable stream equally
likely. -/
theorem arrays_exactly (x : Nat → Nat) (hx : ∀ i, i < 624 → x i < 2 ^ 32) (h0 : 2 ^ 31 ≤ x 0) (g : MT) (a b : Nat) :
    ∃ f : Nat → List Nat, (∀ c d, c < 2 ^ 32 → d < 2 ^ 32 → f c = f d → c = d) ∧ ∀ key, key.length = 624 → (∀ w ∈ key, w < 2 ^ 32) →
      ((∃ c, c < 2 ^ 32 ∧ key = f c) ↔ ∃ g', seedArray g key = .ok g' ∧ numbers (draws 624 g') = numbers (draws 624 (reload ⟨x, a, b⟩))) := by
  refine ⟨fun c => keys c x, fun c d hc hd e => ?_, fun key hl hlow => ⟨?_, ?_⟩⟩
  · have t : byArray (keys c x) 0 = byArray (keys d x) 0 := congrArg (fun k => byArray k 0) e
    rw [first_loop c x (by omega), first_loop d x (by omega)] at t
    unfold first at t
    rw [if_pos rfl, if_pos rfl, Nat.mod_eq_of_lt hc, Nat.mod_eq_of_lt hd] at t
    exact t
  · intro hc
    obtain ⟨c, _, ek⟩ := hc
    obtain ⟨g', e, hn⟩ := keys_numbers x hx h0 g a b c
    exact ⟨g', (congrArg (seedArray g) ek).trans e, hn 624⟩
  · rintro ⟨g', e, hn⟩
    have hk : key ≠ [] := List.length_pos_iff.1 (by omega)
    obtain ⟨w, g'', e1, a1, n1⟩ := array_numbers g hlow hk
    rw [e] at e1
    cases e1
    rw [n1, numbers_at (reload_at ⟨x, a, b⟩)] at hn
    have hn := Outcome.ok.inj hn
    have l1 : ∀ i, i < 624 → w i < 2 ^ 32 := fun i hi => by rw [a1 i hi]; exact arrayWords_lt _ _
    have ws : ∀ i, i < 624 → mtSeq w (624 + i) = mtSeq x (624 + i) := fun i hi =>
      temper_inj (mtSeq_lt l1 _) (mtSeq_lt hx _) (List.map_inj_left.1 hn i (List.mem_range.2 hi))
    have bk := (words_back l1 hx ws 623 0 rfl).1
    have c0 := byArray_lt key 0
    refine ⟨byArray key 0, c0, writes_determine hl (keys_length _ x) hlow (keys_low _ x) fun m hm => ?_⟩
    by_cases z : m = 0
    · rw [z, first_loop _ x (by omega)]
      unfold first
      rw [if_pos rfl, Nat.mod_eq_of_lt c0]
    · refine writes_back (by omega) (by rw [keys_length]) (fun i p q => ?_) m (by omega) hm
      have t := bk i (by omega) (by omega)
      rw [mtSeq, if_pos q, mtSeq, if_pos q, a1 i q] at t
      rw [t, keys_reach _ (fun i _ h => hx i h) p q]

/-- The first write, with first word `c`. -/
def start (c : Nat) : Nat := ((knuth 19650218 1 ^^^ (knuth 19650218 0 ^^^ knuth 19650218 0 / 2 ^ 30) * 1664525) + c) % 2 ^ 32

/-- An array of 623 words that makes writes 1 to 622 zero. -/
def hollow (c : Nat) : List Nat := (List.range 623).map fun n =>
  if n = 0 then c % 2 ^ 32 else keyFor n 0 (knuth 19650218 (n + 1) ^^^ ((if n = 1 then start c else 0) ^^^ (if n = 1 then start c else 0) / 2 ^ 30) * 1664525)

theorem hollow_length (c : Nat) : (hollow c).length = 623 := by rw [hollow, List.length_map, List.length_range]

theorem hollow_low (c : Nat) : ∀ w ∈ hollow c, w < 2 ^ 32 := by
  intro w hw
  obtain ⟨n, _, rfl⟩ := List.mem_map.1 hw
  split_ifs
  · exact Nat.mod_lt _ (by decide)
  · exact Nat.mod_lt _ (by decide)
  · exact Nat.mod_lt _ (by decide)

theorem hollow_at (c : Nat) {n : Nat} (hn : n < 623) : (hollow c).getD n 0 =
    if n = 0 then c % 2 ^ 32 else keyFor n 0 (knuth 19650218 (n + 1) ^^^ ((if n = 1 then start c else 0) ^^^ (if n = 1 then start c else 0) / 2 ^ 30) * 1664525) := by
  rw [hollow, List.getD_eq_getElem?_getD, List.getElem?_map, List.getElem?_range hn]
  rfl

theorem hollow_first (c : Nat) : byArray (hollow c) 0 = start c := by
  have t := byArray_key (key := hollow c) (n := 0) (by omega)
  rw [if_pos (by omega), if_pos rfl, Nat.zero_mod, hollow_at c (by omega), if_pos rfl, Nat.add_zero, Nat.add_mod_mod] at t
  exact t

theorem hollow_zero (c : Nat) {n : Nat} (h1 : 1 ≤ n) (h2 : n < 623) : byArray (hollow c) n = 0 := by
  induction n using Nat.strong_induction_on with
  | _ n ih =>
    have p : byArray (hollow c) (n - 1) = if n = 1 then start c else 0 := by
      split_ifs with d
      · rw [d]; exact hollow_first c
      · exact ih _ (by omega) (by omega) (by omega)
    rw [early h1 h2, p, hollow_length, Nat.mod_eq_of_lt h2, hollow_at c h2, if_neg (show ¬ n = 0 by omega)]
    exact keyFor_spec (show n < 624 by omega) (show 0 < 2 ^ 32 by decide) _

theorem hollow_last (c : Nat) : byArray (hollow c) 623 = (start c + c) % 2 ^ 32 := by
  have t := byArray_key (key := hollow c) (n := 623) (by omega)
  rw [if_neg (by omega), if_neg (by omega), Nat.sub_self, show 623 - 1 = 622 by omega, hollow_first, hollow_zero c (show 1 ≤ 622 by omega) (by omega), hollow_length, Nat.mod_self, hollow_at c (by omega),
    if_pos rfl, Nat.zero_div, Nat.xor_self, Nat.zero_mul, Nat.xor_zero, Nat.add_zero, Nat.add_mod_mod] at t
  exact t

/-- **C140.** With 623 words two different arrays can lead to the same numbers. -/
theorem arrays_623 (g h : MT) : ∃ k k' : List Nat, k ≠ k' ∧ k.length = 623 ∧ k'.length = 623 ∧ (∀ w ∈ k, w < 2 ^ 32) ∧ (∀ w ∈ k', w < 2 ^ 32) ∧
    ∃ g' h', seedArray g k = .ok g' ∧ seedArray h k' = .ok h' ∧ ∀ n, numbers (draws n g') = numbers (draws n h') := by
  have l1 := hollow_length 0
  have l2 := hollow_length (2 ^ 31)
  refine ⟨hollow 0, hollow (2 ^ 31), fun e => ?_, l1, l2, hollow_low _, hollow_low _, ?_⟩
  · have t : (hollow 0).getD 0 0 = (hollow (2 ^ 31)).getD 0 0 := congrArg (fun k => List.getD k 0 0) e
    rw [hollow_at 0 (by omega), hollow_at (2 ^ 31) (by omega), if_pos rfl, if_pos rfl] at t
    omega
  have same : ∀ n, 1 ≤ n → byArray (hollow 0) n = byArray (hollow (2 ^ 31)) n := by
    intro n
    induction n using Nat.strong_induction_on with
    | _ n ih =>
      intro a
      by_cases c : n < 623
      · rw [hollow_zero 0 a c, hollow_zero (2 ^ 31) a c]
      · by_cases d : n = 623
        · rw [d, hollow_last, hollow_last]
          unfold start
          generalize knuth 19650218 1 ^^^ (knuth 19650218 0 ^^^ knuth 19650218 0 / 2 ^ 30) * 1664525 = Z
          omega
        · obtain ⟨m, rfl⟩ : ∃ m, n = m + 623 := ⟨n - 623, by omega⟩
          rw [late (by omega) (by omega), late (by omega) (by omega), ih m (by omega) (by omega), ih (m + 622) (by omega) (by omega)]
  obtain ⟨w, g', e1, a1, n1⟩ := array_numbers g (hollow_low 0) (List.length_pos_iff.1 (by omega))
  obtain ⟨w', h', e2, a2, n2⟩ := array_numbers h (hollow_low (2 ^ 31)) (List.length_pos_iff.1 (by omega))
  refine ⟨g', h', e1, e2, fun n => ?_⟩
  rw [n1, n2]
  have ww : ∀ i, i < 624 → w i = w' i := fun i hi => by
    rw [a1 i hi, a2 i hi]
    unfold arrayWords
    rw [l1, l2, same _ (by omega)]
  exact congrArg Outcome.ok (List.map_congr_left fun i _ => congrArg temper (words_of_window (by rw [ww 0 (by omega)]) (fun j _ hj => ww j hj) (by omega)))

/-- Two different arrays of two words; `{1}` and `{1, 0}`; the initial array of seed 2³¹. -/
example : [1, 2] ≠ [1, 3] ∧ [1, 2].length ≤ 622 ∧ twice [1] = [1, 0] ∧ 2 ^ 31 ≤ knuth (2 ^ 31) 0 := by
  refine ⟨by decide, by decide, by decide, ?_⟩
  rw [knuth]; decide

end MMSP.MTRand
