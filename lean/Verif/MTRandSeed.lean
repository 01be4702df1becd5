import Verif.MTRandRange
import Mathlib.Analysis.SpecialFunctions.Log.Basic
import Mathlib.Analysis.Complex.ExponentialBounds
import Mathlib.Analysis.Real.Sqrt
/-!
# The random number generator: seeding without a seed, and normal deviates (C137)

Model of the parts of `algorithms/MersenneTwister.h` that C36 leaves out: `hash` 142-165, `seed()` 242-263 with the constructor 271-272, and `randNorm` 343-357. `time_t` and `clock_t` are the
64-bit patterns of the values, least significant byte first. What `/dev/urandom` delivers, the time and the clock are parameters. `randNorm` is in exact arithmetic.
-/

namespace MMSP.MTRand

/-! ## Model -/

/-- The bytes of an object of eight bytes, `algorithms/MersenneTwister.h` 151 and 158. -/
def bytes8 (t : Nat) : List Nat := (List.range 8).map fun i => t / 256 ^ i % 256

/-- `algorithms/MersenneTwister.h` 150-156 and 157-163 -/
def hashBytes (l : List Nat) : Nat := l.foldl (fun h b => (h * 257 % 2 ^ 64 + b) % 2 ^ 64) 0

/-- `algorithms/MersenneTwister.h` 142-165: the value and the new value of the static variable. -/
def hash (differ t c : Nat) : Nat × Nat := ((hashBytes (bytes8 t) + differ) % 2 ^ 64 ^^^ hashBytes (bytes8 c), (differ + 1) % 2 ^ 64)

/-- `algorithms/MersenneTwister.h` 242-263 and 271-272. `urandom` is `none` if the device cannot be opened, else the words that can be read from it; `differ` is the static variable of `hash`. -/
def seedAuto (g : MT) (urandom : Option (List Nat)) (differ t c : Nat) : Outcome (MT × Nat) :=
  match urandom with
  | none => .ok (seed g (hash differ t c).1, (hash differ t c).2)
  | some l => if 624 ≤ l.length then (seedArray g (l.take 624)).bind fun g => .ok (g, differ) else .ok (seed g (hash differ t c).1, (hash differ t c).2)

section
variable {K : Type} [Field K] [LinearOrder K]

/-- `rand()`, `algorithms/MersenneTwister.h` 319-320, without rounding. -/
def unit (r : Nat) : K := r * (1 / 4294967295)

/-- `algorithms/MersenneTwister.h` 343-357; `none` if no pair was accepted within the fuel. -/
def randNorm (log sqrt : K → K) (mean stddev : K) : Nat → MT → Outcome (Option (K × MT))
  | 0, _ => .ok none
  | fuel + 1, g => (randInt g).bind fun a => (randInt a.2).bind fun b =>
    let x : K := 2 * unit a.1 - 1
    let y : K := 2 * unit b.1 - 1
    let r := x * x + y * y
    if 1 ≤ r ∨ r = 0 then randNorm log sqrt mean stddev fuel b.2
    else .ok (some (mean + x * sqrt (-2 * log r / r) * stddev, b.2))

end

/-! ## Different seeds -/

theorem xor_cancel {a b c : Nat} : c ^^^ a = c ^^^ b ↔ a = b :=
  ⟨fun h => by
    have := congrArg (c ^^^ ·) h
    simpa only [← Nat.xor_assoc, Nat.xor_self, Nat.zero_xor] using this, fun h => by rw [h]⟩

theorem xor_cancel' {a b c : Nat} : a ^^^ c = b ^^^ c ↔ a = b := by rw [Nat.xor_comm a, Nat.xor_comm b, xor_cancel]

theorem xA_inj {y z : Nat} (hy : y < 2 ^ 32) (hz : z < 2 ^ 32) (h : xA y = xA z) : y = z := by
  unfold xA at h
  have hlt : y / 2 ^^^ z / 2 < 2 ^ 31 := Nat.xor_lt_two_pow (by omega) (by omega)
  by_cases c : y % 2 = 1 <;> by_cases d : z % 2 = 1
  · rw [if_pos c, if_pos d, xor_cancel'] at h; omega
  · rw [if_pos c, if_neg d, Nat.xor_zero] at h
    rw [← h, ← Nat.xor_assoc, Nat.xor_self, Nat.zero_xor] at hlt
    omega
  · rw [if_neg c, if_pos d, Nat.xor_zero] at h
    rw [h, Nat.xor_comm, ← Nat.xor_assoc, Nat.xor_self, Nat.zero_xor] at hlt
    omega
  · rw [if_neg c, if_neg d, Nat.xor_zero, Nat.xor_zero] at h; omega

theorem mtSeq_next (x : Nat → Nat) (k : Nat) : mtSeq x (k + 624) = mtSeq x (k + 397) ^^^ xA (join (mtSeq x k) (mtSeq x (k + 1))) := by
  rw [mtSeq, if_neg (by omega), show k + 624 - 227 = k + 397 by omega, show k + 624 - 624 = k by omega, show k + 624 - 623 = k + 1 by omega]

/-- 624 words determine the words before them, but for 31 bits of the first. -/
theorem words_back {x y : Nat → Nat} (hx : ∀ i, i < 624 → x i < 2 ^ 32) (hy : ∀ i, i < 624 → y i < 2 ^ 32) (h : ∀ i, i < 624 → mtSeq x (624 + i) = mtSeq y (624 + i)) :
    ∀ n m, n + m = 623 → (∀ i, m < i → i < 1248 → mtSeq x i = mtSeq y i) ∧ mtSeq x m / 2 ^ 31 % 2 = mtSeq y m / 2 ^ 31 % 2 := by
  intro n
  induction n with
  | zero =>
    intro m hm
    have hi : ∀ i, m < i → i < 1248 → mtSeq x i = mtSeq y i := fun i h1 h2 => by
      have := h (i - 624) (by omega)
      rwa [show 624 + (i - 624) = i by omega] at this
    refine ⟨hi, ?_⟩
    have e := hi (m + 624) (by omega) (by omega)
    rw [mtSeq_next, mtSeq_next, hi (m + 397) (by omega) (by omega), xor_cancel] at e
    have := xA_inj (join_lt _ _) (join_lt _ _) e
    unfold join at this
    omega
  | succ n ih =>
    intro m hm
    obtain ⟨h1, h2⟩ := ih (m + 1) (by omega)
    have e := h1 (m + 624) (by omega) (by omega)
    rw [mtSeq_next, mtSeq_next, h1 (m + 397) (by omega) (by omega), xor_cancel] at e
    have e := xA_inj (join_lt _ _) (join_lt _ _) e
    have l1 := mtSeq_lt hx (m + 1)
    have l2 := mtSeq_lt hy (m + 1)
    unfold join at e
    refine ⟨fun i hi hi' => ?_, by omega⟩
    by_cases c : i = m + 1
    · subst c; omega
    · exact h1 i (by omega) hi'

theorem odd_mul_inj {m c A B : Nat} (hc : Nat.gcd m c = 1) (hA : A < m) (hB : B < m) (h : (c * A + 1) % m = (c * B + 1) % m) : A = B := by
  have h1 : c * A ≡ c * B [MOD m] := Nat.ModEq.add_right_cancel' 1 h
  exact Nat.ModEq.eq_of_lt_of_lt (Nat.ModEq.cancel_left_of_coprime hc h1) hA hB

theorem multiplier_odd : Nat.gcd (2 ^ 32) 1812433253 = 1 := by decide +kernel

theorem knuth_step (s i : Nat) : knuth s (i + 1) = (1812433253 * (knuth s i ^^^ knuth s i / 2 ^ 30) + (i + 1)) % 2 ^ 32 := by rw [knuth]

theorem knuth_inj {s t : Nat} (h : knuth s (0 + 1) = knuth t (0 + 1)) : s % 2 ^ 32 = t % 2 ^ 32 := by
  rw [knuth_step, knuth_step] at h
  have h3 := odd_mul_inj multiplier_odd (Nat.xor_lt_two_pow (knuth_lt s 0) (lt_of_le_of_lt (Nat.div_le_self _ _) (knuth_lt s 0)))
    (Nat.xor_lt_two_pow (knuth_lt t 0) (lt_of_le_of_lt (Nat.div_le_self _ _) (knuth_lt t 0))) h
  have h4 : knuth s 0 = knuth t 0 := by
    refine xor_shr_inj (k := 30) (by decide) ?_
    rw [Nat.shiftRight_eq_div_pow, Nat.shiftRight_eq_div_pow]
    exact h3
  rwa [knuth, knuth] at h4

theorem knuth_congr {s t : Nat} (h : s % 2 ^ 32 = t % 2 ^ 32) : ∀ i, knuth s i = knuth t i
  | 0 => h
  | i + 1 => by rw [knuth, knuth, knuth_congr h i]

theorem numbers_seed (g : MT) (s n : Nat) : numbers (draws n (seed g s)) = .ok ((List.range n).map fun i => temper (mtSeq (knuth s) (624 + i))) := by
  obtain ⟨g', e⟩ := stream_spec g s n
  rw [e]; rfl

/-- **C137.** Two generators deliver the same first 624 numbers if and only if the lower 32 bits of their seeds are equal, and then all their numbers are the same. -/
theorem seed_determined (g h : MT) (s t : Nat) :
    (numbers (draws 624 (seed g s)) = numbers (draws 624 (seed h t)) ↔ s % 2 ^ 32 = t % 2 ^ 32) ∧
    (s % 2 ^ 32 = t % 2 ^ 32 → ∀ n, numbers (draws n (seed g s)) = numbers (draws n (seed h t))) := by
  have all : s % 2 ^ 32 = t % 2 ^ 32 → ∀ n, numbers (draws n (seed g s)) = numbers (draws n (seed h t)) := by
    intro e n
    rw [numbers_seed, numbers_seed]
    have : ∀ k, mtSeq (knuth s) k = mtSeq (knuth t) k := window_congr fun i _ => knuth_congr e i
    simp only [this]
  refine ⟨⟨fun e => ?_, fun e => all e 624⟩, all⟩
  rw [numbers_seed, numbers_seed] at e
  have e := Outcome.ok.inj e
  have hs : ∀ i, i < 624 → knuth s i < 2 ^ 32 := fun i _ => knuth_lt s i
  have ht : ∀ i, i < 624 → knuth t i < 2 ^ 32 := fun i _ => knuth_lt t i
  have w : ∀ i, i < 624 → mtSeq (knuth s) (624 + i) = mtSeq (knuth t) (624 + i) := fun i hi =>
    temper_inj (mtSeq_lt hs _) (mtSeq_lt ht _) (List.map_inj_left.1 e i (List.mem_range.2 hi))
  have b := (words_back hs ht w 623 0 rfl).1 1 (by omega) (by omega)
  rw [mtSeq, if_pos (by omega), mtSeq, if_pos (by omega)] at b
  exact knuth_inj b

/-! ## Seeds from the clock -/

theorem hash_low (d t c : Nat) : (hash d t c).1 % 2 ^ 32 = (hashBytes (bytes8 t) + d) % 2 ^ 32 ^^^ hashBytes (bytes8 c) % 2 ^ 32 := by
  show ((hashBytes (bytes8 t) + d) % 2 ^ 64 ^^^ hashBytes (bytes8 c)) % 2 ^ 32 = _
  rw [Nat.xor_mod_two_pow, Nat.mod_mod_of_dvd _ (by decide)]

/-- **C137.** Without `/dev/urandom`, generators made at the same time and clock value deliver different numbers, within the first 624, unless a multiple of 2³² generators lies between them. -/
theorem clock_streams (g h : MT) (t c d e : Nat) {a b : MT × Nat} (ha : seedAuto g none d t c = .ok a) (hb : seedAuto h none e t c = .ok b) :
    numbers (draws 624 a.1) = numbers (draws 624 b.1) ↔ d % 2 ^ 32 = e % 2 ^ 32 := by
  have ha := Outcome.ok.inj ha
  have hb := Outcome.ok.inj hb
  subst ha hb
  show numbers (draws 624 (seed g _)) = numbers (draws 624 (seed h _)) ↔ _
  rw [(seed_determined g h _ _).1, hash_low, hash_low, xor_cancel']
  omega

/-- **C137.** The variable `differ` counts the seeds taken from the clock. -/
theorem clock_counts (g : MT) {urandom : Option (List Nat)} {d t c : Nat} {a : MT × Nat} (hd : d + 1 < 2 ^ 64) (ha : seedAuto g urandom d t c = .ok a) :
    a.2 = if ∃ l, urandom = some l ∧ 624 ≤ l.length then d else d + 1 := by
  unfold seedAuto at ha
  have hh : (hash d t c).2 = d + 1 := Nat.mod_eq_of_lt hd
  rcases urandom with _ | l
  · have ha := Outcome.ok.inj ha
    rw [← ha, if_neg (by simp)]
    exact hh
  · by_cases hl : 624 ≤ l.length
    · simp only [if_pos hl] at ha
      rw [if_pos ⟨l, rfl, hl⟩]
      cases hg : seedArray g (l.take 624) with
      | ok g' => rw [hg] at ha; rw [← Outcome.ok.inj ha]
      | ub => rw [hg] at ha; cases ha
      | abort z => rw [hg] at ha; cases ha
    · simp only [if_neg hl] at ha
      have ha := Outcome.ok.inj ha
      rw [← ha, if_neg (by rintro ⟨l', e, h⟩; cases e; exact hl h)]
      exact hh

/-- **C137.** The comment in `hash` says that seeds from the clock are guaranteed to change. They do not have to: the first generator of a program, made after 5 ms of processor time, and the
second, made 74 seconds later after 38.5 s of processor time, deliver the same numbers. -/
theorem clock_collision (g h : MT) : ∃ a b, seedAuto g none 0 1763430000 5000 = .ok a ∧ seedAuto h none a.2 1763430074 38503555 = .ok b ∧
    ∀ n, numbers (draws n a.1) = numbers (draws n b.1) := by
  refine ⟨_, _, rfl, rfl, fun n => ?_⟩
  have e : (hash 0 1763430000 5000).1 % 2 ^ 32 = (hash (hash 0 1763430000 5000).2 1763430074 38503555).1 % 2 ^ 32 := by decide +kernel
  exact (seed_determined g h _ _).2 e n

/-- **C137.** However a generator is seeded without a seed, seeding succeeds and among any 624 consecutive numbers one is not zero. -/
theorem auto_never_stuck (g : MT) (urandom : Option (List Nat)) (d t c k : Nat) :
    ∃ a, seedAuto g urandom d t c = .ok a ∧ ∃ l g', draws (k + 624) a.1 = .ok (l, g') ∧ ∃ r ∈ l.drop k, r ≠ 0 := by
  unfold seedAuto
  rcases urandom with _ | l
  · exact ⟨_, rfl, never_stuck g _ k⟩
  · by_cases hl : 624 ≤ l.length
    · have hk : l.take 624 ≠ [] := by
        intro e
        have := congrArg List.length e
        rw [List.length_take, List.length_nil] at this
        omega
      simp only [if_pos hl]
      obtain ⟨g', l', g'', e1, e2, _, e3⟩ := never_stuck_array g hk k
      exact ⟨(g', d), by rw [e1]; rfl, l', g'', e2, e3⟩
    · simp only [if_neg hl]
      exact ⟨_, rfl, never_stuck g _ k⟩

/-- Seeds that differ give numbers that differ. -/
example (g h : MT) : numbers (draws 624 (seed g 1)) ≠ numbers (draws 624 (seed h 2)) := fun e => absurd ((seed_determined g h 1 2).1.1 e) (by decide)

/-! ## Normal deviates -/

/-- A coordinate of the point that is drawn. -/
noncomputable def coord (a : Nat) : ℝ := (2 * a - 4294967295) / 4294967295

theorem coord_eq (a : Nat) : 2 * (unit a : ℝ) - 1 = coord a := by unfold unit coord; ring

/-- The coordinates are never zero. -/
theorem coord_sq (a : Nat) : (1 / 4294967295 : ℝ) ^ 2 ≤ coord a ^ 2 := by
  have h : (1 : Int) ≤ (2 * a - 4294967295) ^ 2 := by
    have : (2 * (a : Int) - 4294967295) ≠ 0 := by omega
    have := sq_nonneg (2 * (a : Int) - 4294967295)
    have h2 : (2 * (a : Int) - 4294967295) ^ 2 ≠ 0 := pow_ne_zero 2 (by omega)
    omega
  have h' : (1 : ℝ) ≤ (2 * a - 4294967295) ^ 2 := by exact_mod_cast h
  unfold coord
  rw [div_pow, div_pow, one_pow]
  exact div_le_div_of_nonneg_right h' (by positivity)

/-- The square of the distance of the point from the origin. -/
noncomputable def dist2 (a b : Nat) : ℝ := coord a ^ 2 + coord b ^ 2

theorem dist2_ge (a b : Nat) : 1 / 2 ^ 63 ≤ dist2 a b := by
  have h1 := coord_sq a
  have h2 := coord_sq b
  unfold dist2
  have : (1 : ℝ) / 2 ^ 63 ≤ (1 / 4294967295 : ℝ) ^ 2 + (1 / 4294967295 : ℝ) ^ 2 := by norm_num
  linarith

theorem dist2_pos (a b : Nat) : 0 < dist2 a b := lt_of_lt_of_le (by positivity) (dist2_ge a b)

/-- The value made of an accepted point. -/
noncomputable def deviate (mean stddev : ℝ) (a b : Nat) : ℝ := mean + coord a * Real.sqrt (-2 * Real.log (dist2 a b) / dist2 a b) * stddev

theorem randNorm_step {mean stddev : ℝ} {fuel : Nat} {g g1 g2 : MT} {a b : Nat} (h1 : randInt g = .ok (a, g1)) (h2 : randInt g1 = .ok (b, g2)) :
    randNorm Real.log Real.sqrt mean stddev (fuel + 1) g = if 1 ≤ dist2 a b then randNorm Real.log Real.sqrt mean stddev fuel g2 else .ok (some (deviate mean stddev a b, g2)) := by
  rw [randNorm, h1, Outcome.ok_bind, h2, Outcome.ok_bind]
  simp only [coord_eq]
  have e : coord a * coord a + coord b * coord b = dist2 a b := by unfold dist2; ring
  have hne := (dist2_pos a b).ne'
  rw [e]
  simp only [hne, or_false]
  rfl

/-- **C137.** `randNorm` draws two numbers at a time until the point lies in the open unit disc; it uses the first such point, and a point is never at the origin. -/
theorem randNorm_spec {x : Nat → Nat} (mean stddev : ℝ) : ∀ (k t fuel : Nat) (g : MT), At (mtSeq x) t g → k < fuel →
    (∀ i, i < k → 1 ≤ dist2 (temper (mtSeq x (t + 2 * i))) (temper (mtSeq x (t + 2 * i + 1)))) →
    dist2 (temper (mtSeq x (t + 2 * k))) (temper (mtSeq x (t + 2 * k + 1))) < 1 →
    ∃ g', randNorm Real.log Real.sqrt mean stddev fuel g = .ok (some (deviate mean stddev (temper (mtSeq x (t + 2 * k))) (temper (mtSeq x (t + 2 * k + 1))), g')) ∧
      At (mtSeq x) (t + 2 * k + 2) g' := by
  intro k
  induction k with
  | zero =>
    intro t fuel g h hf _ hk
    obtain ⟨f, rfl⟩ : ∃ f, fuel = f + 1 := ⟨fuel - 1, by omega⟩
    obtain ⟨g1, e1, a1⟩ := randInt_spec h
    obtain ⟨g2, e2, a2⟩ := randInt_spec a1
    simp only [Nat.mul_zero, Nat.add_zero] at hk ⊢
    refine ⟨g2, ?_, a2⟩
    rw [randNorm_step e1 e2, if_neg (not_le.2 hk)]
  | succ k ih =>
    intro t fuel g h hf hrej hk
    obtain ⟨f, rfl⟩ : ∃ f, fuel = f + 1 := ⟨fuel - 1, by omega⟩
    obtain ⟨g1, e1, a1⟩ := randInt_spec h
    obtain ⟨g2, e2, a2⟩ := randInt_spec a1
    have h0 := hrej 0 (by omega)
    rw [Nat.mul_zero, Nat.add_zero] at h0
    rw [randNorm_step e1 e2, if_pos h0]
    have sh : ∀ i, t + 1 + 1 + 2 * i = t + 2 * (i + 1) := fun i => by omega
    have := ih (t + 1 + 1) f g2 a2 (by omega) (fun i hi => by rw [sh]; exact hrej (i + 1) (by omega)) (by rw [sh]; exact hk)
    rwa [sh] at this

/-- **C137.** The two coordinates of an accepted point, scaled as `randNorm` does, lie on the circle of squared radius `-2 log r`; the argument of the root is not negative. -/
theorem deviate_circle {a b : Nat} (h : dist2 a b < 1) :
    0 ≤ -2 * Real.log (dist2 a b) / dist2 a b ∧ (deviate 0 1 a b) ^ 2 + (coord b * Real.sqrt (-2 * Real.log (dist2 a b) / dist2 a b)) ^ 2 = -2 * Real.log (dist2 a b) := by
  have hp := dist2_pos a b
  have hl : Real.log (dist2 a b) ≤ 0 := Real.log_nonpos hp.le h.le
  have h0 : 0 ≤ -2 * Real.log (dist2 a b) / dist2 a b := div_nonneg (by linarith) hp.le
  refine ⟨h0, ?_⟩
  unfold deviate
  rw [zero_add, mul_one, mul_pow, mul_pow, Real.sq_sqrt h0, ← add_mul]
  show dist2 a b * _ = _
  field_simp

/-- **C137.** Nothing farther than 9.35 standard deviations from the mean is ever delivered. -/
theorem deviate_bound (mean stddev : ℝ) {a b : Nat} (h : dist2 a b < 1) : |deviate mean stddev a b - mean| ≤ 935 / 100 * |stddev| := by
  obtain ⟨h0, hc⟩ := deviate_circle h
  have hl : -(63 * Real.log 2) ≤ Real.log (dist2 a b) := by
    have := Real.log_le_log (by positivity) (dist2_ge a b)
    rwa [Real.log_div one_ne_zero (by positivity), Real.log_one, Real.log_pow, zero_sub] at this
  have l2 := Real.log_two_lt_d9
  have hz : (deviate 0 1 a b) ^ 2 ≤ (935 / 100) ^ 2 := by
    have := sq_nonneg (coord b * Real.sqrt (-2 * Real.log (dist2 a b) / dist2 a b))
    norm_num at l2 ⊢
    linarith
  have hz' := abs_le_of_sq_le_sq hz (by norm_num)
  have e : deviate mean stddev a b - mean = deviate 0 1 a b * stddev := by unfold deviate; ring
  rw [e, abs_mul]
  exact mul_le_mul_of_nonneg_right hz' (abs_nonneg _)

/-- **C137.** A seeded generator, after any number of draws: `randNorm` has no undefined behaviour, and a value it delivers is within 9.35 standard deviations of the mean. -/
theorem randNorm_bound (mean stddev : ℝ) {g0 g : MT} {s n : Nat} {l : List Nat} (hd : draws n (seed g0 s) = .ok (l, g)) (fuel : Nat) :
    ∃ o, randNorm Real.log Real.sqrt mean stddev fuel g = .ok o ∧ ∀ v g', o = some (v, g') → |v - mean| ≤ 935 / 100 * |stddev| := by
  obtain ⟨t, ht⟩ : ∃ t, At (mtSeq (knuth s)) t g := by
    obtain ⟨g', e, h⟩ := draws_spec n 624 _ (seed_at g0 s)
    rw [hd] at e
    cases e
    exact ⟨_, h⟩
  clear hd
  induction fuel generalizing g t with
  | zero => exact ⟨none, rfl, fun _ _ e => by cases e⟩
  | succ fuel ih =>
    obtain ⟨g1, e1, a1⟩ := randInt_spec ht
    obtain ⟨g2, e2, a2⟩ := randInt_spec a1
    rw [randNorm_step e1 e2]
    split_ifs with hc
    · exact ih _ a2
    · refine ⟨_, rfl, fun v g' e => ?_⟩
      cases e
      exact deviate_bound mean stddev (not_le.1 hc)

/-- A point that is accepted and one that is not. -/
example : dist2 2147483647 2147483647 < 1 ∧ 1 ≤ dist2 0 0 := by unfold dist2 coord; norm_num

end MMSP.MTRand
