import Verif.Progress
import Mathlib.Data.Nat.Factorization.Basic
import Mathlib.Order.Interval.Finset.Nat
import Mathlib.Data.Nat.GCD.Basic
/-!
# The progress bar: how many bullets
-/

namespace MMSP.Progress

/-- Event at an inner step. -/
def inner (steps step : Nat) : List Event := if 20 * step % steps = 0 then [.bullet] else []

theorem printProgress_inner {steps step : Nat} (h1 : 0 < step) (h2 : step + 1 < steps) (ho : 20 * step < 2 ^ 31) :
    printProgress step steps = .ok (inner steps step) := by
  rw [printProgress, if_neg (by omega), if_neg (by omega), if_neg (by omega), if_neg (by omega), inner]
  have : ((20 * (step : Int)).tmod steps = 0) ↔ 20 * step % steps = 0 := by
    rw [Int.tmod_eq_emod_of_nonneg (by omega)]
    constructor
    · intro h; exact_mod_cast h
    · intro h; exact_mod_cast h
  by_cases h : 20 * step % steps = 0
  · rw [if_pos (this.2 h), if_pos h]
  · rw [if_neg (fun e => h (this.1 e)), if_neg h]

theorem foldlM_ok {steps : Nat} (L : List Nat) (out : List Event) (f : Nat → List Event) (h : ∀ s ∈ L, printProgress s steps = .ok (f s)) :
    L.foldlM (fun out (step : Nat) => (printProgress step steps).bind fun e => .ok (out ++ e)) out = Outcome.ok (out ++ L.flatMap f) := by
  induction L generalizing out with
  | nil => simp [pure]
  | cons s L ih =>
    rw [List.foldlM_cons, h s (by simp), Outcome.ok_bind, Outcome.bind_eq, Outcome.ok_bind, ih _ fun t ht => h t (List.mem_cons_of_mem _ ht)]
    simp

/-- The inner steps at which a bullet is printed. -/
def marks (steps : Nat) : Finset Nat := (Finset.Ioc 0 (steps - 2)).filter fun s => 20 * s % steps = 0

theorem inner_count (steps : Nat) (L : List Nat) : L.flatMap (inner steps) = List.replicate ((L.filter fun s => 20 * s % steps = 0).length) .bullet := by
  induction L with
  | nil => rfl
  | cons s L ih =>
    rw [List.flatMap_cons, ih]
    by_cases h : 20 * s % steps = 0
    · rw [inner, if_pos h, List.filter_cons_of_pos (by simpa using h)]; rfl
    · rw [inner, if_neg h, List.filter_cons_of_neg (by simpa using h)]; rfl

theorem marks_card {steps : Nat} (h2 : 2 ≤ steps) : (marks steps).card + 1 = if steps ∣ 20 then steps - 1 else Nat.gcd 20 steps := by
  obtain ⟨m, hm⟩ : ∃ m, steps = Nat.gcd 20 steps * m := (Nat.gcd_dvd_right 20 steps)
  obtain ⟨k, hk⟩ : ∃ k, 20 = Nat.gcd 20 steps * k := (Nat.gcd_dvd_left 20 steps)
  have hg : 0 < Nat.gcd 20 steps := Nat.gcd_pos_of_pos_left _ (by omega)
  have hdvd : ∀ s, 20 * s % steps = 0 ↔ m ∣ s := by
    intro s
    rw [← Nat.dvd_iff_mod_eq_zero]
    have hcop : Nat.Coprime m k := by
      have := Nat.coprime_div_gcd_div_gcd (m := 20) (n := steps) hg
      rw [Nat.div_eq_of_eq_mul_right hg hk, Nat.div_eq_of_eq_mul_right hg hm] at this
      exact this.symm
    constructor
    · intro h
      have : Nat.gcd 20 steps * m ∣ Nat.gcd 20 steps * (k * s) := by rw [← Nat.mul_assoc, ← hk, ← hm]; exact h
      exact hcop.dvd_of_dvd_mul_left (Nat.dvd_of_mul_dvd_mul_left hg this)
    · intro h
      have : Nat.gcd 20 steps * m ∣ Nat.gcd 20 steps * (k * s) := Nat.mul_dvd_mul_left _ (Dvd.dvd.mul_left h k)
      rw [← Nat.mul_assoc, ← hk, ← hm] at this; exact this
  have hcard := Nat.Ioc_filter_dvd_card_eq_div steps m
  have hmpos : 0 < m := by rcases Nat.eq_zero_or_pos m with h | h; · subst h; omega
                           · exact h
  have hdiv : steps / m = Nat.gcd 20 steps := Nat.div_eq_of_eq_mul_left hmpos hm
  rw [hdiv] at hcard
  have hsplit : (Finset.Ioc 0 steps).filter (fun s => m ∣ s) = insert steps ((if steps ∣ 20 then {steps - 1} else ∅) ∪ marks steps) := by
    ext s
    simp only [Finset.mem_filter, Finset.mem_Ioc, Finset.mem_insert, Finset.mem_union, marks, hdvd]
    have hlast : m ∣ steps - 1 ↔ steps ∣ 20 := by
      rw [← hdvd, ← Nat.dvd_iff_mod_eq_zero]
      have e : 20 * (steps - 1) + 20 = 20 * steps := by omega
      constructor
      · intro h
        exact (Nat.dvd_add_right h).1 (by rw [e]; exact Dvd.intro_left 20 rfl)
      · intro h
        exact (Nat.dvd_add_left h).1 (by rw [e]; exact Dvd.intro_left 20 rfl)
    have hself : m ∣ steps := ⟨_, by rw [Nat.mul_comm]; exact hm⟩
    by_cases h20 : steps ∣ 20
    · simp only [if_pos h20, Finset.mem_singleton]
      constructor
      · rintro ⟨⟨a, b⟩, c⟩
        rcases Nat.lt_or_ge s (steps - 1) with h | h
        · exact Or.inr (Or.inr ⟨⟨a, by omega⟩, c⟩)
        · rcases Nat.lt_or_ge s steps with h' | h'
          · exact Or.inr (Or.inl (by omega))
          · exact Or.inl (by omega)
      · rintro (rfl | rfl | ⟨⟨a, b⟩, c⟩)
        · exact ⟨⟨by omega, le_refl _⟩, hself⟩
        · exact ⟨⟨by omega, by omega⟩, hlast.2 h20⟩
        · exact ⟨⟨a, by omega⟩, c⟩
    · simp only [if_neg h20, Finset.notMem_empty, false_or]
      constructor
      · rintro ⟨⟨a, b⟩, c⟩
        rcases Nat.lt_or_ge s (steps - 1) with h | h
        · exact Or.inr ⟨⟨a, by omega⟩, c⟩
        · rcases Nat.lt_or_ge s steps with h' | h'
          · obtain rfl : s = steps - 1 := by omega
            exact absurd (hlast.1 c) h20
          · exact Or.inl (by omega)
      · rintro (rfl | ⟨⟨a, b⟩, c⟩)
        · exact ⟨⟨by omega, le_refl _⟩, hself⟩
        · exact ⟨⟨a, by omega⟩, c⟩
  have hnot : ∀ s ∈ marks steps, s ≤ steps - 2 := fun s hs => by
    simp only [marks, Finset.mem_filter, Finset.mem_Ioc] at hs; omega
  rw [hsplit] at hcard
  by_cases h20 : steps ∣ 20
  · rw [if_pos h20] at hcard ⊢
    rw [Finset.card_insert_of_notMem, Finset.card_union_of_disjoint, Finset.card_singleton] at hcard
    · have : Nat.gcd 20 steps = steps := Nat.gcd_eq_right h20
      omega
    · rw [Finset.disjoint_singleton_left]; intro h; have := hnot _ h; omega
    · simp only [Finset.mem_union, Finset.mem_singleton, not_or]
      exact ⟨by omega, fun h => by have := hnot _ h; omega⟩
  · rw [if_neg h20] at hcard ⊢
    rw [Finset.empty_union, Finset.card_insert_of_notMem (fun h => by have := hnot _ h; omega)] at hcard
    exact hcard

theorem filter_length (steps : Nat) : ((List.range' 1 (steps - 2)).filter fun s => 20 * s % steps = 0).length = (marks steps).card := by
  have : marks steps = ((List.range' 1 (steps - 2)).filter fun s => 20 * s % steps = 0).toFinset := by
    ext s
    simp only [marks, Finset.mem_filter, Finset.mem_Ioc, List.mem_toFinset, List.mem_filter, List.mem_range'_1, decide_eq_true_eq]
    constructor
    · rintro ⟨⟨a, b⟩, c⟩; exact ⟨⟨by omega, by omega⟩, c⟩
    · rintro ⟨⟨a, b⟩, c⟩; exact ⟨⟨by omega, by omega⟩, c⟩
  rw [this, List.toFinset_card_of_nodup]
  exact List.Nodup.filter _ List.nodup_range'

/-- **C85.** For two or more steps a bar is opened, filled and closed, in this order; the number of bullets is the greatest common divisor of 20 and the number of steps, or one less than the
number of steps if that divides 20. -/
theorem loop_bullets {steps : Nat} (h2 : 2 ≤ steps) (ho : 20 * (steps - 2) < 2 ^ 31) :
    loop steps = .ok (.opening :: List.replicate (if steps ∣ 20 then steps - 1 else Nat.gcd 20 steps) .bullet ++ [.closing]) := by
  have hr : List.range steps = 0 :: (List.range' 1 (steps - 2) ++ [steps - 1]) := by
    obtain ⟨n, rfl⟩ : ∃ n, steps = n + 2 := ⟨steps - 2, by omega⟩
    rw [List.range_eq_range', List.range'_succ]
    show 0 :: List.range' 1 (n + 1) = _
    rw [List.range'_1_concat]
    simp [Nat.add_comm]
  rw [loop, hr, foldlM_ok _ _ (fun s => if s = 0 then [.opening] else if s = steps - 1 then [.bullet, .closing] else inner steps s)]
  · simp only [List.flatMap_cons, List.flatMap_append, List.flatMap_nil, List.nil_append, if_true, List.append_nil]
    rw [if_neg (by omega)]
    have : (List.range' 1 (steps - 2)).flatMap (fun s => if s = 0 then [Event.opening] else if s = steps - 1 then [.bullet, .closing] else inner steps s) =
        (List.range' 1 (steps - 2)).flatMap (inner steps) := by
      rw [List.flatMap_def, List.flatMap_def]
      congr 1
      apply List.map_congr_left
      intro s hs
      rw [List.mem_range'_1] at hs
      rw [if_neg (by omega), if_neg (by omega)]
    rw [this, inner_count, filter_length steps, ← marks_card h2, List.replicate_succ']
    simp
  · intro s hs
    simp only [List.mem_cons, List.mem_append, List.mem_range'_1, List.not_mem_nil, or_false] at hs
    rcases hs with rfl | hs | rfl
    · rfl
    · rw [if_neg (by omega), if_neg (by omega)]
      exact printProgress_inner (by omega) (by omega) (by omega)
    · rw [if_neg (by omega), if_pos rfl, printProgress, if_neg (by omega), if_pos (by omega)]

/-- **C85.** The bar has the twenty bullets of its description exactly if the number of steps is a multiple of 20 other than 20. -/
theorem twenty_points {steps : Nat} (h2 : 2 ≤ steps) (ho : 20 * (steps - 2) < 2 ^ 31) :
    (∃ out, loop steps = .ok out ∧ out.count .bullet = 20) ↔ 20 ∣ steps ∧ steps ≠ 20 := by
  rw [loop_bullets h2 ho]
  have hc : ∀ n, (Event.opening :: List.replicate n Event.bullet ++ [Event.closing]).count Event.bullet = n := fun n => by
    simp [List.count_replicate]
  constructor
  · rintro ⟨out, h, h20⟩
    simp only [Outcome.ok.injEq] at h
    subst h
    rw [hc] at h20
    by_cases hd : steps ∣ 20
    · rw [if_pos hd] at h20
      have : steps = 21 := by omega
      subst this; revert hd; decide
    · rw [if_neg hd] at h20
      exact ⟨by have := Nat.gcd_dvd_right 20 steps; rwa [h20] at this, by rintro rfl; exact hd (dvd_refl _)⟩
  · rintro ⟨hd, hne⟩
    refine ⟨_, rfl, ?_⟩
    rw [hc, if_neg (fun h => hne (Nat.dvd_antisymm h hd)), Nat.gcd_eq_left hd]

/-- **C85, negative.** A run of one step opens a bar that is never closed. -/
theorem one_step : loop 1 = .ok [.opening] := rfl

/-- **C85, negative.** From 107374185 steps on the product overflows. -/
theorem many_steps {steps : Nat} (h : 107374185 ≤ steps) : loop steps = .ub := by
  obtain ⟨k, rfl⟩ : ∃ k, steps = 107374183 + (k + 2) := ⟨steps - 107374185, by omega⟩
  have hr : List.range (107374183 + (k + 2)) = List.range 107374183 ++ (107374183 :: (List.range' 107374184 (k + 1))) := by
    rw [List.range_eq_range', List.range_eq_range', ← List.range'_append_1]
    congr 1
  rw [loop, hr, List.foldlM_append, foldlM_ok (List.range 107374183) [] (fun s => if s = 0 then [.opening] else inner (107374183 + (k + 2)) s)]
  · rw [Outcome.bind_eq, Outcome.ok_bind, List.foldlM_cons]
    have : printProgress ((107374183 : Nat) : Int) ((107374183 + (k + 2) : Nat) : Int) = .ub := by
      rw [printProgress, if_neg (by omega), if_neg (by omega), if_pos (by omega)]
    rw [this]; rfl
  · intro s hs
    rw [List.mem_range] at hs
    by_cases h0 : s = 0
    · subst h0; rfl
    · rw [if_neg h0]; exact printProgress_inner (by omega) (by omega) (by omega)

/-- **C85.** The printed clock adds up, with minutes and seconds below 60. -/
theorem clock_spec (t : Nat) : (clock t).1 * 3600 + (clock t).2.1 * 60 + (clock t).2.2 = t ∧ (clock t).2.1 < 60 ∧ (clock t).2.2 < 60 := by
  simp only [clock]; omega

example : loop 100 = .ok (.opening :: List.replicate 20 .bullet ++ [.closing]) := by
  rw [loop_bullets (by omega) (by omega)]; rfl

example : loop 7 = .ok [.opening, .bullet, .closing] := by decide

end MMSP.Progress
