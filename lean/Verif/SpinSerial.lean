import Verif.EachRunProps
import Mathlib.Analysis.SpecialFunctions.Exp
import Mathlib.Tactic.IntervalCases
/-!
# Property C103: the parallel Ising model is not a serial one

Two ranks can flip the two sites at the border between them in the same exchange interval, each seeing the other's old spin. The grain growth program avoids this by its sublattices (C100);
`update` of `examples/statistical_mechanics/Ising/ising.cpp` 46-124 does not. Here is a run whose result no order of the attempts, no choice of the sites and no number of attempts gives serially,
as long as no attempt is accepted by thermal activation.
-/

namespace MMSP.SpinSchedule

open ParallelRun Ghost Async Stencil Spin

/-- Eight nodes in a ring, on two ranks: nodes 0-3 and 4-7. -/
abbrev ring : World := generated 1 (fun _ => 8) 2

theorem ring_ok : ring.Ok 2 := generated_ok (by decide) (by decide) (by decide +kernel)

/-- Each rank draws the node at the border to the other, then that node's neighbour; `R` is the number for the acceptance test. -/
def atBorder (R : Nat) (r : Int) (_ h : Nat) : Nat × Nat := if h = 0 then (if r = 0 then 3 else 0, R) else (if r = 0 then 2 else 1, R)

/-- A number with which no attempt that costs energy is accepted. -/
def Cold (hot : ℚ → Nat → Bool) (R : Nat) : Prop := ∀ x, 0 < x → hot x R = false

theorem cold_attempt {hot : ℚ → Nat → Bool} {R : Nat} (hR : Cold hot R) (g : Shape) (a R' : Nat) : isingAttempt g hot (a, R) = isingAttempt g (fun _ _ => false) (a, R') := by
  unfold isingAttempt
  dsimp only
  congr 1
  funext A
  congr 1
  funext s
  congr 1
  funext sum
  by_cases h1 : isingEnergy sum s (-s) ≤ 0
  · rw [if_pos h1, if_pos h1]
  · rw [if_neg h1, if_neg h1, hR _ (not_le.1 h1)]

/-! ## The parallel run -/

/-- The program of the ranks, with numbers that are always rejected. -/
def borderRank (r : Int) : List (Stmt Int) := isingRank (ring.shape r) (fun _ _ => false) (atBorder 0 r) 1

theorem border_eq {hot : ℚ → Nat → Bool} {R : Nat} (hR : Cold hot R) (r : Int) : isingRank (ring.shape r) hot (atBorder R r) 1 = borderRank r := by
  unfold borderRank isingRank
  congr 1
  funext step h
  unfold atBorder
  split_ifs <;> exact cold_attempt hR _ _ _

theorem border_result : ((eachRun (fun _ => MonteCarlo.intCell) ring 0 2 borderRank (fun _ => .ok fun _ _ => 1) 0).bind fun σ => .ok (σ 0 ((ring.shape 0).rawOffset fun _ => 3))) = .ok (-1) ∧
    ((eachRun (fun _ => MonteCarlo.intCell) ring 0 2 borderRank (fun _ => .ok fun _ _ => 1) 1).bind fun σ => .ok (σ 0 ((ring.shape 1).rawOffset fun _ => 4))) = .ok (-1) := by decide +kernel

theorem border_calls : calls (borderRank 0) = 2 := by
  unfold borderRank isingRank
  rw [calls_update (attempt := fun step h => isingAttempt (ring.shape 0) (fun _ _ => false) (atBorder 0 0 step h)) (fun _ _ => trivial) (by decide +kernel)]
  decide +kernel

/-! ## Serial runs -/

/-- All spins are up or down, and no two neighbours are down. -/
def Apart (d : Int → Int) : Prop := ∀ i ∈ List.range 8, (d i = 1 ∨ d i = -1) ∧ ¬ (d i = -1 ∧ d ((i + 1) % 8 : Nat) = -1)

theorem ring_flip {hot : ℚ → Nat → Bool} {R : Nat} (hR : Cold hot R) {d d' : Int → Int} (hd : Apart d) {a : Nat} (e : isingFlip .serial ring.serial hot d (a, R) = .ok d') : Apart d' := by
  have hn : ring.serial.nodes.toNat = 8 := by decide +kernel
  unfold isingFlip at e
  rw [if_neg (by rw [hn]; decide)] at e
  rw [hn] at e
  generalize hm : a % 8 = m at e
  have hlt : m < 8 := by omega
  clear hm
  have key : ∀ (l c r : Int), (l = 1 ∨ l = -1) → (c = 1 ∨ c = -1) → (r = 1 ∨ r = -1) → ∀ q : Int,
      (if isingEnergy (-1 + change c (-c) l + change c (-c) c + change c (-c) r) c (-c) ≤ 0 then some (-c) else if hot (isingEnergy (-1 + change c (-c) l + change c (-c) c + change c (-c) r) c (-c)) R then
        some (-c) else none) = some q → (q = 1 ∨ q = -1) ∧ (q = -1 → l = 1 ∧ r = 1) := by
    intro l c r hl hc hr q hq
    by_cases hE : isingEnergy (-1 + change c (-c) l + change c (-c) c + change c (-c) r) c (-c) ≤ 0
    · rw [if_pos hE] at hq
      cases hq
      rcases hl with rfl | rfl <;> rcases hc with rfl | rfl <;> rcases hr with rfl | rfl <;> revert hE <;> decide +kernel
    · rw [if_neg hE, hR _ (not_le.1 hE)] at hq
      cases hq
  have step : ∀ (i l r : Int) (hi : 0 ≤ i ∧ i < 8), (d l = 1 ∨ d l = -1) → (d i = 1 ∨ d i = -1) → (d r = 1 ∨ d r = -1) →
      (if isingEnergy (-1 + change (d i) (-d i) (d l) + change (d i) (-d i) (d i) + change (d i) (-d i) (d r)) (d i) (-d i) ≤ 0 then (Outcome.ok (Function.update d i (-d i)) : Outcome (Int → Int)) else
        if hot (isingEnergy (-1 + change (d i) (-d i) (d l) + change (d i) (-d i) (d i) + change (d i) (-d i) (d r)) (d i) (-d i)) R then .ok (Function.update d i (-d i)) else .ok d) = .ok d' →
      d' = d ∨ ∃ q, (q = 1 ∨ q = -1) ∧ (q = -1 → d l = 1 ∧ d r = 1) ∧ d' = Function.update d i q := by
    intro i l r hi hl hc hr e
    split_ifs at e with h1 h2
    · cases e; exact Or.inr ⟨-d i, (key _ _ _ hl hc hr (-d i) (by rw [if_pos h1])).1, (key _ _ _ hl hc hr (-d i) (by rw [if_pos h1])).2, rfl⟩
    · cases e; exact Or.inr ⟨-d i, (key _ _ _ hl hc hr (-d i) (by rw [if_neg h1, if_pos h2])).1, (key _ _ _ hl hc hr (-d i) (by rw [if_neg h1, if_pos h2])).2, rfl⟩
    · cases e; exact Or.inl rfl
  have hall : ∀ i : Nat, i < 8 → (d i = 1 ∨ d i = -1) ∧ ¬ (d i = -1 ∧ d ((i + 1) % 8 : Nat) = -1) := fun i hi => hd i (List.mem_range.2 hi)
  have h0 := hall 0 (by decide); have h1 := hall 1 (by decide); have h2 := hall 2 (by decide); have h3 := hall 3 (by decide)
  have h4 := hall 4 (by decide); have h5 := hall 5 (by decide); have h6 := hall 6 (by decide); have h7 := hall 7 (by decide)
  simp only [Nat.reduceAdd, Nat.reduceMod, Nat.cast_ofNat, Nat.cast_zero, Nat.cast_one] at h0 h1 h2 h3 h4 h5 h6 h7
  have fin : (d' = d ∨ ∃ q, (q = 1 ∨ q = -1) ∧ (q = -1 → d ((m + 7) % 8 : Nat) = 1 ∧ d ((m + 1) % 8 : Nat) = 1) ∧ d' = Function.update d m q) → Apart d' := by
    rintro (rfl | ⟨q, hq, hq2, rfl⟩)
    · exact hd
    · intro i hi
      have hi8 := List.mem_range.1 hi
      have hA := hall i hi8
      interval_cases m <;> interval_cases i <;> simp at hq2 hA ⊢ <;> omega
  apply fin
  interval_cases m
  · exact step 0 7 1 (by decide) h7.1 h0.1 h1.1 e
  · exact step 1 0 2 (by decide) h0.1 h1.1 h2.1 e
  · exact step 2 1 3 (by decide) h1.1 h2.1 h3.1 e
  · exact step 3 2 4 (by decide) h2.1 h3.1 h4.1 e
  · exact step 4 3 5 (by decide) h3.1 h4.1 h5.1 e
  · exact step 5 4 6 (by decide) h4.1 h5.1 h6.1 e
  · exact step 6 5 7 (by decide) h5.1 h6.1 h7.1 e
  · exact step 7 6 0 (by decide) h6.1 h7.1 h0.1 e

theorem ring_run {hot : ℚ → Nat → Bool} {R : Nat} (hR : Cold hot R) : ∀ (sites : List Nat) {d d' : Int → Int}, Apart d →
    isingRun .serial ring.serial hot (sites.map fun a => (a, R)) d = .ok d' → Apart d'
  | [], d, d', hd, e => by cases e; exact hd
  | a :: sites, d, d', hd, e => by
    unfold isingRun at e
    rw [List.map_cons, List.foldlM_cons] at e
    cases e1 : isingFlip .serial ring.serial hot d (a, R) with
    | ok d1 => rw [e1, Outcome.bind_eq, Outcome.ok_bind] at e; exact ring_run hR sites (ring_flip hR hd e1) e
    | ub => rw [e1] at e; cases e
    | abort z => rw [e1] at e; cases e

/-- **C103.** All spins are up at the start; the test number is always one that accepts no increase of the energy. There are choices of the sites with which the parallel program, for every
schedule, ends with nodes 3 and 4 of the ring down; serially no sequence of attempts with that test number ends so. -/
theorem ising_not_serial {hot : ℚ → Nat → Bool} {R : Nat} (hR : Cold hot R) :
    ∃ draws : Int → Nat → Nat → Nat × Nat, (∀ r step h, (draws r step h).2 = R) ∧
      (∃ n X, Run (fun _ => MonteCarlo.intCell) ring_ok false n (startEach (fun r => isingRank (ring.shape r.1) hot (draws r.1) 1) fun _ _ _ => 1) X ∧ Done X) ∧
      (∀ e n X, Run (fun _ => MonteCarlo.intCell) ring_ok e n (startEach (fun r => isingRank (ring.shape r.1) hot (draws r.1) 1) fun _ _ _ => 1) X → Done X →
        ∀ r : Rank 2, ∃ τ, (X.loc r).mem = .ok ⟨τ, 0⟩ ∧ cellAt (ring.shape r.1) (τ 0) (fun _ => if r.1 = 0 then 3 else 4) = -1) ∧
      ∀ (sites : List Nat) d', isingRun .serial ring.serial hot (sites.map fun a => (a, R)) (fun _ => 1) = .ok d' →
        ¬ (cellAt ring.serial d' (fun _ => 3) = -1 ∧ cellAt ring.serial d' (fun _ => 4) = -1) := by
  refine ⟨atBorder R, fun r step h => by unfold atBorder; split_ifs <;> rfl, ?_, fun e n X hrun hX r => ?_, fun sites d' e => ?_⟩
  · have hret := (returns_iff (c := fun _ => MonteCarlo.intCell) (h := ring_ok) (D := fun _ _ _ => 1)).1
      (ising_returns_partial (h := ring_ok) (c := fun _ => MonteCarlo.intCell) (Or.inl rfl) hot (fun r => atBorder R r.1) 1 fun _ _ _ => 1)
    exact each_exist (N := calls (isingRank (ring.shape 0) hot (atBorder R 0) 1)) (fun r => by rw [calls_segs]; exact hret r ⟨0, by decide, by decide⟩) _
  · have he : (fun r : Rank 2 => isingRank (ring.shape r.1) hot (atBorder R r.1) 1) = fun r => borderRank r.1 := funext fun r => border_eq hR r.1
    rw [he] at hrun
    obtain ⟨N, hN, hm, -⟩ := each_result (a := 0) (p := borderRank) (fun r => update_calls_zero (attempt := fun step h => isingAttempt (ring.shape r.1) (fun _ _ => false) (atBorder 0 r.1 step h)) (fun _ _ => trivial) _ _ _) hrun hX
    have h2 := hN ⟨0, by decide, by decide⟩
    rw [border_calls] at h2
    subst h2
    have hb := border_result
    have h01 : r.1 = 0 ∨ r.1 = 1 := by have := r.2.1; have := r.2.2; omega
    have hmr := hm r
    rcases h01 with h01 | h01
    · rw [h01] at hmr ⊢
      cases e1 : eachRun (fun _ => MonteCarlo.intCell) ring 0 2 borderRank (fun _ => .ok fun _ _ => 1) 0 with
      | ok σ => rw [e1] at hmr hb; exact ⟨σ, hmr, by have := hb.1; rw [Outcome.ok_bind] at this; simpa [cellAt] using this⟩
      | ub => rw [e1] at hb; cases hb.1
      | abort z => rw [e1] at hb; cases hb.1
    · rw [h01] at hmr ⊢
      cases e1 : eachRun (fun _ => MonteCarlo.intCell) ring 0 2 borderRank (fun _ => .ok fun _ _ => 1) 1 with
      | ok σ => rw [e1] at hmr hb; exact ⟨σ, hmr, by have := hb.2; rw [Outcome.ok_bind] at this; simpa [cellAt] using this⟩
      | ub => rw [e1] at hb; cases hb.2
      | abort z => rw [e1] at hb; cases hb.2
  · rintro ⟨h3, h4⟩
    have := (ring_run hR sites (d := fun _ => 1) (fun i _ => ⟨Or.inl rfl, fun h => by cases h.1⟩) e 3 (by decide)).2
    exact this ⟨h3, h4⟩

/-! ## Examples -/

open Classical in
/-- The test of the program, `r<exp(-dE/kT)` with `r = double(rand())/double(RAND_MAX)` (`ising.cpp` 114-117): the number `RAND_MAX` accepts no increase of the energy. -/
example (kT : ℝ) (hkT : 0 < kT) : Cold (fun dE r => decide ((r : ℝ) / (2 ^ 31 - 1 : ℕ) < Real.exp (-(dE : ℝ) / kT))) (2 ^ 31 - 1) := by
  intro x hx
  have h1 : Real.exp (-(x : ℝ) / kT) ≤ 1 := Real.exp_le_one_iff.2 (by rw [neg_div]; exact neg_nonpos.2 (by positivity))
  have h2 : (((2 ^ 31 - 1 : ℕ) : ℝ) / ((2 ^ 31 - 1 : ℕ) : ℝ)) = 1 := div_self (by norm_num)
  simp only [decide_eq_false_iff_not, not_lt]
  rw [h2]; exact h1

-- serial runs exist
example : ((isingRun .serial ring.serial (fun _ _ => false) ([3, 4, 2, 0].map fun a => (a, 0)) fun _ => 1).bind fun d => .ok (d 3, d 4, d 2, d 0)) = .ok (-1, 1, 1, -1) := by decide +kernel

end MMSP.SpinSchedule
