import Verif.DecompLemmas
import Verif.IndexProps
/-!
# Properties C05-C08: domain decomposition
-/

namespace MMSP.Decomp

open Finset

/-! ## Specification -/

/-- A process grid for `np` processes: positive factors with product `np`. -/
def ProcGrid (np d : Nat) (q : Nat → Int) : Prop := (∀ j, j < d → 0 < q j) ∧ ∏ j ∈ range d, q j = (np : Int)

/-- The coordinate is in the global box. -/
def InGlobal (d : Nat) (g0 g1 x : Nat → Int) : Prop := ∀ j, j < d → g0 j ≤ x j ∧ x j < g1 j

/-- Estimated ghost area of a process grid (sum over the axes of slice area times number of cuts, written out
without reference to the code's arrays). -/
def ghostArea (d : Nat) (g0 g1 q : Nat → Int) : Int :=
  ∑ j ∈ range d, (∏ k ∈ (range d).erase j, (g1 k - g0 k)) * (1 + q j)

/-! ## C06 -/

/-- C06: the loop never reads outside the array `factors`. -/
theorem combo_in_bounds {np d : Nat} (hnp : 0 < np) {i : Nat} (hi : i < (factors np).length ^ d) {j : Nat}
    (hj : j < d) : 0 ≤ combo d (factors np).length i j ∧ combo d (factors np).length i j < (factors np).length :=
  combo_bounds (factors_length_pos hnp) hi hj

theorem cost_eq_ghostArea (d : Nat) (g0 g1 q : Nat → Int) : cost d (area d g0 g1) q = ghostArea d g0 g1 q := by
  unfold cost ghostArea area
  apply Finset.sum_congr rfl
  intro j _
  congr 1
  apply Finset.prod_congr _ (fun _ _ => rfl)
  ext k
  simp only [mem_filter, mem_erase]
  constructor
  · rintro ⟨a, b⟩; exact ⟨fun h => b h.symm, a⟩
  · rintro ⟨a, b⟩; exact ⟨b, fun h => a h.symm⟩

theorem procGrid_mem_factors {np d : Nat} {q : Nat → Int} (hnp : 0 < np) (hq : ProcGrid np d q) {j : Nat}
    (hj : j < d) : q j ∈ factors np := by
  rw [mem_factors]
  have hd : q j ∣ (np : Int) := by rw [← hq.2]; exact Finset.dvd_prod_of_mem q (Finset.mem_range.mpr hj)
  exact ⟨hq.1 j hj, Int.le_of_dvd (by omega) hd, hd⟩

theorem choose_spec {np d : Nat} {g0 g1 : Nat → Int} (hnp : 0 < np) (hd : 0 < d)
    (hg : ∀ j, j < d → g0 j ≤ g1 j) :
    ∃ k : Nat, k < (factors np).length ^ d ∧ ∏ j ∈ range d, comboFactor np d k j = (np : Int) ∧
      choose np d g0 g1 = comboFactor np d k ∧
      (∀ i : Nat, i < (factors np).length ^ d → ∏ j ∈ range d, comboFactor np d i j = (np : Int) →
        cost d (area d g0 g1) (comboFactor np d k) ≤ cost d (area d g0 g1) (comboFactor np d i)) ∧
      (∀ i : Nat, i < k → ∏ j ∈ range d, comboFactor np d i j = (np : Int) →
        cost d (area d g0 g1) (comboFactor np d k) < cost d (area d g0 g1) (comboFactor np d i)) := by
  have ha : ∀ j, 0 ≤ area d g0 g1 j := by
    intro j
    apply Finset.prod_nonneg
    intro k hk
    have := hg k (Finset.mem_range.mp (Finset.mem_filter.mp hk).1)
    omega
  have hpos : ∀ i : Nat, i < (factors np).length ^ d → 0 ≤ cost d (area d g0 g1) (comboFactor np d i) := by
    intro i hi
    apply Finset.sum_nonneg
    intro j hj
    apply mul_nonneg (ha j)
    have := (mem_factors.mp (comboFactor_mem hnp hi (Finset.mem_range.mp hj))).1
    omega
  have h := chooseStep_spec hpos _ le_rfl
  rcases h with ⟨h, _⟩ | ⟨k, hk, hv, hp, hm, hle, hlt⟩
  · exfalso
    let q : Nat → Int := fun j => if j = 0 then (np : Int) else 1
    have hq : ∀ j, j < d → q j ∈ factors np := by
      intro j _
      rw [mem_factors]
      simp only [q]
      split
      · exact ⟨by omega, le_rfl, dvd_rfl⟩
      · exact ⟨by omega, by omega, one_dvd _⟩
    obtain ⟨i, hi, he⟩ := exists_combo hq
    apply h i hi
    rw [Finset.prod_congr rfl (fun j hj => he j (Finset.mem_range.mp hj))]
    rw [Finset.prod_eq_single 0]
    · simp [q]
    · intro j _ hj; simp [q, hj]
    · intro hn; exact absurd (Finset.mem_range.mpr hd) hn
  · refine ⟨k, hk, hv, hp, ?_, ?_⟩
    · intro i hi hvi; rw [← hm]; exact hle i hi hvi
    · intro i hi hvi; rw [← hm]; exact hlt i hi hvi

/-- C06: the chosen process grid uses all processes. -/
theorem choose_procGrid {np d : Nat} {g0 g1 : Nat → Int} (hnp : 0 < np) (hd : 0 < d)
    (hg : ∀ j, j < d → g0 j ≤ g1 j) : ProcGrid np d (choose np d g0 g1) := by
  obtain ⟨k, hk, hv, he, _⟩ := choose_spec hnp hd hg
  rw [he]
  exact ⟨fun j hj => (mem_factors.mp (comboFactor_mem hnp hk hj)).1, hv⟩

/-- C06: no process grid for `np` processes has a smaller ghost area. -/
theorem choose_minimal {np d : Nat} {g0 g1 : Nat → Int} (hnp : 0 < np) (hd : 0 < d)
    (hg : ∀ j, j < d → g0 j ≤ g1 j) {q : Nat → Int} (hq : ProcGrid np d q) :
    ghostArea d g0 g1 (choose np d g0 g1) ≤ ghostArea d g0 g1 q := by
  obtain ⟨k, hk, hv, he, hle, _⟩ := choose_spec hnp hd hg
  obtain ⟨i, hi, hqi⟩ := exists_combo (fun j hj => procGrid_mem_factors hnp hq hj)
  have hval : ∏ j ∈ range d, comboFactor np d i j = (np : Int) := by
    rw [← hq.2]; exact Finset.prod_congr rfl (fun j hj => hqi j (Finset.mem_range.mp hj))
  have := hle i hi hval
  rw [he]
  rw [cost_eq_ghostArea, cost_eq_ghostArea] at this
  have e : ghostArea d g0 g1 (comboFactor np d i) = ghostArea d g0 g1 q := by
    unfold ghostArea
    exact Finset.sum_congr rfl (fun j hj => by rw [hqi j (Finset.mem_range.mp hj)])
  rw [← e]; exact this

/-- C06: among the process grids of minimal ghost area the lexicographically first is taken. -/
theorem choose_first {np d : Nat} {g0 g1 : Nat → Int} (hnp : 0 < np) (hd : 0 < d)
    (hg : ∀ j, j < d → g0 j ≤ g1 j) {q : Nat → Int} (hq : ProcGrid np d q)
    (hlex : LexLt d q (choose np d g0 g1)) :
    ghostArea d g0 g1 (choose np d g0 g1) < ghostArea d g0 g1 q := by
  obtain ⟨k, hk, hv, he, _, hlt⟩ := choose_spec hnp hd hg
  obtain ⟨i, hi, hqi⟩ := exists_combo (fun j hj => procGrid_mem_factors hnp hq hj)
  have hval : ∏ j ∈ range d, comboFactor np d i j = (np : Int) := by
    rw [← hq.2]; exact Finset.prod_congr rfl (fun j hj => hqi j (Finset.mem_range.mp hj))
  rw [he] at hlex ⊢
  have hik : i < k := by
    apply combo_lex hnp hi hk
    obtain ⟨j, hj, h1, h2⟩ := hlex
    exact ⟨j, hj, fun m hm => by rw [hqi m (by omega)]; exact h1 m hm, by rw [hqi j hj]; exact h2⟩
  have := hlt i hik hval
  rw [cost_eq_ghostArea, cost_eq_ghostArea] at this
  have e : ghostArea d g0 g1 (comboFactor np d i) = ghostArea d g0 g1 q := by
    unfold ghostArea
    exact Finset.sum_congr rfl (fun j hj => by rw [hqi j (Finset.mem_range.mp hj)])
  rw [← e]; exact this

example : ProcGrid 6 2 (fun j => if j = 0 then 2 else 3) := by
  refine ⟨fun j _ => ?_, by decide⟩; beta_reduce; split <;> decide

/-- 6 processes on a 30 × 10 box: 3 × 2 (the tie with 6 × 1 goes to the lexicographically first). -/
example : (choose 6 2 (fun _ => 0) (fun j => if j = 0 then 30 else 10) 0,
    choose 6 2 (fun _ => 0) (fun j => if j = 0 then 30 else 10) 1) = (3, 2) := by decide +kernel

/-! ## C05 -/

section Partition
variable {np d : Nat} {g0 g1 : Nat → Int} {p : Nat → Int}

/-- Local limits of axis `i` on a rank, for an arbitrary process grid `p`. -/
def lim (d : Nat) (g0 g1 p : Nat → Int) (rank : Int) (i : Nat) : Int × Int :=
  axisLimits (g0 i) (g1 i) (p i) (pos d p rank i)

/-- The coordinate is in the box of the rank. -/
def InLocal (d : Nat) (g0 g1 p : Nat → Int) (rank : Int) (x : Nat → Int) : Prop :=
  ∀ j, j < d → (lim d g0 g1 p rank j).1 ≤ x j ∧ x j < (lim d g0 g1 p rank j).2

theorem pos_bounds (hp : ProcGrid np d p) {rank : Int} (h0 : 0 ≤ rank) (h1 : rank < np) {j : Nat} (hj : j < d) :
    0 ≤ pos d p rank j ∧ pos d p rank j < p j := by
  have := digit_inBox hp.1 h0 (by rw [hp.2]; exact h1) j hj
  exact this

theorem lim_eq (hp : ProcGrid np d p) (hg : ∀ j, j < d → g0 j ≤ g1 j) {rank : Int} (h0 : 0 ≤ rank) (h1 : rank < np)
    {j : Nat} (hj : j < d) :
    lim d g0 g1 p rank j =
      (cut (g0 j) (g1 j) (p j) (pos d p rank j), cut (g0 j) (g1 j) (p j) (pos d p rank j + 1)) :=
  axisLimits_eq (hg j hj) (hp.1 j hj) (pos_bounds hp h0 h1 hj).1

/-- C05: every node of the global box belongs to exactly one rank. -/
theorem partition (hp : ProcGrid np d p) (hg : ∀ j, j < d → g0 j ≤ g1 j) {x : Nat → Int}
    (hx : InGlobal d g0 g1 x) :
    ∃ r : Int, (0 ≤ r ∧ r < np ∧ InLocal d g0 g1 p r x) ∧
      ∀ r' : Int, 0 ≤ r' → r' < np → InLocal d g0 g1 p r' x → r' = r := by
  have hk : ∀ j, ∃ k, j < d → 0 ≤ k ∧ k < p j ∧ cut (g0 j) (g1 j) (p j) k ≤ x j ∧
      x j < cut (g0 j) (g1 j) (p j) (k + 1) := by
    intro j
    by_cases hj : j < d
    · obtain ⟨k, h⟩ := cut_piece (hg j hj) (hp.1 j hj) (hx j hj).1 (hx j hj).2
      exact ⟨k, fun _ => h⟩
    · exact ⟨0, fun h => absurd h hj⟩
  choose k hk using hk
  have hbox : InBox d p k := fun j hj => ⟨(hk j hj).1, (hk j hj).2.1⟩
  have hb := encode_bounds hbox
  rw [hp.2] at hb
  have hpos : ∀ j, j < d → pos d p (encode d (slice d p) k) j = k j := fun j hj => digit_encode hbox hj
  refine ⟨encode d (slice d p) k, ⟨hb.1, hb.2, ?_⟩, ?_⟩
  · intro j hj
    rw [lim_eq hp hg hb.1 hb.2 hj, hpos j hj]
    exact (hk j hj).2.2
  · intro r' h0 h1 hl
    rw [← encode_digit hp.1 h0 (by rw [hp.2]; exact h1)]
    apply encode_congr
    intro j hj
    have h2 := hl j hj
    rw [lim_eq hp hg h0 h1 hj] at h2
    exact cut_unique (hg j hj) (hp.1 j hj) h2 (hk j hj).2.2

/-- C05: local boxes lie in the global box. -/
theorem local_in_global (hp : ProcGrid np d p) (hg : ∀ j, j < d → g0 j ≤ g1 j) {r : Int} (h0 : 0 ≤ r) (h1 : r < np)
    {x : Nat → Int} (hx : InLocal d g0 g1 p r x) : InGlobal d g0 g1 x := by
  intro j hj
  have h2 := hx j hj
  have hb := pos_bounds hp h0 h1 hj
  rw [lim_eq hp hg h0 h1 hj] at h2
  have h3 := cut_mono (hg j hj) (hp.1 j hj) hb.1
  have h4 := cut_mono (hg j hj) (hp.1 j hj) (k := pos d p r j + 1) (l := p j) (by omega)
  rw [cut_zero (hp.1 j hj)] at h3
  rw [cut_last (hp.1 j hj)] at h4
  simp only at h2
  omega

/-- C05: along an axis, a larger process coordinate means a box further up. -/
theorem ordered (hp : ProcGrid np d p) (hg : ∀ j, j < d → g0 j ≤ g1 j) {r r' : Int} (h0 : 0 ≤ r) (h1 : r < np)
    (h0' : 0 ≤ r') (h1' : r' < np) {j : Nat} (hj : j < d) (h : pos d p r j < pos d p r' j) :
    (lim d g0 g1 p r j).2 ≤ (lim d g0 g1 p r' j).1 := by
  rw [lim_eq hp hg h0 h1 hj, lim_eq hp hg h0' h1' hj]
  exact cut_mono (hg j hj) (hp.1 j hj) (by omega)

/-- C05: along an axis, widths differ by at most one (and the wider boxes come first). -/
theorem balanced (hp : ProcGrid np d p) (hg : ∀ j, j < d → g0 j ≤ g1 j) {r r' : Int} (h0 : 0 ≤ r) (h1 : r < np)
    (h0' : 0 ≤ r') (h1' : r' < np) {j : Nat} (hj : j < d) (h : pos d p r j ≤ pos d p r' j) :
    let w := fun r => (lim d g0 g1 p r j).2 - (lim d g0 g1 p r j).1
    w r' ≤ w r ∧ w r ≤ w r' + 1 := by
  simp only [lim_eq hp hg h0 h1 hj, lim_eq hp hg h0' h1' hj]
  have h2 := cut_succ (g0 j) (g1 j) (p j) (pos d p r j)
  have h3 := cut_succ (g0 j) (g1 j) (p j) (pos d p r' j)
  split at h2 <;> split at h3 <;> omega

/-- C05: no local box is empty exactly when no axis is cut into more pieces than it has nodes. -/
theorem nonempty_iff (hp : ProcGrid np d p) (hg : ∀ j, j < d → g0 j ≤ g1 j) :
    (∀ r : Int, 0 ≤ r → r < np → ∀ j, j < d → (lim d g0 g1 p r j).1 < (lim d g0 g1 p r j).2) ↔
      ∀ j, j < d → p j ≤ g1 j - g0 j := by
  constructor
  · intro h j hj
    -- the last rank has position p - 1 on every axis
    have hbox : InBox d p (fun j => p j - 1) := fun j hj => by have := hp.1 j hj; constructor <;> beta_reduce <;> omega
    have hb := encode_bounds hbox
    rw [hp.2] at hb
    have h2 := h _ hb.1 hb.2 j hj
    rw [lim_eq hp hg hb.1 hb.2 hj] at h2
    have hpos : pos d p (encode d (slice d p) fun j => p j - 1) j = p j - 1 := digit_encode hbox hj
    rw [hpos] at h2
    have h3 := cut_succ (g0 j) (g1 j) (p j) (p j - 1)
    have h4 := Int.emod_lt_of_pos (g1 j - g0 j) (hp.1 j hj)
    have h5 := Int.mul_ediv_add_emod (g1 j - g0 j) (p j)
    have h6 := Int.emod_nonneg (g1 j - g0 j) (hp.1 j hj).ne'
    have h7 := hp.1 j hj
    simp only at h2
    have : 1 ≤ (g1 j - g0 j) / p j := by split at h3 <;> omega
    nlinarith
  · intro h r h0 h1 j hj
    rw [lim_eq hp hg h0 h1 hj]
    have h3 := cut_succ (g0 j) (g1 j) (p j) (pos d p r j)
    have : 1 ≤ (g1 j - g0 j) / p j := (Int.le_ediv_iff_mul_le (hp.1 j hj)).mpr (by have := h j hj; omega)
    simp only
    split at h3 <;> omega

/-! ## C07 -/

/-- C07: ranks and process coordinates correspond one to one. -/
theorem pos_bijective (hp : ProcGrid np d p) {k : Nat → Int} (hk : InBox d p k) :
    ∃ r : Int, (0 ≤ r ∧ r < np ∧ ∀ j, j < d → pos d p r j = k j) ∧
      ∀ r' : Int, 0 ≤ r' → r' < np → (∀ j, j < d → pos d p r' j = k j) → r' = r := by
  have hb := encode_bounds hk
  rw [hp.2] at hb
  refine ⟨encode d (slice d p) k, ⟨hb.1, hb.2, fun j hj => digit_encode hk hj⟩, ?_⟩
  intro r' h0 h1 h
  rw [← encode_digit hp.1 h0 (by rw [hp.2]; exact h1)]
  exact encode_congr h

theorem eq_of_pos_eq (hp : ProcGrid np d p) {r r' : Int} (h0 : 0 ≤ r) (h1 : r < np)
    (h0' : 0 ≤ r') (h1' : r' < np) (h : ∀ j, j < d → pos d p r j = pos d p r' j) : r = r' := by
  rw [← encode_digit hp.1 h0 (by rw [hp.2]; exact h1), ← encode_digit hp.1 h0' (by rw [hp.2]; exact h1')]
  exact encode_congr h

theorem neighbour_aux (hp : ProcGrid np d p) {k : Nat → Int} (hk : InBox d p k) :
    0 ≤ ∑ j ∈ range d, sp d p j * k j ∧ ∑ j ∈ range d, sp d p j * k j < np ∧
      ∀ j, j < d → pos d p (∑ j ∈ range d, sp d p j * k j) j = k j := by
  have e : ∑ j ∈ range d, sp d p j * k j = encode d (slice d p) k := by
    unfold encode sp; exact Finset.sum_congr rfl (fun _ _ => mul_comm _ _)
  have hb := encode_bounds hk
  rw [hp.2] at hb
  rw [e]
  exact ⟨hb.1, hb.2, fun j hj => digit_encode hk hj⟩

/-- Process coordinate one step down, with wrap-around. -/
def stepDown (p k : Int) : Int := if k = 0 then p - 1 else k - 1
/-- Process coordinate one step up, with wrap-around. -/
def stepUp (p k : Int) : Int := if k = p - 1 then 0 else k + 1

theorem tmod_down {p k : Int} (h0 : 0 ≤ k) (h1 : k < p) : (k - 1 + p).tmod p = stepDown p k := by
  unfold stepDown
  rw [Int.tmod_eq_emod_of_nonneg (by omega)]
  split
  · subst k; rw [Int.emod_eq_of_lt] <;> omega
  · rw [Int.add_emod_right, Int.emod_eq_of_lt] <;> omega

theorem tmod_up {p k : Int} (h0 : 0 ≤ k) (h1 : k < p) : (k + 1).tmod p = stepUp p k := by
  unfold stepUp
  rw [Int.tmod_eq_emod_of_nonneg (by omega)]
  split
  · have : k + 1 = p := by omega
    rw [this, Int.emod_self]
  · rw [Int.emod_eq_of_lt] <;> omega

/-- C07: the neighbour below is a rank whose process coordinate differs by one step down on that axis. -/
theorem below_spec (hp : ProcGrid np d p) {r : Int} (h0 : 0 ≤ r) (h1 : r < np) {i : Nat} (hi : i < d) :
    0 ≤ below d p r i ∧ below d p r i < np ∧ ∀ j, j < d →
      pos d p (below d p r i) j = if j = i then stepDown (p i) (pos d p r i) else pos d p r j := by
  have hb := pos_bounds hp h0 h1 hi
  have hk : InBox d p (fun j => if j = i then (pos d p r i - 1 + p i).tmod (p i) else pos d p r j) := by
    intro j hj
    beta_reduce
    split
    · subst j; rw [tmod_down hb.1 hb.2]; unfold stepDown; split <;> omega
    · exact pos_bounds hp h0 h1 hj
  have h := neighbour_aux hp hk
  refine ⟨h.1, h.2.1, ?_⟩
  intro j hj
  have h2 := h.2.2 j hj
  rw [tmod_down hb.1 hb.2] at h2
  rw [← h2]
  unfold below
  rw [tmod_down hb.1 hb.2]

/-- C07: the neighbour above is a rank whose process coordinate differs by one step up on that axis. -/
theorem above_spec (hp : ProcGrid np d p) {r : Int} (h0 : 0 ≤ r) (h1 : r < np) {i : Nat} (hi : i < d) :
    0 ≤ above d p r i ∧ above d p r i < np ∧ ∀ j, j < d →
      pos d p (above d p r i) j = if j = i then stepUp (p i) (pos d p r i) else pos d p r j := by
  have hb := pos_bounds hp h0 h1 hi
  have hk : InBox d p (fun j => if j = i then (pos d p r i + 1).tmod (p i) else pos d p r j) := by
    intro j hj
    beta_reduce
    split
    · subst j; rw [tmod_up hb.1 hb.2]; unfold stepUp; split <;> omega
    · exact pos_bounds hp h0 h1 hj
  have h := neighbour_aux hp hk
  refine ⟨h.1, h.2.1, ?_⟩
  intro j hj
  have h2 := h.2.2 j hj
  rw [tmod_up hb.1 hb.2] at h2
  rw [← h2]
  unfold above
  rw [tmod_up hb.1 hb.2]

/-- C07: the upper neighbour of the lower neighbour is the rank itself. -/
theorem above_below (hp : ProcGrid np d p) {r : Int} (h0 : 0 ≤ r) (h1 : r < np) {i : Nat} (hi : i < d) :
    above d p (below d p r i) i = r := by
  have h := below_spec hp h0 h1 hi
  have h' := above_spec hp h.1 h.2.1 hi
  apply eq_of_pos_eq hp h'.1 h'.2.1 h0 h1
  intro j hj
  rw [h'.2.2 j hj]
  have hb := pos_bounds hp h0 h1 hi
  split
  · subst j
    rw [h.2.2 i hi, if_pos rfl]
    unfold stepUp stepDown
    split <;> split <;> omega
  · rename_i hne
    rw [h.2.2 j hj, if_neg hne]

/-- C07: the lower neighbour of the upper neighbour is the rank itself. -/
theorem below_above (hp : ProcGrid np d p) {r : Int} (h0 : 0 ≤ r) (h1 : r < np) {i : Nat} (hi : i < d) :
    below d p (above d p r i) i = r := by
  have h := above_spec hp h0 h1 hi
  have h' := below_spec hp h.1 h.2.1 hi
  apply eq_of_pos_eq hp h'.1 h'.2.1 h0 h1
  intro j hj
  rw [h'.2.2 j hj]
  have hb := pos_bounds hp h0 h1 hi
  split
  · subst j
    rw [h.2.2 i hi, if_pos rfl]
    unfold stepUp stepDown
    split <;> split <;> omega
  · rename_i hne
    rw [h.2.2 j hj, if_neg hne]

/-- C07: the box of the neighbour above starts where mine ends, or, at the top of the axis, at the bottom of
the global box; on the other axes the boxes coincide. -/
theorem above_adjacent (hp : ProcGrid np d p) (hg : ∀ j, j < d → g0 j ≤ g1 j) {r : Int} (h0 : 0 ≤ r) (h1 : r < np)
    {i : Nat} (hi : i < d) :
    ((pos d p r i < p i - 1 ∧ (lim d g0 g1 p (above d p r i) i).1 = (lim d g0 g1 p r i).2) ∨
     (pos d p r i = p i - 1 ∧ (lim d g0 g1 p (above d p r i) i).1 = g0 i ∧ (lim d g0 g1 p r i).2 = g1 i)) ∧
    ∀ j, j < d → j ≠ i → lim d g0 g1 p (above d p r i) j = lim d g0 g1 p r j := by
  have h := above_spec hp h0 h1 hi
  have hb := pos_bounds hp h0 h1 hi
  constructor
  · rw [lim_eq hp hg h.1 h.2.1 hi, lim_eq hp hg h0 h1 hi, h.2.2 i hi, if_pos rfl]
    simp only
    by_cases hl : pos d p r i = p i - 1
    · right
      refine ⟨hl, ?_, ?_⟩
      · unfold stepUp; rw [if_pos hl, cut_zero (hp.1 i hi)]
      · rw [hl]
        have : p i - 1 + 1 = p i := by omega
        rw [this, cut_last (hp.1 i hi)]
    · left
      refine ⟨by omega, ?_⟩
      unfold stepUp; rw [if_neg hl]
  · intro j hj hne
    unfold lim
    rw [h.2.2 j hj, if_neg hne]

/-- C07: the box of the neighbour below ends where mine starts, or, at the bottom, at the top of the global box. -/
theorem below_adjacent (hp : ProcGrid np d p) (hg : ∀ j, j < d → g0 j ≤ g1 j) {r : Int} (h0 : 0 ≤ r) (h1 : r < np)
    {i : Nat} (hi : i < d) :
    ((0 < pos d p r i ∧ (lim d g0 g1 p (below d p r i) i).2 = (lim d g0 g1 p r i).1) ∨
     (pos d p r i = 0 ∧ (lim d g0 g1 p (below d p r i) i).2 = g1 i ∧ (lim d g0 g1 p r i).1 = g0 i)) ∧
    ∀ j, j < d → j ≠ i → lim d g0 g1 p (below d p r i) j = lim d g0 g1 p r j := by
  have h := below_spec hp h0 h1 hi
  have ha := above_adjacent (g0 := g0) (g1 := g1) hp hg h.1 h.2.1 hi
  rw [above_below hp h0 h1 hi] at ha
  have hb := pos_bounds hp h0 h1 hi
  have h3 := h.2.2 i hi
  rw [if_pos rfl] at h3
  unfold stepDown at h3
  constructor
  · rcases ha.1 with ⟨h4, h5⟩ | ⟨h4, h5, h6⟩
    · left
      split at h3
      · omega
      · exact ⟨by omega, h5.symm⟩
    · split at h3
      · right; exact ⟨by assumption, h6, h5⟩
      · omega
  · intro j hj hne
    exact (ha.2 j hj hne).symm

end Partition

/-! ## C08 -/

/-- C08: if no axis is cut into more pieces than it has nodes, the lower face is `parallel` exactly on ranks that
are not the first along that axis, and otherwise keeps the default `periodic`; likewise the upper face. -/
theorem parallel_iff_internal {np d : Nat} {g0 g1 : Nat → Int} {ghosts : Int} (hnp : 0 < np) (hd : 0 < d)
    (hfit : ∀ j, j < d → choose np d g0 g1 j ≤ g1 j - g0 j) (hg : ∀ j, j < d → g0 j ≤ g1 j) {r : Int} (h0 : 0 ≤ r)
    (h1 : r < np) {i : Nat} (hi : i < d) :
    let g := localShape d g0 g1 ghosts np r
    let p := choose np d g0 g1
    g.b0 i = (if pos d p r i = 0 then .periodic else .parallel) ∧
    g.b1 i = (if pos d p r i = p i - 1 then .periodic else .parallel) := by
  have hp := choose_procGrid (g0 := g0) (g1 := g1) hnp hd hg
  have hb := pos_bounds hp h0 h1 hi
  have hne := (nonempty_iff (g0 := g0) (g1 := g1) hp hg).mpr hfit r h0 h1 i hi
  have hl := lim_eq (g0 := g0) (g1 := g1) hp hg h0 h1 hi
  have hl' : axisLimits (g0 i) (g1 i) (choose np d g0 g1 i) (pos d (choose np d g0 g1) r i) = _ := hl
  simp only [localShape, rankShape, hl']
  rw [hl] at hne
  simp only at hne
  have hp0 := hp.1 i hi
  constructor
  · by_cases hz : pos d (choose np d g0 g1) r i = 0
    · rw [if_pos hz, if_neg]
      rw [hz, cut_zero hp0]; simp
    · rw [if_neg hz, if_pos]
      -- the first piece is not empty, so the cut is above g0
      have h2 := cut_mono (g0 := g0 i) (g1 := g1 i) (hg i hi) hp0 (k := 1) (l := pos d (choose np d g0 g1) r i) (by omega)
      have h3 := cut_succ (g0 i) (g1 i) (choose np d g0 g1 i) 0
      rw [cut_zero hp0] at h3
      have h4 : 1 ≤ (g1 i - g0 i) / choose np d g0 g1 i :=
        (Int.le_ediv_iff_mul_le hp0).mpr (by have := hfit i hi; omega)
      simp only [zero_add] at h3
      split at h3 <;> omega
  · by_cases hz : pos d (choose np d g0 g1) r i = choose np d g0 g1 i - 1
    · rw [if_pos hz, if_neg]
      rw [hz]
      have : choose np d g0 g1 i - 1 + 1 = choose np d g0 g1 i := by omega
      rw [this, cut_last hp0]; simp
    · rw [if_neg hz, if_pos]
      have h2 := cut_mono (g0 := g0 i) (g1 := g1 i) (hg i hi) hp0
        (k := pos d (choose np d g0 g1) r i + 1) (l := choose np d g0 g1 i - 1) (by omega)
      have h3 := cut_succ (g0 i) (g1 i) (choose np d g0 g1 i) (choose np d g0 g1 i - 1)
      have : choose np d g0 g1 i - 1 + 1 = choose np d g0 g1 i := by omega
      rw [this, cut_last hp0] at h3
      have h4 : 1 ≤ (g1 i - g0 i) / choose np d g0 g1 i :=
        (Int.le_ediv_iff_mul_le hp0).mpr (by have := hfit i hi; omega)
      split at h3 <;> omega

/-- C08: the hypothesis on the number of pieces is needed. Two processes on one node: the first rank's upper face is
internal (its process coordinate is not the last) and yet it is `periodic`. -/
theorem parallel_fails_when_overdecomposed :
    let g := localShape 1 (fun _ => 0) (fun _ => 1) 1 2 0
    pos 1 (choose 2 1 (fun _ => 0) (fun _ => 1)) 0 0 ≠ choose 2 1 (fun _ => 0) (fun _ => 1) 0 - 1 ∧
      g.b1 0 = .periodic := by decide +kernel

/-- C04/C05 together: every rank of a fitting decomposition has a well-formed shape, so all storage theorems of
`IndexProps` apply to it. -/
theorem localShape_wf {np d : Nat} {g0 g1 : Nat → Int} {ghosts : Int} (hnp : 0 < np) (hd : 0 < d)
    (hg : ∀ j, j < d → g0 j ≤ g1 j) (hgh : 0 ≤ ghosts)
    (hfit : ∀ j, j < d → choose np d g0 g1 j ≤ g1 j - g0 j) {r : Int} (h0 : 0 ≤ r) (h1 : r < np) :
    (localShape d g0 g1 ghosts np r).Wf :=
  ⟨hd, (nonempty_iff (choose_procGrid hnp hd hg) hg).mpr hfit r h0 h1, hgh⟩

/-- 4 processes on a 5 × 4 box: hypotheses hold, the process grid is 4 × 1. -/
example : (0 < 4 ∧ 0 < 2) ∧ (∀ j, j < 2 → (0 : Int) ≤ if j = 0 then 5 else 4) ∧
    (∀ j, j < 2 → choose 4 2 (fun _ => 0) (fun j => if j = 0 then 5 else 4) j ≤ (if j = 0 then 5 else 4) - 0) := by
  refine ⟨⟨by decide, by decide⟩, ?_, ?_⟩
  · intro j _; split <;> decide
  · intro j hj
    have : j = 0 ∨ j = 1 := by omega
    rcases this with rfl | rfl <;> decide +kernel

end MMSP.Decomp
