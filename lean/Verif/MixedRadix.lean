import Mathlib.Algebra.BigOperators.Intervals
import Mathlib.Algebra.Order.BigOperators.Ring.Finset
import Mathlib.Tactic.Linarith
import Mathlib.Tactic.Ring
/-!
# Mixed-radix helper lemmas

The same digit loop occurs five times in `include/MMSP.grid.cpp` (factor combinations 201-209, process position
246-250, `operator()(int)` 388-393, `position` 404-409).
-/

namespace MMSP

open Finset

/-- Value of the loop variable `total` (or `i`) before iteration `j` of
`for j: n = total / w[j]; total -= n * w[j]` (`include/MMSP.grid.cpp` 202-209, 246-250, 389-393, 405-409).
C++ `int` division truncates, hence `Int.tdiv`. -/
def digitRest (w : Nat → Int) (n : Int) : Nat → Int
  | 0 => n
  | j + 1 => digitRest w n j - (digitRest w n j).tdiv (w j) * w j

/-- The quotient computed in iteration `j` of the same loop. -/
def digit (w : Nat → Int) (n : Int) (j : Nat) : Int := (digitRest w n j).tdiv (w j)

/-- The slice-size loop `w[i] = 1; for j = i+1 .. dim-1: w[i] *= r[j]`
(`include/MMSP.grid.cpp` 204-206, 237-241, 306-313). -/
def slice (d : Nat) (r : Nat → Int) (i : Nat) : Int := ∏ j ∈ Ico (i + 1) d, r j

/-- The accumulation `i += x[j] * w[j]`. -/
def encode (d : Nat) (w x : Nat → Int) : Int := ∑ j ∈ range d, x j * w j

/-- All digits are within their radix. -/
def InBox (d : Nat) (r x : Nat → Int) : Prop := ∀ j, j < d → 0 ≤ x j ∧ x j < r j

theorem slice_pos {d : Nat} {r : Nat → Int} (hr : ∀ j, j < d → 0 < r j) (i : Nat) : 0 < slice d r i := by
  unfold slice
  apply Finset.prod_pos
  intro j hj
  exact hr j (Finset.mem_Ico.mp hj).2

theorem slice_step {d : Nat} {r : Nat → Int} {i : Nat} (hi : i + 1 < d) :
    slice d r i = r (i + 1) * slice d r (i + 1) := by
  unfold slice
  rw [Finset.prod_eq_prod_Ico_succ_bot hi]

theorem slice_last {d : Nat} {r : Nat → Int} {i : Nat} (hi : d ≤ i + 1) : slice d r i = 1 := by
  unfold slice
  rw [Finset.Ico_eq_empty (by omega)]; rfl

/-- Number of values of the digits from `j` on. -/
def tailProd (d : Nat) (r : Nat → Int) (j : Nat) : Int := ∏ k ∈ Ico j d, r k

theorem tailProd_step {d : Nat} {r : Nat → Int} {j : Nat} (hj : j < d) :
    tailProd d r j = r j * slice d r j := by
  unfold tailProd slice
  rw [Finset.prod_eq_prod_Ico_succ_bot hj]

theorem tailProd_succ (d : Nat) (r : Nat → Int) (j : Nat) : tailProd d r (j + 1) = slice d r j := rfl

theorem tailProd_end (d : Nat) (r : Nat → Int) : tailProd d r d = 1 := by simp [tailProd]

theorem tailProd_zero (d : Nat) (r : Nat → Int) : tailProd d r 0 = ∏ k ∈ range d, r k := by
  unfold tailProd; rw [Finset.range_eq_Ico]

/-- Value of the digits from `j` on. -/
def tailSum (d : Nat) (w x : Nat → Int) (j : Nat) : Int := ∑ k ∈ Ico j d, x k * w k

theorem tailSum_step {d : Nat} {w x : Nat → Int} {j : Nat} (hj : j < d) :
    tailSum d w x j = x j * w j + tailSum d w x (j + 1) := by
  unfold tailSum
  rw [Finset.sum_eq_sum_Ico_succ_bot hj]

theorem tailSum_end (d : Nat) (w x : Nat → Int) : tailSum d w x d = 0 := by simp [tailSum]

theorem tailSum_zero (d : Nat) (w x : Nat → Int) : tailSum d w x 0 = encode d w x := by
  unfold tailSum encode; rw [Finset.range_eq_Ico]

theorem tailSum_bounds {d : Nat} {r x : Nat → Int} (hx : InBox d r x) {j : Nat} (hj : j ≤ d) :
    0 ≤ tailSum d (slice d r) x j ∧ tailSum d (slice d r) x j < tailProd d r j := by
  induction hj using Nat.decreasingInduction with
  | self => simp [tailSum_end, tailProd_end]
  | of_succ k hk ih =>
    rw [tailSum_step hk, tailProd_step hk]
    rw [tailProd_succ] at ih
    have h := hx k hk
    have hs : 0 < slice d r k := lt_of_le_of_lt ih.1 ih.2
    constructor
    · have := mul_nonneg h.1 hs.le; linarith [ih.1]
    · have : x k + 1 ≤ r k := by omega
      have := mul_le_mul_of_nonneg_right this hs.le
      linarith [ih.2]

theorem encode_bounds {d : Nat} {r x : Nat → Int} (hx : InBox d r x) :
    0 ≤ encode d (slice d r) x ∧ encode d (slice d r) x < ∏ k ∈ range d, r k := by
  have := tailSum_bounds hx (Nat.zero_le d)
  rwa [tailSum_zero, tailProd_zero] at this

theorem digitRest_encode {d : Nat} {r x : Nat → Int} (hx : InBox d r x) {j : Nat} (hj : j ≤ d) :
    digitRest (slice d r) (encode d (slice d r) x) j = tailSum d (slice d r) x j := by
  induction j with
  | zero => simp [digitRest, tailSum_zero]
  | succ j ih =>
    have hj' : j < d := hj
    have hb := tailSum_bounds hx (Nat.succ_le_of_lt hj')
    rw [Nat.succ_eq_add_one, tailProd_succ] at hb
    have hs : 0 < slice d r j := lt_of_le_of_lt hb.1 hb.2
    have h := hx j hj'
    simp only [digitRest]
    rw [ih hj'.le, tailSum_step hj']
    have hdiv : (x j * slice d r j + tailSum d (slice d r) x (j + 1)).tdiv (slice d r j) = x j := by
      rw [Int.tdiv_eq_ediv_of_nonneg (by have := mul_nonneg h.1 hs.le; linarith [hb.1])]
      rw [add_comm, Int.add_mul_ediv_right _ _ hs.ne', Int.ediv_eq_zero_of_lt hb.1 hb.2]; ring
    rw [hdiv]; ring

theorem digit_encode {d : Nat} {r x : Nat → Int} (hx : InBox d r x) {j : Nat} (hj : j < d) :
    digit (slice d r) (encode d (slice d r) x) j = x j := by
  unfold digit
  rw [digitRest_encode hx hj.le, tailSum_step hj]
  have hb := tailSum_bounds hx (Nat.succ_le_of_lt hj)
  rw [Nat.succ_eq_add_one, tailProd_succ] at hb
  have hs : 0 < slice d r j := lt_of_le_of_lt hb.1 hb.2
  have h := hx j hj
  rw [Int.tdiv_eq_ediv_of_nonneg (by have := mul_nonneg h.1 hs.le; linarith [hb.1])]
  rw [add_comm, Int.add_mul_ediv_right _ _ hs.ne', Int.ediv_eq_zero_of_lt hb.1 hb.2]; ring

theorem digitRest_bounds {d : Nat} {r : Nat → Int} (hr : ∀ j, j < d → 0 < r j) {n : Int}
    (h0 : 0 ≤ n) (h1 : n < ∏ k ∈ range d, r k) {j : Nat} (hj : j ≤ d) :
    0 ≤ digitRest (slice d r) n j ∧ digitRest (slice d r) n j < tailProd d r j := by
  induction j with
  | zero => rw [tailProd_zero]; exact ⟨h0, h1⟩
  | succ j ih =>
    have hj' : j < d := hj
    have ⟨a, b⟩ := ih hj'.le
    have hs := slice_pos hr j
    simp only [digitRest]
    rw [tailProd_succ, Int.tdiv_eq_ediv_of_nonneg a]
    have h2 := Int.emod_nonneg (digitRest (slice d r) n j) hs.ne'
    have h3 := Int.emod_lt_of_pos (digitRest (slice d r) n j) hs
    have h4 := Int.mul_ediv_add_emod (digitRest (slice d r) n j) (slice d r j)
    constructor <;> linarith

theorem digit_inBox {d : Nat} {r : Nat → Int} (hr : ∀ j, j < d → 0 < r j) {n : Int}
    (h0 : 0 ≤ n) (h1 : n < ∏ k ∈ range d, r k) : InBox d r (digit (slice d r) n) := by
  intro j hj
  have ⟨a, b⟩ := digitRest_bounds hr h0 h1 hj.le
  have hs := slice_pos hr j
  unfold digit
  rw [Int.tdiv_eq_ediv_of_nonneg a]
  rw [tailProd_step hj] at b
  exact ⟨Int.ediv_nonneg a hs.le, Int.ediv_lt_of_lt_mul hs b⟩

theorem digitRest_eq (w : Nat → Int) (n : Int) (j : Nat) :
    digitRest w n j = n - ∑ k ∈ range j, digit w n k * w k := by
  induction j with
  | zero => simp [digitRest]
  | succ j ih =>
    rw [Finset.sum_range_succ]
    simp only [digitRest]
    change digitRest w n j - digit w n j * w j = _
    rw [ih]; ring

theorem encode_digit {d : Nat} {r : Nat → Int} (hr : ∀ j, j < d → 0 < r j) {n : Int}
    (h0 : 0 ≤ n) (h1 : n < ∏ k ∈ range d, r k) : encode d (slice d r) (digit (slice d r) n) = n := by
  have ⟨a, b⟩ := digitRest_bounds hr h0 h1 le_rfl
  rw [tailProd_end] at b
  have := digitRest_eq (slice d r) n d
  unfold encode
  omega

theorem encode_congr {d : Nat} {w x y : Nat → Int} (h : ∀ j, j < d → x j = y j) :
    encode d w x = encode d w y := by
  unfold encode
  apply Finset.sum_congr rfl
  intro j hj
  rw [h j (Finset.mem_range.mp hj)]

theorem slice_congr {d : Nat} {r s : Nat → Int} (h : ∀ j, j < d → r j = s j) : slice d r = slice d s := by
  funext i
  unfold slice
  apply Finset.prod_congr rfl
  intro j hj
  exact h j (Finset.mem_Ico.mp hj).2

/-- Lexicographic order of the first `d` entries. -/
def LexLt (d : Nat) (x y : Nat → Int) : Prop := ∃ j, j < d ∧ (∀ k, k < j → x k = y k) ∧ x j < y j

theorem encode_lt_of_lex {d : Nat} {r x y : Nat → Int} (hx : InBox d r x) (hy : InBox d r y)
    (h : LexLt d x y) : encode d (slice d r) x < encode d (slice d r) y := by
  obtain ⟨j, hj, heq, hlt⟩ := h
  have split : ∀ z : Nat → Int, encode d (slice d r) z =
      (∑ k ∈ range j, z k * slice d r k) + z j * slice d r j + tailSum d (slice d r) z (j + 1) := by
    intro z
    have h1 : encode d (slice d r) z = ∑ k ∈ range j, z k * slice d r k + tailSum d (slice d r) z j := by
      unfold encode tailSum
      rw [Finset.sum_range_add_sum_Ico _ hj.le]
    rw [h1, tailSum_step hj]; ring
  rw [split x, split y]
  have hs : ∑ k ∈ range j, x k * slice d r k = ∑ k ∈ range j, y k * slice d r k := by
    apply Finset.sum_congr rfl
    intro k hk
    rw [heq k (Finset.mem_range.mp hk)]
  have bx := tailSum_bounds hx (Nat.succ_le_of_lt hj)
  have by' := tailSum_bounds hy (Nat.succ_le_of_lt hj)
  rw [Nat.succ_eq_add_one, tailProd_succ] at bx by'
  have hw : 0 < slice d r j := lt_of_le_of_lt bx.1 bx.2
  have : x j + 1 ≤ y j := hlt
  have := mul_le_mul_of_nonneg_right this hw.le
  rw [hs]; nlinarith [bx.2, by'.1]

end MMSP
