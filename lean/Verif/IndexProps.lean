import Verif.Index
import Verif.BoundaryProps
/-!
# Properties C03, C04: node numbers, coordinates, storage offsets
-/

namespace MMSP

open Finset

namespace Shape

/-! ## Specification -/

/-- The coordinate is a node of the local box. -/
def IsNode (g : Shape) (x : Nat → Int) : Prop := ∀ j, j < g.dim → g.x0 j ≤ x j ∧ x j < g.x1 j

/-- The coordinate is in the local box including ghosts. -/
def IsCell (g : Shape) (x : Nat → Int) : Prop :=
  ∀ j, j < g.dim → g.x0 j - g.ghosts ≤ x j ∧ x j < g.x1 j + g.ghosts

/-- Non-empty sides, non-negative ghost width, at least one axis (all `grid` instantiations have `dim ≥ 1`). -/
structure Wf (g : Shape) : Prop where
  dim_pos : 0 < g.dim
  side : ∀ j, j < g.dim → g.x0 j < g.x1 j
  ghosts : 0 ≤ g.ghosts

/-- Two coordinate tuples agree (on the axes that exist). -/
def SamePoint (g : Shape) (x y : Nat → Int) : Prop := ∀ j, j < g.dim → x j = y j

variable {g : Shape}

theorem xx_radix_pos (hg : g.Wf) : ∀ j, j < g.dim → 0 < g.x1 j - g.x0 j := by
  intro j hj; have := hg.side j hj; omega

theorem sx_radix_pos (hg : g.Wf) : ∀ j, j < g.dim → 0 < g.s1 j - g.s0 j := by
  intro j hj; have := hg.side j hj; have := hg.ghosts; simp only [s1, s0]; omega

theorem nodes_eq (hg : g.Wf) : g.nodes = ∏ k ∈ range g.dim, (g.x1 k - g.x0 k) := by
  rw [← tailProd_zero, tailProd_step hg.dim_pos]; unfold nodes xx; ring

theorem cells_eq (hg : g.Wf) : g.cells = ∏ k ∈ range g.dim, (g.s1 k - g.s0 k) := by
  rw [← tailProd_zero, tailProd_step hg.dim_pos]; unfold cells sx; ring

theorem inBox_of_isCell {x : Nat → Int} (hx : g.IsCell x) :
    InBox g.dim (fun j => g.s1 j - g.s0 j) (fun j => x j - g.s0 j) := by
  intro j hj; have := hx j hj; simp only [s1, s0]; omega

theorem inBox_of_isNode {x : Nat → Int} (hx : g.IsNode x) :
    InBox g.dim (fun j => g.x1 j - g.x0 j) (fun j => x j - g.x0 j) := by
  intro j hj; have := hx j hj; show 0 ≤ x j - g.x0 j ∧ x j - g.x0 j < g.x1 j - g.x0 j; omega

/-- Offset of a coordinate when no boundary condition is applied. -/
def rawOffset (g : Shape) (x : Nat → Int) : Int := encode g.dim g.sx fun j => x j - g.s0 j

theorem atVec_eq_raw (bd : Build) {x y : Nat → Int}
    (h : ∀ j, j < g.dim → checkBoundary bd (x j) (g.x0 j) (g.x1 j) (g.b0 j) (g.b1 j) = y j) :
    g.atVec bd x = g.rawOffset y := by
  unfold atVec rawOffset encode
  apply Finset.sum_congr rfl
  intro j hj
  rw [h j (Finset.mem_range.mp hj)]

theorem rawOffset_bounds (hg : g.Wf) {x : Nat → Int} (hx : g.IsCell x) :
    0 ≤ g.rawOffset x ∧ g.rawOffset x < g.cells := by
  rw [cells_eq hg]; exact encode_bounds (inBox_of_isCell hx)

theorem rawOffset_inj {x y : Nat → Int} (hx : g.IsCell x) (hy : g.IsCell y)
    (h : g.rawOffset x = g.rawOffset y) : g.SamePoint x y := by
  intro j hj
  have h1 := digit_encode (inBox_of_isCell hx) hj
  have h2 := digit_encode (inBox_of_isCell hy) hj
  unfold rawOffset sx at h
  rw [h] at h1
  have h3 : x j - g.s0 j = y j - g.s0 j := h1.symm.trans h2
  omega

theorem targetSub_eq (bd : Build) (xs : List Int) (p : Int) (i : Nat) :
    g.targetSub bd p i xs = p + ∑ k ∈ range xs.length,
      (checkBoundary bd (xs.getD k 0) (g.x0 (i + k)) (g.x1 (i + k)) (g.b0 (i + k)) (g.b1 (i + k)) - g.s0 (i + k))
        * g.sx (i + k) := by
  induction xs generalizing p i with
  | nil => simp [targetSub]
  | cons x xs ih =>
    rw [targetSub, ih, List.length_cons, Finset.sum_range_succ']
    simp only [List.getD_cons_zero, List.getD_cons_succ, Nat.add_zero]
    have : ∀ k, i + 1 + k = i + (k + 1) := by intro k; omega
    simp only [this]; ring

/-! ## C03 -/

/-- C03: every node number names a node of the box. -/
theorem position_isNode (hg : g.Wf) {i : Int} (h0 : 0 ≤ i) (h1 : i < g.nodes) : g.IsNode (g.position i) := by
  intro j hj
  rw [nodes_eq hg] at h1
  have := digit_inBox (xx_radix_pos hg) h0 h1 j hj
  unfold position xx
  beta_reduce at this
  omega

/-- C03: every node of the box has exactly one node number below `nodes`. -/
theorem position_surj (hg : g.Wf) {x : Nat → Int} (hx : g.IsNode x) :
    ∃ i, (0 ≤ i ∧ i < g.nodes ∧ g.SamePoint (g.position i) x) ∧
      ∀ i', 0 ≤ i' → i' < g.nodes → g.SamePoint (g.position i') x → i' = i := by
  refine ⟨encode g.dim g.xx fun j => x j - g.x0 j, ⟨?_, ?_, ?_⟩, ?_⟩
  · exact (encode_bounds (inBox_of_isNode hx)).1
  · rw [nodes_eq hg]; exact (encode_bounds (inBox_of_isNode hx)).2
  · intro j hj
    unfold position
    have := digit_encode (inBox_of_isNode hx) hj
    unfold xx; omega
  · intro i' h0 h1 hs
    rw [nodes_eq hg] at h1
    have := encode_digit (xx_radix_pos hg) h0 h1
    rw [← this]
    apply encode_congr
    intro j hj
    have := hs j hj
    unfold position xx at this
    omega

/-- C03: `position` distinguishes node numbers. -/
theorem position_inj (hg : g.Wf) {i i' : Int} (h0 : 0 ≤ i) (h1 : i < g.nodes) (h0' : 0 ≤ i') (h1' : i' < g.nodes)
    (h : g.SamePoint (g.position i) (g.position i')) : i = i' := by
  obtain ⟨k, _, hk⟩ := position_surj hg (position_isNode hg h0' h1')
  rw [hk i h0 h1 h, hk i' h0' h1' (fun _ _ => rfl)]

/-- C03: node numbers enumerate the nodes in row-major (lexicographic) order. -/
theorem position_rowMajor (hg : g.Wf) {i i' : Int} (h0 : 0 ≤ i) (h1 : i < g.nodes) (h0' : 0 ≤ i') (h1' : i' < g.nodes)
    (h : LexLt g.dim (g.position i) (g.position i')) : i < i' := by
  obtain ⟨j, hj, he, hl⟩ := h
  have e1 := encode_digit (xx_radix_pos hg) h0 (by rwa [nodes_eq hg] at h1)
  have e2 := encode_digit (xx_radix_pos hg) h0' (by rwa [nodes_eq hg] at h1')
  rw [← e1, ← e2]
  apply encode_lt_of_lex (digit_inBox (xx_radix_pos hg) h0 (by rwa [nodes_eq hg] at h1))
    (digit_inBox (xx_radix_pos hg) h0' (by rwa [nodes_eq hg] at h1'))
  refine ⟨j, hj, ?_, ?_⟩
  · intro k hk; have := he k hk; unfold position xx at this; omega
  · unfold position xx at hl; omega

/-- C03: `GRID[x0][x1]...` and `GRID(x)` reach the same cell, for every coordinate whatsoever. -/
theorem atSub_eq_atVec (bd : Build) (xs : List Int) (hl : xs.length = g.dim) :
    g.atSub bd xs = g.atVec bd (fun j => xs.getD j 0) := by
  unfold atSub atVec
  rw [targetSub_eq, hl]
  simp

/-- C03: `GRID(i)` and `GRID(position(i))` reach the same cell; in a serial build the grid has no ghosts
(constructors, `include/MMSP.grid.cpp` 34, 61, 84, 114). -/
theorem atNode_eq_atVec (hg : g.Wf) (bd : Build) (hser : bd = .serial → g.ghosts = 0) {i : Int}
    (h0 : 0 ≤ i) (h1 : i < g.nodes) : g.atNode bd i = g.atVec bd (g.position i) := by
  have hn := position_isNode hg h0 h1
  rw [atVec_eq_raw bd (y := g.position i) (fun j hj => checkBoundary_inside _ _ _ _ _ _ (hn j hj))]
  cases bd with
  | mpi => rfl
  | serial =>
    have hz := hser rfl
    have hsx : g.sx = g.xx := by
      unfold sx xx; apply slice_congr; intro j _; simp only [s0, s1, hz]; omega
    unfold rawOffset
    rw [hsx]
    have e1 := encode_digit (xx_radix_pos hg) h0 (by rwa [nodes_eq hg] at h1)
    show i = _
    conv => lhs; rw [← e1]
    apply encode_congr
    intro j _
    unfold position s0 xx
    rw [hz]; omega

/-! ## C04 -/

/-- C04: an access at a coordinate of the box with ghosts that no boundary condition moves is inside the
array of `cells` elements. -/
theorem atVec_in_bounds (hg : g.Wf) (bd : Build) {x y : Nat → Int}
    (h : ∀ j, j < g.dim → checkBoundary bd (x j) (g.x0 j) (g.x1 j) (g.b0 j) (g.b1 j) = y j) (hy : g.IsCell y) :
    0 ≤ g.atVec bd x ∧ g.atVec bd x < g.cells := by
  rw [atVec_eq_raw bd h]; exact rawOffset_bounds hg hy

/-- C04: two accesses reach the same cell only if the (mapped) coordinates are equal. -/
theorem atVec_inj (bd : Build) {x x' y y' : Nat → Int}
    (h : ∀ j, j < g.dim → checkBoundary bd (x j) (g.x0 j) (g.x1 j) (g.b0 j) (g.b1 j) = y j)
    (h' : ∀ j, j < g.dim → checkBoundary bd (x' j) (g.x0 j) (g.x1 j) (g.b0 j) (g.b1 j) = y' j)
    (hy : g.IsCell y) (hy' : g.IsCell y') (he : g.atVec bd x = g.atVec bd x') : g.SamePoint y y' := by
  rw [atVec_eq_raw bd h, atVec_eq_raw bd h'] at he
  exact rawOffset_inj hy hy' he

/-- C04: no waste, every array element is the cell of some coordinate of the box with ghosts. -/
theorem rawOffset_surj (hg : g.Wf) {n : Int} (h0 : 0 ≤ n) (h1 : n < g.cells) :
    ∃ x, g.IsCell x ∧ g.rawOffset x = n := by
  rw [cells_eq hg] at h1
  refine ⟨fun j => digit g.sx n j + g.s0 j, ?_, ?_⟩
  · intro j hj
    have := digit_inBox (sx_radix_pos hg) h0 h1 j hj
    show g.x0 j - g.ghosts ≤ digit g.sx n j + g.s0 j ∧ digit g.sx n j + g.s0 j < g.x1 j + g.ghosts
    unfold sx at *
    simp only [s0, s1] at *
    omega
  · have := encode_digit (sx_radix_pos hg) h0 h1
    unfold rawOffset
    conv => rhs; rw [← this]
    apply encode_congr
    intro j _
    simp only [sx, add_sub_cancel_right]

/-- C04, user level: a serial access with an arbitrary coordinate stays inside the array if on each axis the
overshoot is within the reach of the boundary condition (C02) and no side is `parallel` (serial grids have none). -/
theorem serial_access_in_bounds (hg : g.Wf) {x : Nat → Int}
    (hpar : ∀ j, j < g.dim → g.b0 j ≠ .parallel ∧ g.b1 j ≠ .parallel)
    (hreach : ∀ j, j < g.dim → ¬ OnAxis (g.x0 j) (g.x1 j) (x j) →
      Reach (sideOf (x j) (g.x0 j) (g.b0 j) (g.b1 j)) (g.x1 j - g.x0 j) (outBy (x j) (g.x0 j) (g.x1 j))) :
    0 ≤ g.atVec .serial x ∧ g.atVec .serial x < g.cells := by
  apply atVec_in_bounds hg .serial (y := fun j => checkBoundary .serial (x j) (g.x0 j) (g.x1 j) (g.b0 j) (g.b1 j))
    (fun _ _ => rfl)
  intro j hj
  have hG := hg.ghosts
  have hon : OnAxis (g.x0 j) (g.x1 j) (checkBoundary .serial (x j) (g.x0 j) (g.x1 j) (g.b0 j) (g.b1 j)) := by
    by_cases h : OnAxis (g.x0 j) (g.x1 j) (x j)
    · rw [checkBoundary_inside _ _ _ _ _ _ h]; exact h
    · rw [checkBoundary_onAxis_iff _ _ _ _ _ (hg.side j hj) h]
      refine ⟨?_, hreach j hj h⟩
      unfold sideOf; split
      · exact (hpar j hj).1
      · exact (hpar j hj).2
  unfold OnAxis at hon
  constructor <;> beta_reduce <;> omega

/-- C04, user level: an MPI access at any cell of the box with ghosts is inside the array, whatever the boundary
conditions, provided mirrored sides are at least `ghosts + 1` wide. -/
theorem mpi_access_in_bounds (hg : g.Wf) {x : Nat → Int} (hx : g.IsCell x)
    (hm : ∀ j, j < g.dim → g.b0 j = .mirror ∨ g.b1 j = .mirror → g.ghosts < g.x1 j - g.x0 j) :
    0 ≤ g.atVec .mpi x ∧ g.atVec .mpi x < g.cells := by
  apply atVec_in_bounds hg .mpi (y := fun j => checkBoundary .mpi (x j) (g.x0 j) (g.x1 j) (g.b0 j) (g.b1 j))
    (fun _ _ => rfl)
  intro j hj
  have hG := hg.ghosts
  have h1 := hx j hj
  have h2 := hg.side j hj
  have h3 := hm j hj
  show g.x0 j - g.ghosts ≤ checkBoundary _ _ _ _ _ _ ∧ checkBoundary _ _ _ _ _ _ < g.x1 j + g.ghosts
  unfold checkBoundary
  generalize g.b0 j = c0 at *
  generalize g.b1 j = c1 at *
  split
  · cases c0 <;> simp at * <;> omega
  · split
    · cases c1 <;> simp at * <;> omega
    · omega

/-! ### The hypotheses are satisfiable -/

/-- A 3 × 4 box with one ghost layer, as an MPI rank would have it. -/
def sample : Shape :=
  { dim := 2, x0 := fun j => if j = 0 then -1 else 5, x1 := fun j => if j = 0 then 2 else 9,
    b0 := fun _ => .parallel, b1 := fun _ => .mirror, ghosts := 1 }

theorem sample_wf : sample.Wf :=
  ⟨by decide, by intro j hj; simp only [sample]; split <;> decide, by decide⟩

example : sample.Wf ∧ (0 : Int) ≤ 7 ∧ 7 < sample.nodes ∧ sample.nodes = 12 ∧ sample.cells = 30 :=
  ⟨sample_wf, by decide, by decide, by decide, by decide⟩

example : sample.IsCell (fun j => if j = 0 then -2 else 9) := by
  intro j hj; simp only [sample]; split <;> decide

example : ∀ j, j < sample.dim → sample.b0 j = .mirror ∨ sample.b1 j = .mirror →
    sample.ghosts < sample.x1 j - sample.x0 j := by
  intro j _ _; simp only [sample]; split <;> decide

example : (sample.atNode .mpi 7, sample.atVec .mpi (sample.position 7)) = (16, 16) := by decide

/-- A serial 3 × 4 periodic/Neumann grid; the coordinate (-3, 40) is within reach. -/
def sampleSerial : Shape :=
  { dim := 2, x0 := fun _ => 0, x1 := fun j => if j = 0 then 3 else 4,
    b0 := fun j => if j = 0 then .periodic else .neumann, b1 := fun j => if j = 0 then .periodic else .neumann,
    ghosts := 0 }

example : (sampleSerial.atVec .serial (fun j => if j = 0 then -3 else 40)) = 3 := by decide

example : ∀ j, j < sampleSerial.dim → sampleSerial.b0 j ≠ .parallel ∧ sampleSerial.b1 j ≠ .parallel := by
  intro j _; simp only [sampleSerial]; split <;> decide

example : ∀ j, j < sampleSerial.dim →
    Reach (sideOf ((fun j => if j = 0 then (-3 : Int) else 40) j) (sampleSerial.x0 j) (sampleSerial.b0 j)
      (sampleSerial.b1 j)) (sampleSerial.x1 j - sampleSerial.x0 j)
      (outBy ((fun j => if j = 0 then (-3 : Int) else 40) j) (sampleSerial.x0 j) (sampleSerial.x1 j)) := by
  intro j hj
  have : j = 0 ∨ j = 1 := by simp only [sampleSerial] at hj; omega
  rcases this with rfl | rfl <;> simp [sampleSerial, sideOf, outBy, Reach]

end Shape
end MMSP
