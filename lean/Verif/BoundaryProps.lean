import Verif.Boundary
/-!
# Properties C01, C02: what a boundary condition does to a coordinate
-/

namespace MMSP

/-! ## Specification (independent of `checkBoundary`) -/

/-- `y` is a node of the axis `[x0,x1)`. -/
def OnAxis (x0 x1 y : Int) : Prop := x0 ≤ y ∧ y < x1

/-- `y` is a node of the axis at least as close to `x` as every other node. -/
def Nearest (x0 x1 x y : Int) : Prop :=
  OnAxis x0 x1 y ∧ ∀ z, OnAxis x0 x1 z → (x - y).natAbs ≤ (x - z).natAbs

/-- `y` is the node of the axis that is congruent to `x` modulo the number of nodes. -/
def PeriodicImage (x0 x1 x y : Int) : Prop := OnAxis x0 x1 y ∧ (x1 - x0) ∣ (x - y)

/-- `y` is the node at the same distance from the edge node `e` as `x`, on the other side. -/
def MirrorImage (x0 x1 e x y : Int) : Prop := OnAxis x0 x1 y ∧ e - x = y - e

/-- The user's contract for a coordinate `x` outside an axis, on a side with condition `b` and edge node `e`. -/
def Contract (b : BC) (x0 x1 e x y : Int) : Prop :=
  match b with
  | .neumann => Nearest x0 x1 x y
  | .dirichlet => Nearest x0 x1 x y
  | .periodic => PeriodicImage x0 x1 x y
  | .mirror => MirrorImage x0 x1 e x y
  | .parallel => y = x

/-- How far out a single wrap reaches: `d ≥ 1` is the distance from the edge node, `L` the number of nodes. -/
def Reach (b : BC) (L d : Int) : Prop :=
  match b with
  | .neumann => True
  | .dirichlet => True
  | .periodic => d ≤ L
  | .mirror => d < L
  | .parallel => True

/-! ## C01 -/

/-- C01: a coordinate inside the axis is never moved. -/
theorem checkBoundary_inside (bd : Build) (x x0 x1 : Int) (b0 b1 : BC) (h : OnAxis x0 x1 x) :
    checkBoundary bd x x0 x1 b0 b1 = x := by
  unfold OnAxis at h; unfold checkBoundary; rw [if_neg (by omega), if_neg (by omega)]

example : OnAxis (-3) 5 4 := by simp [OnAxis]

/-- C01: below the axis the lower condition decides (serial build). -/
theorem checkBoundary_below (x x0 x1 : Int) (b0 b1 : BC) (hne : x0 < x1) (hx : x < x0)
    (hr : Reach b0 (x1 - x0) (x0 - x)) :
    Contract b0 x0 x1 x0 x (checkBoundary .serial x x0 x1 b0 b1) := by
  unfold checkBoundary
  rw [if_pos hx]
  cases b0 <;> simp [Contract, Reach, Nearest, PeriodicImage, MirrorImage, OnAxis] at *
  · omega
  · refine ⟨by omega, fun z h1 h2 => by omega⟩
  · refine ⟨by omega, -1, by omega⟩
  · refine ⟨by omega, fun z h1 h2 => by omega⟩

/-- C01: above the axis the upper condition decides (serial build). -/
theorem checkBoundary_above (x x0 x1 : Int) (b0 b1 : BC) (hne : x0 < x1) (hx : x1 ≤ x)
    (hr : Reach b1 (x1 - x0) (x - (x1 - 1))) :
    Contract b1 x0 x1 (x1 - 1) x (checkBoundary .serial x x0 x1 b0 b1) := by
  unfold checkBoundary
  rw [if_neg (by omega), if_pos (by omega)]
  cases b1 <;> simp [Contract, Reach, Nearest, PeriodicImage, MirrorImage, OnAxis] at *
  · omega
  · refine ⟨by omega, fun z h1 h2 => by omega⟩
  · refine ⟨by omega, 1, by omega⟩
  · refine ⟨by omega, fun z h1 h2 => by omega⟩

example : (-3 : Int) < 5 ∧ (-11 : Int) < -3 ∧ Reach .periodic (5 - -3) (-3 - -11) := by simp [Reach]
example : (-3 : Int) < 5 ∧ (5 : Int) ≤ 11 ∧ Reach .mirror (5 - -3) (11 - (5 - 1)) := by simp [Reach]

/-- C01: in an MPI build the wrapped conditions leave the coordinate to the ghost cells, all others act as in
a serial build. -/
theorem checkBoundary_mpi (x x0 x1 : Int) (b0 b1 : BC) :
    checkBoundary .mpi x x0 x1 b0 b1 =
      if (x < x0 ∧ b0 = .periodic) ∨ (x0 ≤ x ∧ x1 ≤ x ∧ b1 = .periodic) then x
      else checkBoundary .serial x x0 x1 b0 b1 := by
  unfold checkBoundary
  by_cases h0 : x < x0
  · cases b0 <;> simp [h0] <;> intros <;> omega
  · by_cases h1 : x ≥ x1
    · have : x0 ≤ x := by omega
      cases b1 <;> simp [h0, h1, this]
    · simp [h0, h1]

/-- C01: the contract determines the node, so the theorems above leave no freedom. -/
theorem contract_unique (b : BC) (x0 x1 e x y z : Int) (hx : ¬ OnAxis x0 x1 x)
    (hy : Contract b x0 x1 e x y) (hz : Contract b x0 x1 e x z) : y = z := by
  cases b <;> simp only [Contract, Nearest, PeriodicImage, MirrorImage, OnAxis] at *
  · omega
  · have h1 := hy.2 z hz.1; have h2 := hz.2 y hy.1; omega
  · obtain ⟨hy, a, ha⟩ := hy
    obtain ⟨hz, c, hc⟩ := hz
    have h : (x1 - x0) ∣ (z - y) := ⟨a - c, by rw [Int.mul_sub]; omega⟩
    have : z - y = 0 := by
      apply Int.eq_zero_of_dvd_of_natAbs_lt_natAbs h
      omega
    omega
  · omega
  · have h1 := hy.2 z hz.1; have h2 := hz.2 y hy.1; omega

/-- C01: subscripting is idempotent as soon as the result is a node. -/
theorem checkBoundary_idem (bd : Build) (x x0 x1 : Int) (b0 b1 : BC)
    (h : OnAxis x0 x1 (checkBoundary bd x x0 x1 b0 b1)) :
    checkBoundary bd (checkBoundary bd x x0 x1 b0 b1) x0 x1 b0 b1 = checkBoundary bd x x0 x1 b0 b1 :=
  checkBoundary_inside _ _ _ _ _ _ h

/-! ## C02: exactly when the result is a node of the axis -/

/-- The condition that governs an outside coordinate. -/
def sideOf (x x0 : Int) (b0 b1 : BC) : BC := if x < x0 then b0 else b1

/-- Distance to the edge node on the side where `x` lies. -/
def outBy (x x0 x1 : Int) : Int := if x < x0 then x0 - x else x - (x1 - 1)

/-- C02: in a serial build, an outside coordinate is mapped to a node of the axis if and only if the side is
not `parallel` and the overshoot is within reach of one wrap. -/
theorem checkBoundary_onAxis_iff (x x0 x1 : Int) (b0 b1 : BC) (hne : x0 < x1) (hx : ¬ OnAxis x0 x1 x) :
    OnAxis x0 x1 (checkBoundary .serial x x0 x1 b0 b1) ↔
      sideOf x x0 b0 b1 ≠ .parallel ∧ Reach (sideOf x x0 b0 b1) (x1 - x0) (outBy x x0 x1) := by
  unfold OnAxis at *
  unfold sideOf outBy checkBoundary
  by_cases h0 : x < x0
  · simp only [h0, if_true]
    cases b0 <;> simp [Reach] <;> omega
  · have h1 : x ≥ x1 := by omega
    simp only [h0, h1, if_true, if_false]
    cases b1 <;> simp [Reach] <;> omega

/-- C02: in an MPI build an outside coordinate on a `periodic` or `parallel` side is not mapped at all; it is an
allocated cell exactly when it is within the ghost layer. -/
theorem checkBoundary_mpi_ghost (x x0 x1 g : Int) (b0 b1 : BC) (hx : ¬ OnAxis x0 x1 x)
    (hb : sideOf x x0 b0 b1 = .periodic ∨ sideOf x x0 b0 b1 = .parallel) :
    OnAxis (x0 - g) (x1 + g) (checkBoundary .mpi x x0 x1 b0 b1) ↔ OnAxis (x0 - g) (x1 + g) x := by
  have : checkBoundary .mpi x x0 x1 b0 b1 = x := by
    unfold OnAxis at hx
    unfold sideOf at hb
    unfold checkBoundary
    by_cases h0 : x < x0
    · simp only [h0, if_true] at *
      rcases hb with rfl | rfl <;> simp
    · have h1 : x ≥ x1 := by omega
      simp only [h0, h1, if_true, if_false] at *
      rcases hb with rfl | rfl <;> simp
  rw [this]

/-- C02 (witness for every axis): one step beyond the reach of a periodic axis the access leaves the axis. -/
theorem periodic_escape (x0 x1 : Int) (b1 : BC) (hne : x0 < x1) :
    ¬ OnAxis x0 x1 (checkBoundary .serial (x0 - (x1 - x0) - 1) x0 x1 .periodic b1) := by
  rw [checkBoundary_onAxis_iff _ _ _ _ _ hne (by unfold OnAxis; omega)]
  simp only [sideOf, outBy]
  rw [if_pos (by omega), if_pos (by omega)]
  simp only [Reach]; omega

/-- C02 (witness for every axis): a full length above a mirrored axis the access leaves the axis. -/
theorem mirror_escape (x0 x1 : Int) (b0 : BC) (hne : x0 < x1) :
    ¬ OnAxis x0 x1 (checkBoundary .serial (x1 - 1 + (x1 - x0)) x0 x1 b0 .mirror) := by
  rw [checkBoundary_onAxis_iff _ _ _ _ _ hne (by unfold OnAxis; omega)]
  simp only [sideOf, outBy]
  rw [if_neg (by omega), if_neg (by omega)]
  simp only [Reach]; omega

example : checkBoundary .serial (-9) 0 4 .periodic .periodic = -5 := by decide

end MMSP
